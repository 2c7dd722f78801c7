import Verif.Model.Concurrent
/-!
# Processes that share an asynchronous logger by forking

`os.fork` copies the logger as it is: its queue (logger.py:88), and its lock in the state it is in (logger.py:90).  Only the
thread that forks lives on in the child.  lithoxyl does nothing about this: it provides for forks in the GUIDs
(utils.py:171-189, 221-222) and in the actor (actors.py:59-64), but has no handler that empties the queue or makes a new
lock.

Each process runs the threads of `Model/Concurrent.lean`.  Simplified: one logger; sinks keep nothing between calls (a file
with a buffer is duplicated by a fork too); the number of a thread that held the lock at the fork is not given to a new
thread.
-/
namespace Verif.Fork
open Verif.Conc

/-- A process: the logger and its threads.  `trace` and `pub` of `sys` are what this process has done since it was made;
`gone` is the thread that held the lock at the fork, if it was not the one that forked; `start` is history: `sys` as it was
at the beginning. -/
structure Proc where
  sys : Sys := {}
  gone : Option Tid := none
  start : Sys := {}

/-- The child of a fork by thread `t`.  In the child the other threads do not exist; the one that held the lock is kept here
where it was, but does not move again. -/
def Proc.fork (p : Proc) (t : Tid) : Proc :=
  let s : Sys :=
    { queue := p.sys.queue
      owner := p.sys.owner
      pc := fun u => if u = t ∨ p.sys.owner = some u then p.sys.pc u else .idle
      trace := []
      pub := [] }
  { sys := s, gone := if p.sys.owner = some t then none else p.sys.owner, start := s }

/-- One step of a history. -/
inductive WAct
  /-- thread `t` of process `n` does a step -/
  | step (n : Nat) (t : Tid) (a : Conc.Act)
  /-- thread `t` of process `n`, in application code, calls `os.fork` -/
  | fork (n : Nat) (t : Tid)

/-- A step of a thread, if it exists. -/
def Proc.step (c : Conf) (p : Proc) (t : Tid) (a : Conc.Act) : Proc :=
  if p.gone = some t then p else { p with sys := Conc.step c p.sys t a }

/-- One step of all processes, which are numbered in the order they are made; none for what cannot be done. -/
def wstep (c : Conf) (w : List Proc) : WAct → List Proc
  | .step n t a => w.modify n fun p => p.step c t a
  | .fork n t =>
    match w[n]? with
    | none => w
    | some p => if (p.sys.pc t).foreign ∧ p.gone ≠ some t then w ++ [p.fork t] else w

/-- A history, of one process at first. -/
def wrun (c : Conf) (w : List Proc) (h : List WAct) : List Proc := h.foldl (wstep c) w

end Verif.Fork
