import Verif.Model.Core
/-!
# Threads using one synchronous logger

The interleaving model of the publishing methods in synchronous mode (logger.py:186-219, 243-245) and of `set_sinks`,
`clear_sinks` and `add_sink` (logger.py:145-184).  Any number of threads; a schedule is any list of atomic steps.  Lists are
objects: a `for` loop holds on to the list object it began with, and sees what is appended to it meanwhile; `set_sinks` puts
new list objects into the logger's attributes, one after the other.

Sinks and application code between two steps of a thread may call the logger again: the thread has a stack of calls.  A step
that a thread cannot make changes nothing, so that every list of steps is a schedule.

Simplification: looking up an attribute of the logger and appending to the list found there is one step.
-/
namespace Verif.SyncConc

abbrev Tid := Nat

/-- The attributes that hold lists: `_all_sinks` and the five hook lists (logger.py:148-153). -/
inductive Slot
  | all
  | hook (k : Kind)
deriving DecidableEq, Repr

/-- A call of a thread that has not returned. -/
inductive Frame
  /-- at the top of `for hook in hooks` (logger.py:191-192 and the like): list object and position -/
  | iter (k : Kind) (e : Event) (l : Nat) (i : Nat)
  /-- inside a hook called by that loop -/
  | inHook (k : Kind) (e : Event) (l : Nat) (i : Nat)
  /-- at `if sink in self._all_sinks` (logger.py:166) -/
  | addStart (s : SinkId)
  /-- in `add_sink` after it; lists still to append to (logger.py:168-184) -/
  | adding (s : SinkId) (rest : List Slot)
  /-- in `set_sinks`: attributes still to replace, then sinks still to add (logger.py:148-155) -/
  | setting (rest : List Slot) (ss : List SinkId)
deriving DecidableEq

/-- The logger and its threads.  `trace`: hook calls, with the thread that makes them.  `pub`: publications, with their thread
and the hooks registered at that moment (history only). -/
structure Sys where
  heap : Nat → List SinkId
  ptr : Slot → Nat
  next : Nat
  stack : Tid → List Frame := fun _ => []
  trace : List (Tid × SinkId × Kind × Event) := []
  pub : List (Tid × Kind × Event × List SinkId) := []

/-- One step of a thread. -/
inductive Act
  /-- call `on_begin`, `on_warn`, `on_end`, `on_exception` or `comment` -/
  | publish (k : Kind) (e : Event)
  | addSink (s : SinkId)
  | setSinks (ss : List SinkId)
  /-- go on; inside a hook: it returns -/
  | go
  /-- a hook raises -/
  | raise
deriving DecidableEq

/-- May the thread call the logger now? -/
def free : List Frame → Bool
  | [] => true
  | .inHook .. :: _ => true
  | _ => false

/-- Replace the stack of a thread. -/
def Sys.at (s : Sys) (t : Tid) (fs : List Frame) : Sys :=
  { s with stack := fun t' => if t' = t then fs else s.stack t' }

/-- Append to the list object in an attribute. -/
def Sys.append (s : Sys) (sl : Slot) (x : SinkId) : Sys :=
  { s with heap := fun l => if l = s.ptr sl then s.heap l ++ [x] else s.heap l }

/-- Put a new, empty list object into an attribute. -/
def Sys.replace (s : Sys) (sl : Slot) : Sys :=
  { s with
    heap := fun l => if l = s.next then [] else s.heap l
    ptr := fun sl' => if sl' = sl then s.next else s.ptr sl'
    next := s.next + 1 }

/-- The kinds in the order of `add_sink` (logger.py:168-182). -/
def kinds : List Kind := [.begin, .warn, .end_, .exception, .comment]

/-- The attributes in the order of `set_sinks` (logger.py:148-153). -/
def slots : List Slot := [.all, .hook .begin, .hook .warn, .hook .end_, .hook .exception, .hook .comment]

/-- One step of thread `t`.  `has`: which hooks a sink has. -/
def step (has : SinkId → Kind → Bool) (s : Sys) (t : Tid) : Act → Sys
  | .publish k e =>
    if free (s.stack t) then
      { s with pub := s.pub ++ [(t, k, e, s.heap (s.ptr (.hook k)))] }.at t
        (.iter k e (s.ptr (.hook k)) 0 :: s.stack t)
    else s
  | .addSink x => if free (s.stack t) then s.at t (.addStart x :: s.stack t) else s
  | .setSinks xs => if free (s.stack t) then s.at t (.setting slots xs :: s.stack t) else s
  | .go =>
    match s.stack t with
    | [] => s
    | .iter k e l i :: fs =>
      match (s.heap l)[i]? with
      | none => s.at t fs
      | some x => { s with trace := s.trace ++ [(t, x, k, e)] }.at t (.inHook k e l (i + 1) :: fs)
    | .inHook k e l i :: fs => s.at t (.iter k e l i :: fs)
    | .addStart x :: fs =>
      if x ∈ s.heap (s.ptr .all) then s.at t fs
      else s.at t (.adding x ((kinds.filter (has x)).map .hook ++ [.all]) :: fs)
    | .adding _ [] :: fs => s.at t fs
    | .adding x (sl :: rest) :: fs => (s.append sl x).at t (.adding x rest :: fs)
    | .setting (sl :: rest) xs :: fs => (s.replace sl).at t (.setting rest xs :: fs)
    | .setting [] (x :: xs) :: fs => s.at t (.addStart x :: .setting [] xs :: fs)
    | .setting [] [] :: fs => s.at t fs
  | .raise =>
    match s.stack t with
    | .inHook _ _ _ _ :: fs => s.at t fs
    | _ => s

/-- A schedule. -/
def run (has : SinkId → Kind → Bool) (s : Sys) (sched : List (Tid × Act)) : Sys :=
  sched.foldl (fun s p => step has s p.1 p.2) s

/-- A logger with these sinks and hooks, all threads outside it. -/
def init (sinks : List SinkId) (hooks : Kind → List SinkId) : Sys where
  ptr
    | .all => 0
    | .hook .begin => 1
    | .hook .warn => 2
    | .hook .end_ => 3
    | .hook .exception => 4
    | .hook .comment => 5
  heap
    | 0 => sinks
    | 1 => hooks .begin
    | 2 => hooks .warn
    | 3 => hooks .end_
    | 4 => hooks .exception
    | 5 => hooks .comment
    | _ => []
  next := 6

end Verif.SyncConc
