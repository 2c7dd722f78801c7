import Verif.Model.Core
/-!
# Hooks for the active action

A context finds and sets the active action of a logger through two functions that may be given to it: `get_active_parent`
and `set_active_parent` (context.py:69-72).  The defaults keep one action per logger (context.py:40-52); an application with
threads, greenlets or coroutines gives functions that keep one per logger and thread.  This model has both: `key` says under
what the active action is kept, and is the only difference.

Simplified: what does not concern parents is left out: events, sinks and data.  Actions are known by their thread and a
number of the thread's own.  A thread enters and leaves blocks of its own actions; every step is atomic.
-/
namespace Verif.Parents

abbrev Tid := Nat

/-- An action: the thread that made it and its number there. -/
abbrev Id := Tid × Nat

inductive Op
  /-- `logger.info(...)`, perhaps with `parent_action=` (action.py:66-92) -/
  | make (i : Nat) (l : LogId) (given : Option Id)
  /-- `__enter__` (action.py:245-248) -/
  | enter (i : Nat)
  /-- `__exit__` (action.py:250-271), with or without an exception -/
  | exit (i : Nat)
deriving DecidableEq, Repr

/-- What the hooks keep, and every action's logger and parent. -/
structure S (κ : Type) where
  active : κ → Option Id := fun _ => none
  info : Id → Option (LogId × Option Id) := fun _ => none

variable {κ : Type} [DecidableEq κ]

/-- `set_active_parent` (context.py:47-52, or the one given). -/
def S.set (s : S κ) (k : κ) (a : Option Id) : S κ := { s with active := fun k' => if k' = k then a else s.active k' }

/-- One call of thread `t`. -/
def step (key : Tid → LogId → κ) (s : S κ) (t : Tid) : Op → S κ
  -- action.py:87-90; every action is made once
  | .make i l given =>
    match s.info (t, i) with
    | some _ => s
    | none => { s with info := fun a => if a = (t, i) then some (l, given.or (s.active (key t l))) else s.info a }
  | .enter i =>
    match s.info (t, i) with
    | some (l, _) => s.set (key t l) (some (t, i))
    | none => s
  | .exit i =>
    match s.info (t, i) with
    | some (l, p) => s.set (key t l) p
    | none => s

/-- Any interleaving. -/
def run (key : Tid → LogId → κ) (s : S κ) (sched : List (Tid × Op)) : S κ :=
  sched.foldl (fun s x => step key s x.1 x.2) s

/-- The default hooks (context.py:40-52): one active action per logger. -/
def perLogger (_ : Tid) (l : LogId) : LogId := l

/-- Hooks that keep one per thread and logger. -/
def perThread (t : Tid) (l : LogId) : Tid × LogId := (t, l)

end Verif.Parents
