import Verif.Model.Actor
import Mathlib.Algebra.BigOperators.Group.List.Basic
/-!
# `lithoxyl/actors.py`: the statistics of an actor

The loop of one actor thread, with its clock readings; runs of an actor come one after the other (a thread is started when the
last has ended).  The states between the two are in `Model/Actor.lean`.
-/
namespace Verif.Actor

/-- `_run_start_time`, `_task_call_time`, `_task_call_count` (actors.py:43-45). -/
structure Stats (K : Type) where
  start : K
  time : K
  count : Nat

/-- One round of the loop (actors.py:103-122): the clock before the task and after it, and how the task ended. -/
structure Round (K : Type) where
  before : K
  after : K
  out : Outcome

/-- One run of the thread (actors.py:98-126): the clock at its beginning, what the rounds would be, until the stop, and the
clock before a task that is still going on. -/
structure Run (K : Type) where
  began : K
  rounds : List (Round K)
  pending : Option K

variable {K : Type} [Field K]

/-- The constructor (actors.py:43-45). -/
def statsInit : Stats K := ⟨0, 0, 0⟩

/-- The part of the loop after the task has ended (actors.py:107-120): the time is added, unless an exception leaves the
loop. -/
def roundEnd (daemon : Bool) (s : Stats K) (r : Round K) : Stats K :=
  if lethal daemon r.out then s else { s with time := s.time + (r.after - r.before) }

/-- The loop (actors.py:102-122); it is left by a lethal outcome or by the stop.  The count goes up before the task is called
(103). -/
def statsLoop (daemon : Bool) (s : Stats K) (pending : Option K) : List (Round K) → Stats K
  | [] => match pending with
    | none => s
    | some _ => { s with count := s.count + 1 }
  | r :: rs =>
    let s' := roundEnd daemon { s with count := s.count + 1 } r
    if lethal daemon r.out then s' else statsLoop daemon s' pending rs

/-- `_run` (actors.py:98-126). -/
def statsRun (daemon : Bool) (s : Stats K) (r : Run K) : Stats K :=
  statsLoop daemon { s with start := r.began } r.pending r.rounds

/-- `get_stats` (actors.py:47-51) after the runs of an actor. -/
def getStats (daemon : Bool) (runs : List (Run K)) : Stats K := runs.foldl (statsRun daemon) statsInit

end Verif.Actor
