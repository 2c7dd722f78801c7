import Verif.Model.Logger
/-!
# Loggers the application lets go of

A context knows its loggers through a `weakref.WeakKeyDictionary` (context.py:60, 158-168), so it does not keep them
alive.  Neither do their queues: an event refers to its action, the action to its logger, but only the logger refers to
its queue (logger.py:87).  Once the application has dropped a logger and its actions, the garbage collector may take it,
and the queue with it, at any moment.  `flush` copies the table first (context.py:149), which keeps the loggers in the
copy alive until it has got to them.

The model: asynchronous loggers (synchronous ones have no queue to lose), sinks that do not raise, one thread beside the
garbage collector.  Simplified: a delivery hands the event to all sinks; `Logger.flush` is one step (`Model/Logger.lean`
and `Model/Concurrent.lean` have its parts); queues are not bounded here.
-/
namespace Verif.Weak

abbrev Ev := Nat

/-- The context.  `refs`: the loggers the application refers to, directly or through an action; `snap`: in a
`context.flush()` under way, the loggers still to flush.  `got` is the history of deliveries. -/
structure Sys where
  table : List LogId := []
  refs : List LogId := []
  queue : LogId → List Ev := fun _ => []
  snap : List LogId := []
  got : LogId → List Ev := fun _ => []

inductive Op
  /-- `Logger(...)` (logger.py:81-102): made, referred to, registered -/
  | make (l : LogId)
  /-- an event is published (logger.py:189, 198, 207, 242); the application must still have the logger -/
  | publish (l : LogId) (e : Ev)
  /-- the application's last reference to the logger and its actions goes away -/
  | drop (l : LogId)
  /-- the garbage collector takes the logger, if nothing refers to it -/
  | collect (l : LogId)
  /-- `context.remove_logger(l)` (context.py:163-168) -/
  | remove (l : LogId)
  /-- `context.flush()` is called: the table is copied (context.py:149) -/
  | flush
  /-- the flush under way flushes the next logger (context.py:150-152) -/
  | next
deriving DecidableEq

/-- One step. -/
def step (s : Sys) : Op → Sys
  | .make l =>
    if l ∈ s.table ∨ l ∈ s.refs ∨ l ∈ s.snap then s       -- every logger is made once
    else { s with table := s.table ++ [l], refs := l :: s.refs, queue := fun m => if m = l then [] else s.queue m }
  | .publish l e =>
    if l ∈ s.refs then { s with queue := fun m => if m = l then s.queue l ++ [e] else s.queue m } else s
  | .drop l => { s with refs := s.refs.filter (· ≠ l) }
  | .collect l =>
    if l ∈ s.refs ∨ l ∈ s.snap then s
    else { s with table := s.table.filter (· ≠ l), queue := fun m => if m = l then [] else s.queue m }
  | .remove l => { s with table := s.table.filter (· ≠ l) }
  | .flush => if s.snap = [] then { s with snap := s.table } else s
  | .next =>
    match s.snap with
    | [] => s
    | l :: ls =>
      { s with
        snap := ls
        queue := fun m => if m = l then [] else s.queue m
        got := fun m => if m = l then s.got l ++ s.queue l else s.got m }

def run (s : Sys) (ops : List Op) : Sys := ops.foldl step s

end Verif.Weak
