import Verif.Model.Logger
/-!
# Sinks that use the logger they are attached to

`Logger.flush` (logger.py:107-136) on one asynchronous logger whose sinks publish to it or flush it from inside
their hooks.  The lock is an `RLock` (logger.py:89), so a `flush` called by a sink from within a flush of the
same thread goes ahead.  Preflush hooks are left out, sinks do not raise.  A flush that does not come to an end
has no result for any amount of fuel.
-/
namespace Verif.Reentrant

/-- What a sink does with its logger while it handles an event. -/
inductive Cmd
  | publish (k : Kind) (e : Event)
  | flush
deriving DecidableEq

/-- The hooks per kind, and how a sink reacts to an event, given all that has happened before.  `limit` is the
`maxlen` of the queue: `QUEUE_LIMIT` (logger.py:19, 87), but nothing here depends on its value. -/
structure Conf where
  limit : Nat
  hooks : Kind → List SinkId
  react : SinkId → Kind → Event → List Obs → List Cmd

/-- The logger.  `pub` is the history of publications. -/
structure St where
  queue : List (Kind × Event)
  trace : List Obs
  pub : List (Kind × Event)

/-- `event_queue.append` (logger.py:189, 198, 207, 242) -/
def St.publish (n : Nat) (s : St) (k : Kind) (e : Event) : St :=
  { s with queue := pushBounded n s.queue (k, e), pub := s.pub ++ [(k, e)] }

/-- A sink's calls on the logger, in order; `fl` is `flush`. -/
def runCmds (n : Nat) (fl : St → Option St) : List Cmd → St → Option St
  | [], s => some s
  | .publish k e :: cs, s => runCmds n fl cs (s.publish n k e)
  | .flush :: cs, s =>
    match fl s with
    | none => none
    | some s => runCmds n fl cs s

/-- `for hook in hooks: hook(ev)` (logger.py:120-131). -/
def callHooks (c : Conf) (fl : St → Option St) (k : Kind) (e : Event) : List SinkId → St → Option St
  | [], s => some s
  | i :: is, s =>
    match runCmds c.limit fl (c.react i k e s.trace) { s with trace := s.trace ++ [Obs.hook i k e] } with
    | none => none
    | some s => callHooks c fl k e is s

/-- `flush`: `while queue: popleft; call the hooks` (logger.py:117-134).  Fuel bounds both the number of rounds
and the nesting. -/
def flush (c : Conf) : Nat → St → Option St
  | 0, _ => none
  | fuel + 1, s =>
    match s.queue with
    | [] => some s
    | (k, e) :: q =>
      match callHooks c (flush c fuel) k e (c.hooks k) { s with queue := q } with
      | none => none
      | some s => flush c fuel s

end Verif.Reentrant
