import Verif.Model.Logger
/-!
# Threads publishing to and flushing one asynchronous logger

The interleaving model of `Logger.flush` (logger.py:107-136) and of the publishing methods in asynchronous mode
(logger.py:186-211, 241-242).  Any number of threads (`Tid` is unbounded); a schedule is any list of atomic
steps of threads.  The atomic steps are those CPython guarantees or the lock gives: `deque.append`,
`deque.popleft`, testing the queue for emptiness, taking and releasing the lock, and starting or returning from
a call into a sink.  Between two of them any other thread may run, any number of steps.

Foreign code that a flush calls (sinks and preflush hooks) may itself publish to the logger while it runs; it
does not call `flush` (see `Model/Reentrant.lean` for that).  The set of sinks does not change meanwhile.
A step that is not possible for the thread (publishing while inside flush's own code, waiting for a lock that
is held) changes nothing, so that every list of steps is a schedule.
-/
namespace Verif.Conc

abbrev Tid := Nat

/-- Where a thread is. -/
inductive PC
  /-- application code, outside `flush` -/
  | idle
  /-- at `with self.async_lock` (logger.py:110) -/
  | waiting
  /-- holds the lock; preflush hooks still to call (111-116); in the application's hook if `called` -/
  | pre (called : Bool) (hooks : List Nat)
  /-- at `while queue` (118) -/
  | loop
  /-- found the queue non-empty, about to `popleft` (119) -/
  | popping
  /-- in one of the `for hook in hooks` loops (120-131), these hooks still to call -/
  | calling (k : Kind) (e : Event) (rest : List SinkId)
  /-- inside a sink, these hooks still to call after it -/
  | inHook (k : Kind) (e : Event) (rest : List SinkId)
deriving DecidableEq

/-- Is the thread in the part of `flush` that is under the lock? -/
def PC.locked : PC → Bool
  | .idle | .waiting => false
  | _ => true

/-- Is the thread running application code, which may publish? -/
def PC.foreign : PC → Bool
  | .idle | .inHook .. | .pre true _ => true
  | _ => false

/-- The logger and its threads.  `pub` is the history of publications in the order of the appends. -/
structure Sys where
  queue : List (Kind × Event) := []
  owner : Option Tid := none
  pc : Tid → PC := fun _ => .idle
  trace : List Obs := []
  pub : List (Kind × Event) := []

/-- What does not change: the logger's id, its hooks per kind of event, and its preflush hooks. -/
structure Conf where
  logger : LogId
  hooks : Kind → List SinkId
  preflush : List Nat

/-- One step of a thread. -/
inductive Act
  /-- `on_begin`, `on_end`, `on_warn` or `comment` in asynchronous mode: `event_queue.append` -/
  | publish (k : Kind) (e : Event)
  /-- call `flush` -/
  | flush
  /-- go on to the next point in `flush`; inside foreign code: it returns -/
  | go
  /-- an exception comes out of `flush`: foreign code raises it (anything for sinks; for preflush hooks only what is not an
  `Exception`, or what a note handler raises about it), or a signal handler does, such as lithoxyl's own
  (context.py:171-175), at whatever point the thread is -/
  | raise
deriving DecidableEq

/-- Move a thread. -/
def Sys.at (s : Sys) (t : Tid) (p : PC) : Sys := { s with pc := fun t' => if t' = t then p else s.pc t' }

/-- Leave `flush`, releasing the lock (the end of the `with`, logger.py:110). -/
def Sys.leave (s : Sys) (t : Tid) : Sys := { s with owner := none }.at t .idle

/-- One step of thread `t`. -/
def step (c : Conf) (s : Sys) (t : Tid) : Act → Sys
  | .publish k e =>
    if (s.pc t).foreign then
      { s with queue := pushBounded QUEUE_LIMIT s.queue (k, e), pub := s.pub ++ [(k, e)] }
    else s
  | .flush => if s.pc t = .idle then s.at t .waiting else s
  | .go =>
    match s.pc t with
    | .idle => s
    | .waiting => if s.owner = none then { s with owner := some t }.at t (.pre false c.preflush) else s
    | .pre false [] => s.at t .loop
    | .pre false (h :: hs) => { s with trace := s.trace ++ [Obs.preflush c.logger h] }.at t (.pre true hs)
    | .pre true hs => s.at t (.pre false hs)
    | .loop => if s.queue = [] then s.leave t else s.at t .popping
    | .popping =>
      match s.queue with
      | [] => s.leave t                              -- IndexError; shown not to happen
      | (k, e) :: q => { s with queue := q }.at t (.calling k e (c.hooks k))
    | .calling _ _ [] => s.at t .loop
    | .calling k e (i :: rest) => { s with trace := s.trace ++ [Obs.hook i k e] }.at t (.inHook k e rest)
    | .inHook k e rest => s.at t (.calling k e rest)
  | .raise =>
    match s.pc t with
    | .idle => s
    | .waiting => s.at t .idle
    | _ => s.leave t

/-- A schedule: any list of steps of any threads. -/
def run (c : Conf) (s : Sys) (sched : List (Tid × Act)) : Sys := sched.foldl (fun s p => step c s p.1 p.2) s

end Verif.Conc
