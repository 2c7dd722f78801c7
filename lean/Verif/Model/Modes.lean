import Verif.Model.Logger
/-!
# Threads that publish, flush, make loggers and switch modes

The interleaving model of `Logger.set_async`, the publishing methods with their test of `async_mode`, `Logger.flush`,
`Logger.__init__` (logger.py:81-136, 186-211, 241-246), and of `enable_async`, `disable_async` and `flush` of a context
(context.py:91-168).  Any number of threads; a schedule is any list of atomic steps.  The atomic steps are single reads
and writes of an attribute, `deque.append`, `deque.popleft` with the test before it (only the holder of the logger's lock
removes events), taking and releasing a lock, copying the table of loggers, and one delivery.

Simplified: a delivery of an event hands it to all sinks of its logger at once (`Model/Concurrent.lean` and
`Model/SyncConc.lean` have the single calls); sinks and preflush hooks do not raise and do not call lithoxyl; the actor is
one of the threads, calling `context.flush`; `disable_async` does not wait for it; copying the table of loggers does not raise
(`Model/Copying.lean` has its steps); flushing a logger whose `__init__` has registered it but not yet made its lock finds its
queue empty (in the code `context.flush` notes an AttributeError and goes on: no event is concerned).
-/
namespace Verif.Modes

abbrev Tid := Nat
abbrev Ev := Nat

/-- Where a thread is. -/
inductive PC
  /-- application code -/
  | idle
  /-- in `on_begin`, `on_warn`, `on_end` or `comment`, at `if self.async_mode` (logger.py:188, 197, 206, 241) -/
  | read (l : LogId) (e : Ev)
  /-- found `async_mode` true, at `event_queue.append` (189, 198, 207, 242) -/
  | append (l : LogId) (e : Ev)
  /-- found `async_mode` false, at the loop over the hooks (191, 200, 209, 244) -/
  | deliver (l : LogId) (e : Ev)
  /-- in `Logger.__init__`, registered with the context, at reading `context.async_mode` (logger.py:88) -/
  | made (l : LogId) (given : Option Bool)
  /-- about to store `async_mode` (logger.py:88, 105) -/
  | set (l : LogId) (b : Bool)
  /-- in `enable_async` or `disable_async`, about to copy the table of loggers (context.py:115, 141) -/
  | snap (disable : Bool)
  /-- in the loop that calls `set_async(False)` (context.py:116-117, 142-143), these loggers still to do -/
  | setting (ls : List LogId) (disable : Bool)
  /-- in `context.flush`, about to copy the table (context.py:149); `off`: called by `disable_async` -/
  | flushSnap (off : Bool)
  /-- in `context.flush`, these loggers still to flush (context.py:150-152), waiting for the lock of the first -/
  | flush (ls : List LogId) (off : Bool)
  /-- in `Logger.flush` of `l` with its lock, at `while queue` (logger.py:118) -/
  | loop (l : LogId) (ls : List LogId) (off : Bool)
  /-- took `e` from the queue of `l`, about to deliver it (logger.py:119-131) -/
  | deliv (l : LogId) (e : Ev) (ls : List LogId) (off : Bool)
deriving DecidableEq

/-- The context, its loggers and the threads.  `pub l` and `got l` are histories: the events of the publishing calls made
on `l`, and those its sinks were handed. -/
structure Sys where
  ctxAsync : Bool := false
  loggers : List LogId := []
  mode : LogId → Bool := fun _ => false
  queue : LogId → List Ev := fun _ => []
  owner : LogId → Option Tid := fun _ => none
  pcs : List PC
  pub : LogId → List Ev := fun _ => []
  got : LogId → List Ev := fun _ => []

/-- What application code of a thread may call; `go` is the next step inside a call. -/
inductive Act
  /-- publish an event -/
  | publish (l : LogId) (e : Ev)
  /-- `Logger(..., async=given)`, or without `async` -/
  | new (l : LogId) (given : Option Bool)
  /-- `logger.set_async(b)` -/
  | setAsync (l : LogId) (b : Bool)
  /-- `context.remove_logger(l)` -/
  | remove (l : LogId)
  /-- `context.enable_async(update_loggers=update)` -/
  | enable (update : Bool)
  /-- `context.disable_async(update_loggers=update)` -/
  | disable (update : Bool)
  /-- `context.flush()` -/
  | flush
  /-- `logger.flush()` -/
  | flushLogger (l : LogId)
  /-- go on -/
  | go
deriving DecidableEq

/-- Change a function at one point. -/
def upd {α : Type} (f : LogId → α) (l : LogId) (a : α) : LogId → α := fun m => if m = l then a else f m

/-- Move a thread. -/
def Sys.to (s : Sys) (t : Tid) (p : PC) : Sys := { s with pcs := s.pcs.set t p }

/-- A call from application code. -/
def call (s : Sys) (t : Tid) : Act → Sys
  | .publish l e => { s with pub := upd s.pub l (s.pub l ++ [e]) }.to t (.read l e)
  -- logger.py:81-88, context.py:158-161
  | .new l g => { s with loggers := if l ∈ s.loggers then s.loggers else s.loggers ++ [l] }.to t (.made l g)
  | .setAsync l b => s.to t (.set l b)
  -- context.py:163-168
  | .remove l => { s with loggers := s.loggers.filter (· ≠ l) }
  -- context.py:104
  | .enable u => { s with ctxAsync := true }.to t (if u then .snap false else .idle)
  | .disable u => s.to t (if u then .snap true else .flushSnap true)
  | .flush => s.to t (.flushSnap false)
  | .flushLogger l => s.to t (.flush [l] false)
  | .go => s

/-- The next step of a thread inside a call. -/
def go (s : Sys) (t : Tid) : PC → Sys
  | .idle => s
  | .read l e => s.to t (if s.mode l then .append l e else .deliver l e)
  | .append l e => { s with queue := upd s.queue l (pushBounded QUEUE_LIMIT (s.queue l) e) }.to t .idle
  | .deliver l e => { s with got := upd s.got l (s.got l ++ [e]) }.to t .idle
  | .made l g => s.to t (.set l (g.getD s.ctxAsync))
  | .set l b => { s with mode := upd s.mode l b }.to t .idle
  | .snap d => s.to t (.setting s.loggers d)
  | .setting [] d => s.to t (if d then .flushSnap true else .idle)
  | .setting (l :: ls) d => { s with mode := upd s.mode l false }.to t (.setting ls d)
  | .flushSnap off => s.to t (.flush s.loggers off)
  -- context.py:145-146
  | .flush [] off => (if off then { s with ctxAsync := false } else s).to t .idle
  | .flush (l :: ls) off =>
    if s.owner l = none then { s with owner := upd s.owner l (some t) }.to t (.loop l ls off) else s
  | .loop l ls off =>
    match s.queue l with
    | [] => { s with owner := upd s.owner l none }.to t (.flush ls off)
    | e :: q => { s with queue := upd s.queue l q }.to t (.deliv l e ls off)
  | .deliv l e ls off => { s with got := upd s.got l (s.got l ++ [e]) }.to t (.loop l ls off)

/-- One step of thread `t`: a call if it is in application code, the next step of the call it is in otherwise.  Steps that
are not possible change nothing. -/
def step (s : Sys) (t : Tid) (a : Act) : Sys :=
  match s.pcs[t]? with
  | none => s
  | some p => if a = .go then go s t p else if p = .idle then call s t a else s

/-- A schedule. -/
def run (s : Sys) (sched : List (Tid × Act)) : Sys := sched.foldl (fun s p => step s p.1 p.2) s

/-- `n` threads in application code, no loggers yet. -/
def init (n : Nat) : Sys := { pcs := List.replicate n .idle }

end Verif.Modes
