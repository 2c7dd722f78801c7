import Verif.Model.Core
/-!
# `lithoxyl/logger.py`: sinks, hooks, publishing, flushing; `context.note`
-/
namespace Verif

/-- `QUEUE_LIMIT` (logger.py:19). -/
def QUEUE_LIMIT : Nat := 10000

/-- `deque(maxlen=n).append(x)`: drops from the left when full (logger.py:87, 189). -/
def pushBounded {α : Type} (n : Nat) (q : List α) (x : α) : List α :=
  (q ++ [x]).drop ((q.length + 1) - n)

/-- One call into foreign code: it is recorded, and may raise. -/
def callback (env : Env) (w : World) (o : Obs) : World × Option Exc :=
  ({ w with trace := w.trace ++ [o] }, env.raises w.trace o)

/-- `for hook in hooks: hook(...)`: stops at the first exception, which propagates
(e.g. logger.py:191-192). -/
def callAll (env : Env) : List Obs → World → World × Option Exc
  | [], w => (w, none)
  | o :: os, w =>
    match callback env w o with
    | (w', none) => callAll env os w'
    | (w', some e) => (w', some e)

/-- The calls an event causes: one per hook of its kind, in list order. -/
def hookCalls (L : Log) (k : Kind) (e : Event) : List Obs :=
  (L.hooks k).map (fun s => Obs.hook s k e)

/-- `LithoxylContext.note` (context.py:74-89) as used inside lithoxyl: every handler is called in
order, a raising handler stops the loop.  The formatting of the message is modelled in
`Model/Note.lean`; only the name is kept here. -/
def noteAll (env : Env) (name : String) (w : World) : World × Option Exc :=
  callAll env (w.noteHandlers.map (fun h => Obs.note h name)) w

/-- `Logger.on_begin`, `on_end`, `on_warn` (logger.py:186-211) and the tail of `Logger.comment`
(logger.py:241-245): queue in async mode, otherwise call the hooks now. -/
def publish (env : Env) (w : World) (l : LogId) (k : Kind) (e : Event) : World × Option Exc :=
  let w := { w with pub := w.pub ++ [(k, e)] }
  match w.logs l with
  | none => (w, none)          -- cannot happen: an action's logger exists
  | some L =>
    if L.async then
      (w.setLog l { L with queue := pushBounded QUEUE_LIMIT L.queue (k, e) }, none)
    else
      callAll env (hookCalls L k e) w

/-- `Logger.on_exception` (logger.py:213-218): always synchronous. -/
def publishExc (env : Env) (w : World) (l : LogId) (e : Event) : World × Option Exc :=
  match w.logs l with
  | none => (w, none)
  | some L => callAll env (hookCalls L .exception e) w

/-- The preflush loop (logger.py:111-116): an `Exception` is noted and the loop goes on; anything
else propagates, and so does an exception of a note handler. -/
def runPreflush (env : Env) (l : LogId) : List Nat → World → World × Option Exc
  | [], w => (w, none)
  | h :: hs, w =>
    match callback env w (.preflush l h) with
    | (w', none) => runPreflush env l hs w'
    | (w', some e) =>
      match e.cls with
      | .baseOnly => (w', some e)
      | .ordinary =>
        match noteAll env "preflush" w' with
        | (w'', none) => runPreflush env l hs w''
        | (w'', some e') => (w'', some e')

/-- The body of the queue loop for one popped entry (logger.py:119-134).  The last branch
(`unknown event type`) is the `exception` kind, which is never queued. -/
def deliver (env : Env) (L : Log) (k : Kind) (e : Event) (w : World) : World × Option Exc :=
  match k with
  | .exception => noteAll env "flush" w
  | _ => callAll env (hookCalls L k e) w

/-- `while queue: popleft; call hooks` (logger.py:118-134), started with queue `q`.  Sinks do not call
back into the logger here (re-entrant sinks: `Model/Reentrant.lean`), so the queue only shrinks. -/
def drain (env : Env) (l : LogId) (L : Log) :
    List (Kind × Event) → World → World × Option Exc
  | [], w => (w.setLog l { L with queue := [] }, none)
  | (k, e) :: q, w =>
    match deliver env L k e (w.setLog l { L with queue := q }) with
    | (w', none) => drain env l L q w'
    | (w', some x) => (w', some x)

/-- `Logger.flush` (logger.py:107-136).  The lock matters only with threads
(`Model/Concurrent.lean`). -/
def flush (env : Env) (w : World) (l : LogId) : World × Option Exc :=
  match w.logs l with
  | none => (w, none)
  | some L =>
    match runPreflush env l L.preflush w with
    | (w1, some e) => (w1, some e)
    | (w1, none) =>
      match drain env l L L.queue w1 with
      | (w2, some e) => (w2, some e)
      | (w2, none) =>
        (w2.tick.setLog l { L with queue := [], lastFlush := w2.now env }, none)

/-- `Logger.add_sink` (logger.py:161-184). -/
def addSink (env : Env) (L : Log) (s : SinkId) : Log :=
  if s ∈ L.sinks then L
  else
    { L with
      hooks := fun k => if env.hasHook s k then L.hooks k ++ [s] else L.hooks k
      sinks := L.sinks ++ [s] }

/-- `Logger.set_sinks` (logger.py:145-155). -/
def setSinks (env : Env) (L : Log) (ss : List SinkId) : Log :=
  ss.foldl (addSink env) { L with sinks := [], hooks := fun _ => [] }

/-- `Logger.__init__` (logger.py:81-102): async mode from the keyword or else from the context. -/
def newLog (env : Env) (w : World) (sinks : List SinkId) (async : Option Bool) : Log :=
  setSinks env
    { sinks := [], hooks := fun _ => [], async := async.getD w.ctxAsync, queue := [],
      preflush := [], lastFlush := w.now env } sinks

end Verif
