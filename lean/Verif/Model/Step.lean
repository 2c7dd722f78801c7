import Verif.Model.Context
/-!
# Histories of API calls

`Op` is one public call other than entering or leaving a with block; `Item` adds `__enter__` and
`__exit__`, so a list of items is an arbitrary, possibly badly nested history.  Exceptions that come out
of a call are returned to the caller; a history goes on after them.
-/
namespace Verif

/-- One public call.  Actions are named by id; a call on an id the application does not hold (no such
action, or the hidden action of a comment) is no call at all and changes nothing. -/
inductive Op
  /-- `Logger(name, sinks, async=...)` (logger.py:81-102) -/
  | newLogger (l : LogId) (sinks : List SinkId) (async : Option Bool)
  /-- `logger.debug/info/critical/action(...)` (logger.py:248-274) -/
  | newAction (l : LogId) (level : Int) (name : String) (kw : Dict)
  | begin (a : ActId) (m : Option String) (fargs : List Val) (kw : Dict)
  | warn (a : ActId) (m : String) (fargs : List Val) (kw : Dict)
  | success (a : ActId) (m : Option String) (fargs : List Val) (kw : Dict)
  | failure (a : ActId) (m : Option String) (fargs : List Val) (kw : Dict)
  /-- `act.exception(...)` while handling `cur` -/
  | exception (a : ActId) (cur : Option Exc) (m : Option String) (fargs : List Val) (kw : Dict)
  | setItem (a : ActId) (k : String) (v : Val)
  | comment (l : LogId) (m : String) (fargs : List Val) (kw : Dict)
  | flush (l : LogId)
  | setAsync (l : LogId) (b : Bool)
  | setSinks (l : LogId) (ss : List SinkId)
  | addSink (l : LogId) (s : SinkId)
  | clearSinks (l : LogId)
  /-- `logger.preflush_hooks.append(h)` -/
  | addPreflush (l : LogId) (h : Nat)
  /-- `context.note_handlers.append(h)` -/
  | addNoteHandler (h : Nat)
  | ctxFlush
  | enableAsync (updateLoggers : Bool)
  | disableAsync (updateLoggers : Bool)
  | addLogger (l : LogId)
  | removeLogger (l : LogId)

/-- What a call gives back. -/
inductive Res
  | ok
  | newAct (a : ActId)
  | exc (e : Exc)
deriving DecidableEq

/-- Outcome of a call that returns nothing interesting. -/
def Res.ofExc : Option Exc → Res
  | none => .ok
  | some e => .exc e

/-- The exception of a result, if it is one. -/
def Res.exc? : Res → Option Exc
  | .exc e => some e
  | _ => none

/-- Package a procedure's outcome as a step result. -/
def ret (r : World × Option Exc) : World × Res := (r.1, Res.ofExc r.2)

/-- Does the application hold action `a`? -/
def World.held (w : World) (a : ActId) : Bool :=
  match w.acts a with
  | some x => x.handle
  | none => false

/-- Run `f` only if the application holds `a`. -/
def guard (w : World) (a : ActId) (r : World × Option Exc) : World × Res :=
  if w.held a then ret r else (w, .ok)

/-- Update a logger record, if the logger exists. -/
def onLog (w : World) (l : LogId) (f : Log → Log) : World :=
  match w.logs l with
  | none => w
  | some L => w.setLog l (f L)

/-- One call. -/
def step (env : Env) (w : World) : Op → World × Res
  | .newLogger l ss async =>
    match w.logs l with
    | some _ => (w, .ok)
    | none => (addLogger (w.tick.setLog l (newLog env w ss async)) l, .ok)
  | .newAction l level name kw =>
    match w.logs l with
    | none => (w, .ok)
    | some _ => ((newAction w l level name kw).1, .newAct (newAction w l level name kw).2)
  | .begin a m f kw => guard w a (begin_ env w a m f kw)
  | .warn a m f kw => guard w a (warn env w a m f kw)
  | .success a m f kw => guard w a (success env w a m f kw)
  | .failure a m f kw => guard w a (failure env w a m f kw)
  | .exception a cur m f kw => guard w a (exception_ env w a cur m f kw)
  | .setItem a k v => guard w a (Verif.setItem w a k v, none)
  | .comment l m f kw => ret (comment env w l m f kw)
  | .flush l => ret (flush env w l)
  | .setAsync l b => (setAsync w l b, .ok)
  | .setSinks l ss => (onLog w l (fun L => setSinks env L ss), .ok)
  | .addSink l s => (onLog w l (fun L => addSink env L s), .ok)
  | .clearSinks l => (onLog w l (fun L => setSinks env L []), .ok)
  | .addPreflush l h => (onLog w l (fun L => { L with preflush := L.preflush ++ [h] }), .ok)
  | .addNoteHandler h => ({ w with noteHandlers := w.noteHandlers ++ [h] }, .ok)
  | .ctxFlush => ret (ctxFlush env w.ctxLoggers w)
  | .enableAsync u => (enableAsync w u, .ok)
  | .disableAsync u => ret (disableAsync env w u)
  | .addLogger l => (match w.logs l with | none => w | some _ => addLogger w l, .ok)
  | .removeLogger l => (removeLogger w l, .ok)

/-- A history item: a call, `act.__enter__()`, or `act.__exit__(exc)`. -/
inductive Item
  | op (o : Op)
  | enter (a : ActId)
  | exit (a : ActId) (exc : Option Exc)

/-- One item. -/
def stepItem (env : Env) (w : World) : Item → World
  | .op o => (step env w o).1
  | .enter a => (guard w a (enter env w a)).1
  | .exit a exc => if w.held a then (exit env w a exc).1 else w

/-- A whole history. -/
def run (env : Env) (w : World) (items : List Item) : World := items.foldl (stepItem env) w

/-- The states an application can bring a fresh process to. -/
def Reachable (env : Env) (w : World) : Prop := ∃ items, w = run env World.init items

end Verif
