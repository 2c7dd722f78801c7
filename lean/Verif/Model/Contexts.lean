import Verif.Model.Step
import Mathlib.Logic.Function.Basic
/-!
# Several contexts (lithoxyl/context.py, logger.py:84-88)

`Model/Context.lean` has one context, the one every logger is in.  Here there is any number: each has its own table of loggers,
mode and note handlers; a logger is made in one (`context=`, or else the global context) and can be added to the tables of others.

The one context of `Model/Context.lean` is reused as the context at hand: before each call the state is loaded with the context
that call works on (`Sys.load`).

Simplified: contexts use the default functions for the active parent, and the actor and the signal handler are left out
(`Model/Actor.lean`, `Model/Signal.lean`).  The context that `note` makes if there is no global one (context.py:15-19, 30-31) is
made when the global context is asked for next; until then its missing handlers are not missed.
-/
namespace Verif.Contexts

abbrev CtxId := Nat

/-- `LithoxylContext` (context.py:55-72). -/
structure Ctx where
  loggers : List LogId := []
  async : Bool := false
  handlers : List Nat := []

/-- All contexts and the rest of the state.  The fields of `w` that describe the context are those of the context used last.
* `next` : how many contexts were made
* `glob` : `LITHOXYL_CONTEXT` (context.py:12)
* `owner` : `logger.context` (logger.py:84) -/
structure Sys where
  w : World
  ctx : CtxId → Ctx := fun _ => {}
  next : CtxId := 0
  glob : Option CtxId := none
  owner : LogId → CtxId := fun _ => 0

/-- A fresh process. -/
def Sys.init : Sys := { w := World.init }

/-- State `w` with the context at hand. -/
def withCtx (w : World) (c : Ctx) : World := { w with ctxLoggers := c.loggers, ctxAsync := c.async, noteHandlers := c.handlers }

/-- The state as code that works on context `c` sees it. -/
def Sys.load (s : Sys) (c : Option CtxId) : World := withCtx s.w (match c with | some c => s.ctx c | none => {})

/-- Change context `c`. -/
def Sys.setCtx (s : Sys) (c : CtxId) (f : Ctx → Ctx) : Sys := { s with ctx := Function.update s.ctx c (f (s.ctx c)) }

/-- `get_context` (context.py:15-19). -/
def Sys.getContext (s : Sys) : Sys × CtxId :=
  match s.glob with
  | some c => (s, c)
  | none => ({ s with ctx := Function.update s.ctx s.next {}, next := s.next + 1, glob := some s.next }, s.next)

/-- `LithoxylContext.add_logger` (context.py:158-161). -/
def Ctx.add (l : LogId) (c : Ctx) : Ctx := if l ∈ c.loggers then c else { c with loggers := c.loggers ++ [l] }

/-- `Logger.__init__` in context `c` (logger.py:81-102). -/
def newLoggerIn (env : Env) (s : Sys) (l : LogId) (c : CtxId) (sinks : List SinkId) (async : Option Bool) : Sys :=
  { s with w := s.w.tick.setLog l (newLog env (s.load (some c)) sinks async), owner := Function.update s.owner l c }.setCtx c (Ctx.add l)

/-- `Logger.__init__` with or without `context=` (logger.py:84). -/
def newLogger (env : Env) (s : Sys) (l : LogId) (c : Option CtxId) (sinks : List SinkId) (async : Option Bool) : Sys :=
  match s.w.logs l with
  | some _ => s
  | none =>
    match c with
    | some c => if c < s.next then newLoggerIn env s l c sinks async else s
    | none => newLoggerIn env s.getContext.1 l s.getContext.2 sinks async

/-- `LithoxylContext.flush` of context `c` (context.py:148-156): what goes wrong in the preflush hooks of a logger is noted to the
logger's context (logger.py:115), what comes out of its `flush` to `c`. -/
def flushAll (env : Env) (s : Sys) (c : CtxId) : List LogId → World → World × Option Exc
  | [], w => (w, none)
  | l :: ls, w =>
    match flush env (withCtx w (s.ctx (s.owner l))) l with
    | (w', none) => flushAll env s c ls w'
    | (w', some e) =>
      match e.cls with
      | .baseOnly => (w', some e)
      | .ordinary =>
        match noteAll env "context_flush" (withCtx w' (s.ctx c)) with
        | (w'', none) => flushAll env s c ls w''
        | (w'', some e') => (w'', some e')

/-- The loop of `enable_async` and `disable_async` (context.py:114-117, 140-143). -/
def allSync (ls : List LogId) (w : World) : World := ls.foldl (fun w l => setAsync w l false) w

/-- A call of a context. -/
inductive CtxOp
  | flush
  | enable (updateLoggers : Bool)
  | disable (updateLoggers : Bool)
  | add (l : LogId)
  | remove (l : LogId)
  /-- `context.note_handlers.append(h)` -/
  | handler (h : Nat)
deriving DecidableEq

/-- A call of context `c`: what it raises, if it does. -/
def onCtx (env : Env) (s : Sys) (c : CtxId) : CtxOp → Sys × Option Exc
  | .flush => let r := flushAll env s c (s.ctx c).loggers s.w; ({ s with w := r.1 }, r.2)
  | .enable u =>
    ({ s with w := if u then allSync (s.ctx c).loggers s.w else s.w }.setCtx c fun x => { x with async := true }, none)
  | .disable u =>
    match flushAll env s c (s.ctx c).loggers (if u then allSync (s.ctx c).loggers s.w else s.w) with
    | (w, some e) => ({ s with w := w }, some e)
    | (w, none) => ({ s with w := w }.setCtx c fun x => { x with async := false }, none)
  | .add l => (match s.w.logs l with | none => s | some _ => s.setCtx c (Ctx.add l), none)
  | .remove l => (s.setCtx c fun x => { x with loggers := x.loggers.filter (· ≠ l) }, none)
  | .handler h => (s.setCtx c fun x => { x with handlers := x.handlers ++ [h] }, none)

/-- One thing the application does. -/
inductive Item
  /-- `LithoxylContext()` -/
  | newCtx
  /-- `set_context(c)` (context.py:22-27) -/
  | setContext (c : Option CtxId)
  | newLogger (l : LogId) (c : Option CtxId) (sinks : List SinkId) (async : Option Bool)
  | on (c : CtxId) (o : CtxOp)
  /-- a call on a logger or an action -/
  | call (it : Verif.Item)

/-- Calls of contexts and `Logger()` are not among the calls on loggers and actions. -/
def isCall : Verif.Item → Bool
  | .op (.newLogger ..) | .op .ctxFlush | .op (.enableAsync _) | .op (.disableAsync _) | .op (.addLogger _) | .op (.removeLogger _)
  | .op (.addNoteHandler _) => false
  | _ => true

/-- Where a call on a logger or an action makes its notes: `Logger.flush` to the logger's context (logger.py:115, 133),
`Action.__exit__` to the global one (action.py:257, context.py:30-31). -/
def Sys.notesTo (s : Sys) : Verif.Item → Option CtxId
  | .op (.flush l) => some (s.owner l)
  | _ => s.glob

/-- One step.  A call on a context that was not made is no call. -/
def step (env : Env) (s : Sys) : Item → Sys
  | .newCtx => { s with ctx := Function.update s.ctx s.next {}, next := s.next + 1 }
  | .setContext none => { s with glob := none }
  | .setContext (some c) => if c < s.next then { s with glob := some c } else s
  | .newLogger l c ss as => newLogger env s l c ss as
  | .on c o => if c < s.next then (onCtx env s c o).1 else s
  | .call it => if isCall it then { s with w := stepItem env (s.load (s.notesTo it)) it } else s

/-- A history. -/
def run (env : Env) (s : Sys) (its : List Item) : Sys := its.foldl (step env) s

/-- The states an application can bring a fresh process to. -/
def Reachable (env : Env) (s : Sys) : Prop := ∃ its, s = run env Sys.init its

end Verif.Contexts
