import Verif.Model.Step
/-!
# Sinks, hooks and handlers that use lithoxyl themselves

`Model/Step.lean` has sinks, preflush hooks and note handlers that return or raise.  Here they are arbitrary code: whatever
lithoxyl calls may make any of the calls the application may make, on the same loggers and actions, to any depth, catch what comes
out of them, and then return or raise.  So lithoxyl's own methods are cut at the calls they make, and what they still have to do is
kept on a stack.

One thread.  A loop `for hook in hooks` goes on with the list object it began with and sees what is appended to it; `set_sinks` puts
new list objects in place.  Looking for a hook of a sink and comparing sinks run no code (as in `Model/Logger.lean`), and neither does
turning messages into text (`Model/Objects.lean`).
-/
namespace Verif.Stack

/-- What is under way, innermost first.
* `code` : code that is not lithoxyl's: at the bottom the application, above it a sink's hook, a preflush hook or a note handler
* `hooks l g k e i` : `for hook in hooks: hook(ev)` (logger.py:120-131, 191, 200, 209, 217, 244), over list number `g` of logger `l`
  for kind `k`, at position `i`
* `endRest` : `Action._end` after `self.begin()` (action.py:234-243)
* `excRest` : `Action._exception` after `on_exception` (action.py:223-224)
* `exitTry a` : the `try` of `Action.__exit__` (action.py:253-255)
* `exitRest a` : the rest of it (action.py:267-271)
* `notes nm i` : `for nh in self.note_handlers` (context.py:87-88)
* `preflush l i` : the loop over the preflush hooks (logger.py:111-113)
* `preNote l i` : in its `except` clause (logger.py:114-116)
* `drain l` : `while queue` (logger.py:118)
* `ctx ls` : `LithoxylContext.flush` with `ls` still to come (context.py:149-152)
* `ctxNote ls` : in its `except` clause (context.py:153-155)
* `disable` : `disable_async` after its flush (context.py:146) -/
inductive Frame
  | code
  | hooks (l : LogId) (g : Nat) (k : Kind) (e : Event) (i : Nat)
  | endRest (a : ActId) (st : Status) (m : String) (fargs : List Val) (exc : Option Exc)
  | excRest (a : ActId) (m : String) (fargs : List Val) (kw : Dict) (t : Int) (cur : Option Exc)
  | exitTry (a : ActId)
  | exitRest (a : ActId)
  | notes (nm : String) (i : Nat)
  | preflush (l : LogId) (i : Nat)
  | preNote (l : LogId) (i : Nat)
  | drain (l : LogId)
  | ctx (ls : List LogId)
  | ctxNote (ls : List LogId)
  | disable
deriving DecidableEq

/-- The process.  `w`: as in `Model/Core.lean`.  `gen l`: how often `set_sinks` was called on logger `l`; `old l g`: the hook lists it
had before call number `g + 1`.  `up`: the exception on its way up the stack. -/
structure St where
  w : World
  gen : LogId → Nat
  old : LogId → Nat → Kind → List SinkId
  stack : List Frame
  up : Option Exc

def St.init : St := ⟨World.init, fun _ => 0, fun _ _ _ => [], [.code], none⟩

/-- The content of hook list number `g` of logger `l`. -/
def St.list (s : St) (l : LogId) (g : Nat) (k : Kind) : List SinkId :=
  if g = s.gen l then
    match s.w.logs l with
    | some L => L.hooks k
    | none => []
  else s.old l g k

def St.push (s : St) (f : Frame) : St := { s with stack := f :: s.stack }
def St.world (s : St) (w : World) : St := { s with w := w }
/-- `raise` inside a method of lithoxyl that has done nothing else on the stack yet. -/
def St.throw (s : St) (e : Exc) : St := { s with up := some e }

/-- `Logger.on_begin`, `on_end`, `on_warn` (logger.py:186-211) and the tail of `Logger.comment` (logger.py:241-245). -/
def emit (s : St) (l : LogId) (k : Kind) (e : Event) : St :=
  let w := { s.w with pub := s.w.pub ++ [(k, e)] }
  match w.logs l with
  | none => s.world w          -- cannot happen: an action's logger exists
  | some L =>
    if L.async then s.world (w.setLog l { L with queue := pushBounded QUEUE_LIMIT L.queue (k, e) })
    else (s.world w).push (.hooks l (s.gen l) k e 0)

/-- `Logger.on_exception` (logger.py:213-218). -/
def emitExc (s : St) (l : LogId) (e : Event) : St :=
  match s.w.logs l with
  | none => s
  | some _ => s.push (.hooks l (s.gen l) .exception e 0)

/-- `Action.begin` (action.py:140-148). -/
def begin_ (env : Env) (s : St) (a : ActId) (m : Option String) (fargs : List Val) (kw : Dict) : St :=
  match s.w.acts a with
  | none => s
  | some x =>
    match x.beginEv with
    | some _ => s.world (s.w.setAct a { x with data := x.data.update kw })
    | none =>
      let e := mkEvent s.w a x.logger .begin .begin (s.w.now env) (if falsy m then x.name ++ " beginning" else m.getD "") fargs none
      emit (s.world (s.w.tick.bump.setAct a { x with data := x.data.update kw, beginEv := some e })) x.logger .begin e

/-- `Action.warn` (action.py:150-155). -/
def warn (env : Env) (s : St) (a : ActId) (m : String) (fargs : List Val) (kw : Dict) : St :=
  match s.w.acts a with
  | none => s
  | some x =>
    let e := mkEvent s.w a x.logger .warn .warning (s.w.now env) m fargs none
    emit (s.world (s.w.tick.bump.setAct a { x with data := x.data.update kw, warnEvs := x.warnEvs ++ [e] })) x.logger .warn e

/-- The tail of `Action._end` (action.py:237-243). -/
def endWith (s : St) (a : ActId) (st : Status) (m : String) (fargs : List Val) (t : Int) (exc : Option Exc) : St :=
  match s.w.acts a with
  | none => s
  | some x =>
    let e := mkEvent s.w a x.logger .end_ st t m fargs exc
    let s := s.world (s.w.bump.setAct a { x with endEv := some e })
    if x.defer then s else emit s x.logger .end_ e

/-- `Action._end` (action.py:227-243). -/
def end_ (env : Env) (s : St) (a : ActId) (st : Status) (m : String) (fargs : List Val) (kw : Dict) (endTime : Option Int)
    (exc : Option Exc) : St :=
  match s.w.acts a with
  | none => s
  | some x =>
    let s := s.world (s.w.setAct a { x with data := x.data.update kw })
    if x.isTrans then
      match endTime with
      | some t =>
        if t = 0 then endWith (s.world s.w.tick) a st m fargs (s.w.now env) exc
        else endWith s a st m fargs t exc
      | none => endWith (s.world s.w.tick) a st m fargs (s.w.now env) exc
    else begin_ env (s.push (.endRest a st m fargs exc)) a none [] []

/-- `Action.success` (action.py:157-168). -/
def success (env : Env) (s : St) (a : ActId) (m : Option String) (fargs : List Val) (kw : Dict) : St :=
  match s.w.acts a with
  | none => s
  | some x => end_ env s a .success (endMsg x m " succeeded") fargs kw none none

/-- `Action.failure` (action.py:170-182). -/
def failure (env : Env) (s : St) (a : ActId) (m : Option String) (fargs : List Val) (kw : Dict) : St :=
  match s.w.acts a with
  | none => s
  | some x => end_ env s a .failure (endMsg x m " failed") fargs kw none none

/-- `Action.exception` / `Action._exception` (action.py:184-225). -/
def exception_ (env : Env) (s : St) (a : ActId) (cur : Option Exc) (m : Option String) (fargs : List Val) (kw : Dict) : St :=
  match s.w.acts a with
  | none => s
  | some x =>
    let t := s.w.now env
    let s := s.world s.w.tick
    match env.excInfoErr cur with
    | some err => s.throw err
    | none =>
      match (if falsy m then env.excText cur x.name (!x.data.isEmpty) else .ok (m.getD "")) with
      | .error err => s.throw err
      | .ok msg =>
        let e := mkEvent s.w a x.logger .exception .exception t msg fargs cur
        emitExc ((s.world (s.w.bump.setAct a { x with excEvs := x.excEvs ++ [e] })).push (.excRest a msg fargs kw t cur)) x.logger e

/-- `Action.__enter__` (action.py:245-248). -/
def enter (env : Env) (s : St) (a : ActId) : St :=
  match s.w.acts a with
  | none => s
  | some x => begin_ env (s.world ((s.w.setAct a { x with isTrans := true, defer := true }).setActive x.logger (some a))) a none [] []

/-- `Action.__exit__` (action.py:250-271).  What it returns is not kept. -/
def exit (env : Env) (s : St) (a : ActId) (exc : Option Exc) : St :=
  match s.w.acts a with
  | none => s
  | some x =>
    let s := (s.world (s.w.setAct a { x with defer := false })).push (.exitRest a)
    match exc with
    | some e => exception_ env (s.push (.exitTry a)) a (some e) none [] []
    | none =>
      match x.endEv with
      | some ev => emit s x.logger .end_ ev
      | none => success env s a none [] []

/-- `Logger.comment` (logger.py:220-246). -/
def comment (env : Env) (s : St) (l : LogId) (m : String) (fargs : List Val) (kw : Dict) : St :=
  match s.w.logs l with
  | none => s
  | some _ =>
    let a := s.w.nextId
    let t := s.w.now env
    let w1 := s.w.bump.tick
    let b := mkEvent w1 a l .begin .begin t (m ++ " (begin comment)") fargs none
    let w2 := w1.bump
    let en := mkEvent w2 a l .end_ .success t (m ++ " (end comment)") fargs none
    let w3 := w2.bump
    let c := mkEvent w3 a l .comment .comment t m fargs none
    let x : Act :=
      { logger := l, level := 90, name := "_comment", data := kw.erase "parent_action", reraise := .bool true
        parent := initParent s.w l kw, beginEv := some b, endEv := some en, warnEvs := [], excEvs := []
        isTrans := false, defer := false, handle := false }
    emit (s.world (w3.bump.setAct a x)) l .comment c

/-- `Logger.flush` (logger.py:107-136).  The lock is an `RLock`, which its owner may take again. -/
def flush (s : St) (l : LogId) : St :=
  match s.w.logs l with
  | none => s
  | some _ => s.push (.preflush l 0)

/-- `Logger.set_sinks` (logger.py:145-155) and `clear_sinks` (157-159). -/
def setSinks (env : Env) (s : St) (l : LogId) (ss : List SinkId) : St :=
  match s.w.logs l with
  | none => s
  | some L =>
    { s with
      w := s.w.setLog l (Verif.setSinks env L ss)
      gen := fun m => if m = l then s.gen l + 1 else s.gen m
      old := fun m g => if m = l ∧ g = s.gen l then L.hooks else s.old m g }

/-- Do it only if the caller holds the action. -/
def onAct (s : St) (a : ActId) (r : St) : St := if s.w.held a then r else s

/-- A call, up to the first call lithoxyl makes in turn.  The calls that make none are those of `Model/Step.lean`. -/
def call (env : Env) (s : St) : Item → St
  | .enter a => onAct s a (enter env s a)
  | .exit a exc => onAct s a (exit env s a exc)
  | .op (.begin a m f kw) => onAct s a (begin_ env s a m f kw)
  | .op (.warn a m f kw) => onAct s a (warn env s a m f kw)
  | .op (.success a m f kw) => onAct s a (success env s a m f kw)
  | .op (.failure a m f kw) => onAct s a (failure env s a m f kw)
  | .op (.exception a cur m f kw) => onAct s a (exception_ env s a cur m f kw)
  | .op (.comment l m f kw) => comment env s l m f kw
  | .op (.flush l) => flush s l
  | .op .ctxFlush => s.push (.ctx s.w.ctxLoggers)
  | .op (.disableAsync u) =>
    let w := if u then s.w.ctxLoggers.foldl (fun w l => setAsync w l false) s.w else s.w
    ((s.world w).push .disable).push (.ctx w.ctxLoggers)
  | .op (.setSinks l ss) => setSinks env s l ss
  | .op (.clearSinks l) => setSinks env s l []
  | .op o => s.world (step env s.w o).1

/-- Calling something that is not lithoxyl's. -/
def enterCode (s : St) (o : Obs) : St := (s.world { s.w with trace := s.w.trace ++ [o] }).push .code

/-- lithoxyl goes on, with frame `f` on top of `s`. -/
def resume (env : Env) (s : St) : Frame → St
  | .code => s.push .code
  | .hooks l g k e i =>
    match (s.list l g k)[i]? with
    | none => s
    | some sk => enterCode (s.push (.hooks l g k e (i + 1))) (.hook sk k e)
  | .endRest a st m fargs exc =>
    match (s.w.acts a).bind (·.beginEv) with
    | none => s                -- cannot happen: begin has made it
    | some b => endWith s a st m fargs b.etime exc
  | .excRest a m fargs kw t cur => end_ env s a .exception m fargs kw (some t) cur
  | .exitTry _ => s
  | .exitRest a =>
    match s.w.acts a with
    | none => s
    | some x => s.world (s.w.setActive x.logger x.parent)
  | .notes nm i =>
    match s.w.noteHandlers[i]? with
    | none => s
    | some h => enterCode (s.push (.notes nm (i + 1))) (.note h nm)
  | .preflush l i =>
    match s.w.logs l with
    | none => s
    | some L =>
      match L.preflush[i]? with
      | none => s.push (.drain l)
      | some h => enterCode (s.push (.preflush l (i + 1))) (.preflush l h)
  | .preNote l i => s.push (.preflush l i)
  | .drain l =>
    match s.w.logs l with
    | none => s
    | some L =>
      match L.queue with
      | [] => s.world (s.w.tick.setLog l { L with lastFlush := s.w.now env })
      | (k, e) :: q =>
        let s := (s.world (s.w.setLog l { L with queue := q })).push (.drain l)
        match k with
        | .exception => s.push (.notes "flush" 0)
        | _ => s.push (.hooks l (s.gen l) k e 0)
  | .ctx [] => s
  | .ctx (l :: ls) => flush (s.push (.ctx ls)) l
  | .ctxNote ls => s.push (.ctx ls)
  | .disable => s.world { s.w with ctxAsync := false }

/-- Exception `err` comes to frame `f` on top of `s`: it goes on up, or is caught. -/
def unwind (s : St) (err : Exc) : Frame → St
  | .code => { s with up := none }.push .code
  | .exitTry _ =>
    match err.cls with
    | .ordinary => { s with up := none }.push (.notes "action_exit" 0)
    | .baseOnly => s
  | .preflush l i =>
    match err.cls with
    | .ordinary => ({ s with up := none }.push (.preNote l i)).push (.notes "preflush" 0)
    | .baseOnly => s
  | .ctx ls =>
    match err.cls with
    | .ordinary => ({ s with up := none }.push (.ctxNote ls)).push (.notes "context_flush" 0)
    | .baseOnly => s
  | _ => s

/-- What happens next: code that is not lithoxyl's makes a call, returns or raises; or lithoxyl goes on. -/
inductive Act
  | call (it : Item)
  | ret
  | raise (e : Exc)
  | go

/-- One step.  What cannot happen now changes nothing, so that every list is a history.  The application itself does not return. -/
def step (env : Env) (s : St) (x : Act) : St :=
  match s.stack, s.up, x with
  | f :: fs, some err, .go => unwind { s with stack := fs } err f
  | .code :: _, none, .call it => call env s it
  | .code :: f :: fs, none, .ret => { s with stack := f :: fs }
  | .code :: f :: fs, none, .raise e => { s with stack := f :: fs, up := some e }
  | .code :: _, none, .go => s
  | f :: fs, none, .go => resume env { s with stack := fs } f
  | _, _, _ => s

def run (env : Env) (s : St) (h : List Act) : St := h.foldl (step env) s

/-- The states a process can get to. -/
def Reachable (env : Env) (s : St) : Prop := ∃ h, s = run env St.init h

end Verif.Stack
