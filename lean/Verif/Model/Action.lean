import Verif.Model.Logger
/-!
# `lithoxyl/action.py`: the methods of `Action`, and `Logger.comment`
-/
namespace Verif

/-- Sequencing of two Python statements: the second runs only if the first did not raise. -/
def andThen (r : World × Option Exc) (k : World → World × Option Exc) : World × Option Exc :=
  match r with
  | (w, none) => k w
  | (w, some e) => (w, some e)

/-- `if not message` (action.py:143, 163, 176, 205): None and the empty string are falsy. -/
def falsy (m : Option String) : Bool :=
  match m with
  | none => true
  | some s => s = ""

/-- `parent` keyword of `Action.__init__` (action.py:87-90).  A value that is not an action counts as
no parent (Python would store a non-action object; simplification). -/
def asParent (v : Option Val) : Option ActId :=
  match v with
  | some (.act p) => some p
  | _ => none

/-- `self.parent_action` at construction (action.py:87-90): the explicit parent, else the logger's
active one. -/
def initParent (w : World) (l : LogId) (kw : Dict) : Option ActId :=
  match asParent (kw.get? "parent_action") with
  | some p => some p
  | none => w.active l

/-- `Action.__init__` (action.py:67-91) as called from `Logger.debug/info/critical/action`
(logger.py:248-274): `reraise` and `parent_action` are popped from the same dict that becomes the
data map.  Returns the new action's id. -/
def newAction (w : World) (l : LogId) (level : Int) (name : String) (kw : Dict) : World × ActId :=
  let a := w.nextId
  let data := (kw.erase "reraise").erase "parent_action"
  let x : Act :=
    { logger := l, level := level, name := name, data := data
      reraise := (kw.get? "reraise").getD .none
      parent := initParent w l kw
      beginEv := none, endEv := none, warnEvs := [], excEvs := []
      isTrans := false, defer := false, handle := true }
  ({ w with nextId := w.nextId + 1 }.setAct a x, a)

/-- Allocate an event (the `__init__`s at action.py:332-394): takes the next id. -/
def mkEvent (w : World) (a : ActId) (l : LogId) (k : Kind) (st : Status) (t : Int) (m : String)
    (fargs : List Val) (exc : Option Exc) : Event :=
  { id := w.nextId, act := a, logger := l, kind := k, status := st, etime := t, msg := m,
    fargs := fargs, excInfo := exc }

/-- The state after `next(_ACT_ID_ITER)`. -/
def World.bump (w : World) : World := { w with nextId := w.nextId + 1 }

/-- `Action.begin` (action.py:140-148). -/
def begin_ (env : Env) (w : World) (a : ActId) (m : Option String) (fargs : List Val) (kw : Dict) :
    World × Option Exc :=
  match w.acts a with
  | none => (w, none)
  | some x =>
    let x := { x with data := x.data.update kw }
    match x.beginEv with
    | some _ => (w.setAct a x, none)
    | none =>
      let msg := if falsy m then x.name ++ " beginning" else m.getD ""
      let t := w.now env
      let e := mkEvent w a x.logger .begin .begin t msg fargs none
      let w := (w.tick.bump).setAct a { x with beginEv := some e }
      publish env w x.logger .begin e

/-- `Action.warn` (action.py:150-155). -/
def warn (env : Env) (w : World) (a : ActId) (m : String) (fargs : List Val) (kw : Dict) :
    World × Option Exc :=
  match w.acts a with
  | none => (w, none)
  | some x =>
    let t := w.now env
    let e := mkEvent w a x.logger .warn .warning t m fargs none
    let w := (w.tick.bump).setAct a
      { x with data := x.data.update kw, warnEvs := x.warnEvs ++ [e] }
    publish env w x.logger .warn e

/-- The tail of `Action._end` from line 237 on (action.py:237-243): create the end event, publish it
unless publication is deferred.  `self.logger` is always set. -/
def endWith (env : Env) (w : World) (a : ActId) (st : Status) (m : String) (fargs : List Val)
    (t : Int) (exc : Option Exc) : World × Option Exc :=
  match w.acts a with
  | none => (w, none)
  | some x =>
    let e := mkEvent w a x.logger .end_ st t m fargs exc
    let w := w.bump.setAct a { x with endEv := some e }
    if x.defer then (w, none) else publish env w x.logger .end_ e

/-- `Action._end` (action.py:227-243).  `endTime` is the time given by `_exception`; `0` is falsy
(`end_time or time.time()`, line 231). -/
def end_ (env : Env) (w : World) (a : ActId) (st : Status) (m : String) (fargs : List Val)
    (kw : Dict) (endTime : Option Int) (exc : Option Exc) : World × Option Exc :=
  match w.acts a with
  | none => (w, none)
  | some x =>
    let w := w.setAct a { x with data := x.data.update kw }
    if x.isTrans then
      match endTime with
      | some t =>
        if t = 0 then endWith env w.tick a st m fargs (w.now env) exc
        else endWith env w a st m fargs t exc
      | none => endWith env w.tick a st m fargs (w.now env) exc
    else
      andThen (begin_ env w a none [] []) fun w =>
        match (w.acts a).bind (·.beginEv) with
        | none => (w, none)     -- cannot happen: begin_ has just made it
        | some b => endWith env w a st m fargs b.etime exc

/-- The default messages of `success` and `failure` (action.py:163-167, 176-180). -/
def endMsg (x : Act) (m : Option String) (verb : String) : String :=
  if falsy m then
    if x.data.isEmpty then x.name ++ verb else x.name ++ verb ++ " - ({data_map_repr})"
  else m.getD ""

/-- `Action.success` (action.py:157-168). -/
def success (env : Env) (w : World) (a : ActId) (m : Option String) (fargs : List Val) (kw : Dict) :
    World × Option Exc :=
  match w.acts a with
  | none => (w, none)
  | some x => end_ env w a .success (endMsg x m " succeeded") fargs kw none none

/-- `Action.failure` (action.py:170-182). -/
def failure (env : Env) (w : World) (a : ActId) (m : Option String) (fargs : List Val) (kw : Dict) :
    World × Option Exc :=
  match w.acts a with
  | none => (w, none)
  | some x => end_ env w a .failure (endMsg x m " failed") fargs kw none none

/-- `Action.exception` / `Action._exception` (action.py:184-225): read the clock, extract the
exception's information (may raise), build the message (may raise), create the exception event,
call the on_exception hooks now (may raise), then `_end`.  `cur` is the exception being handled. -/
def exception_ (env : Env) (w : World) (a : ActId) (cur : Option Exc) (m : Option String)
    (fargs : List Val) (kw : Dict) : World × Option Exc :=
  match w.acts a with
  | none => (w, none)
  | some x =>
    let t := w.now env
    let w := w.tick
    match env.excInfoErr cur with
    | some err => (w, some err)
    | none =>
      match (if falsy m then env.excText cur x.name (!x.data.isEmpty) else .ok (m.getD "")) with
      | .error err => (w, some err)
      | .ok msg =>
        let e := mkEvent w a x.logger .exception .exception t msg fargs cur
        let w := w.bump.setAct a { x with excEvs := x.excEvs ++ [e] }
        andThen (publishExc env w x.logger e) fun w =>
          end_ env w a .exception msg fargs kw (some t) cur

/-- `Action.__enter__` (action.py:245-248). -/
def enter (env : Env) (w : World) (a : ActId) : World × Option Exc :=
  match w.acts a with
  | none => (w, none)
  | some x =>
    let w := (w.setAct a { x with isTrans := true, defer := true }).setActive x.logger (some a)
    begin_ env w a none [] []

/-- The first part of `Action.__exit__` (action.py:251-265): publish the outcome.  An `Exception`
raised while recording an exception is noted and dropped (256-259); a note handler may raise. -/
def exitPublish (env : Env) (w : World) (a : ActId) (exc : Option Exc) : World × Option Exc :=
  match w.acts a with
  | none => (w, none)
  | some x =>
    let w := w.setAct a { x with defer := false }
    match exc with
    | some e =>
      match exception_ env w a (some e) none [] [] with
      | (w, none) => (w, none)
      | (w, some err) =>
        match err.cls with
        | .ordinary => noteAll env "action_exit" w
        | .baseOnly => (w, some err)
    | none =>
      match x.endEv with
      | some ev => publish env w x.logger .end_ ev
      | none => success env w a none [] []

/-- `Action.__exit__` (action.py:250-271): publish, restore the active parent to the parent the action
got at construction (267), and return whether to swallow the exception (269-270).  If publishing
raises, the rest is skipped. -/
def exit (env : Env) (w : World) (a : ActId) (exc : Option Exc) : World × Except Exc Bool :=
  match w.acts a with
  | none => (w, .ok false)
  | some x =>
    match exitPublish env w a exc with
    | (w, some err) => (w, .error err)
    | (w, none) => (w.setActive x.logger x.parent, .ok (x.reraise = .bool false))

/-- `Action.__setitem__` (action.py:276-277). -/
def setItem (w : World) (a : ActId) (k : String) (v : Val) : World :=
  match w.acts a with
  | none => w
  | some x => w.setAct a { x with data := x.data.set k v }

/-- `Logger.comment` (logger.py:220-246).  Level CRITICAL is 90 (common.py:43); only `parent_action` is
popped from the keywords.  `message + '...'` requires a string message. -/
def comment (env : Env) (w : World) (l : LogId) (m : String) (fargs : List Val) (kw : Dict) :
    World × Option Exc :=
  match w.logs l with
  | none => (w, none)
  | some _ =>
    let a := w.nextId
    let t := w.now env
    let w1 := w.bump.tick
    let b := mkEvent w1 a l .begin .begin t (m ++ " (begin comment)") fargs none
    let w2 := w1.bump
    let en := mkEvent w2 a l .end_ .success t (m ++ " (end comment)") fargs none
    let w3 := w2.bump
    let c := mkEvent w3 a l .comment .comment t m fargs none
    let w4 := w3.bump
    let x : Act :=
      { logger := l, level := 90, name := "_comment", data := kw.erase "parent_action"
        reraise := .bool true
        parent := initParent w l kw
        beginEv := some b, endEv := some en, warnEvs := [], excEvs := []
        isTrans := false, defer := false, handle := false }
    publish env (w4.setAct a x) l .comment c

/-- `Action.status` (action.py:118-123). -/
def Act.status (x : Act) : Status :=
  match x.endEv with
  | some e => e.status
  | none => .begin

/-- `Action.duration` (action.py:125-130). -/
def Act.duration (x : Act) : Int :=
  match x.endEv, x.beginEv with
  | some e, some b => e.etime - b.etime
  | _, _ => 0

end Verif
