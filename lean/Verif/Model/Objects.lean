import Verif.Model.Step
/-!
# Names and messages that are no strings

`Logger.info` takes anything for a name, `Action.begin`, `warn`, `success`, `failure`, `exception` and `Logger.comment` take anything
for a message: it is turned into text with `str`, which is the application's code and may raise.  `Model/Action.lean` has the same
methods for text.
-/
namespace Verif.Objects

/-- What a Python object is asked for here.  Simplifications: an object answers the same each time, and its methods do not log.
* `truth` : `bool(obj)`
* `text` : `str(obj)`
* `repr` : `repr(obj)`
* `plus s` : `obj + s`, and `str` of the sum -/
structure Obj where
  truth : Except Exc Bool
  text : Except Exc String
  repr : Except Exc String
  plus : String → Except Exc (Except Exc String)

/-- `self.name` (action.py:73-76). -/
def nameOf (o : Obj) : Except Exc String :=
  match o.text with
  | .ok s => .ok s
  | .error e =>
    match e.cls with
    | .ordinary => o.repr
    | .baseOnly => .error e

/-- `Logger.debug/info/critical/action` (logger.py:248-274) and `Action.__init__` (action.py:67-91).  `level` is the value of the level
found, or the TypeError of `get_level` for a key that cannot be hashed (common.py:71-72). -/
def newAction (w : World) (l : LogId) (level : Except Exc Int) (name : Obj) (kw : Dict) : World × Except Exc ActId :=
  match level with
  | .error e => (w.bump, .error e)
  | .ok v =>
    match nameOf name with
    | .error e => (w.bump, .error e)
    | .ok s => ((Verif.newAction w l v s kw).1, .ok (Verif.newAction w l v s kw).2)

/-- `Action.begin` (action.py:140-148). -/
def begin_ (env : Env) (w : World) (a : ActId) (m : Obj) (fargs : List Val) (kw : Dict) : World × Option Exc :=
  match w.acts a with
  | none => (w, none)
  | some x =>
    let x := { x with data := x.data.update kw }
    match x.beginEv with
    | some _ => (w.setAct a x, none)
    | none =>
      match m.truth with
      | .error e => (w.setAct a x, some e)
      | .ok b =>
        match (if b then m.text else .ok (x.name ++ " beginning")) with
        | .error e => (w.tick.bump.setAct a x, some e)
        | .ok msg =>
          let e := mkEvent w a x.logger .begin .begin (w.now env) msg fargs none
          publish env (w.tick.bump.setAct a { x with beginEv := some e }) x.logger .begin e

/-- `Action.warn` (action.py:150-155). -/
def warn (env : Env) (w : World) (a : ActId) (m : Obj) (fargs : List Val) (kw : Dict) : World × Option Exc :=
  match w.acts a with
  | none => (w, none)
  | some x =>
    match m.text with
    | .error e => (w.tick.bump.setAct a { x with data := x.data.update kw }, some e)
    | .ok msg => Verif.warn env w a msg fargs kw

/-- `Action._end` (action.py:227-243) with a message whose `str` is `m`; it is taken last, by the end event (237, 360). -/
def end_ (env : Env) (w : World) (a : ActId) (st : Status) (m : Except Exc String) (fargs : List Val) (kw : Dict)
    (endTime : Option Int) (exc : Option Exc) : World × Option Exc :=
  match m with
  | .ok msg => Verif.end_ env w a st msg fargs kw endTime exc
  | .error err =>
    match w.acts a with
    | none => (w, none)
    | some x =>
      let w := w.setAct a { x with data := x.data.update kw }
      if x.isTrans then
        match endTime with
        | some t => (if t = 0 then w.tick.bump else w.bump, some err)
        | none => (w.tick.bump, some err)
      else andThen (Verif.begin_ env w a none [] []) fun w => (w.bump, some err)

/-- The message of `success` and `failure` (action.py:163-167, 176-180): what `if not message` raises, or what `str` gives. -/
def endMsg (x : Act) (m : Obj) (verb : String) : Except Exc (Except Exc String) :=
  match m.truth with
  | .error e => .error e
  | .ok true => .ok m.text
  | .ok false => .ok (.ok (Verif.endMsg x none verb))

/-- `Action.success` (action.py:157-168) and `Action.failure` (170-182). -/
def finish (env : Env) (w : World) (a : ActId) (st : Status) (verb : String) (m : Obj) (fargs : List Val) (kw : Dict) :
    World × Option Exc :=
  match w.acts a with
  | none => (w, none)
  | some x =>
    match endMsg x m verb with
    | .error e => (w, some e)
    | .ok txt => end_ env w a st txt fargs kw none none

def success (env : Env) (w : World) (a : ActId) (m : Obj) (fargs : List Val) (kw : Dict) : World × Option Exc :=
  finish env w a .success " succeeded" m fargs kw

def failure (env : Env) (w : World) (a : ActId) (m : Obj) (fargs : List Val) (kw : Dict) : World × Option Exc :=
  finish env w a .failure " failed" m fargs kw

/-- The text of an exception event (action.py:205-218, 347): what `if not message`, the default message or `str` raises, or the
text; the id is taken before `str`, but after the other two. -/
def excMsg (env : Env) (x : Act) (cur : Option Exc) (m : Obj) : Except Exc (Except Exc String) :=
  match m.truth with
  | .error e => .error e
  | .ok true => .ok m.text
  | .ok false =>
    match env.excText cur x.name (!x.data.isEmpty) with
    | .error e => .error e
    | .ok s => .ok (.ok s)

/-- `Action.exception` (action.py:184-225). -/
def exception_ (env : Env) (w : World) (a : ActId) (cur : Option Exc) (m : Obj) (fargs : List Val) (kw : Dict) :
    World × Option Exc :=
  match w.acts a with
  | none => (w, none)
  | some x =>
    let t := w.now env
    let w := w.tick
    match env.excInfoErr cur with
    | some err => (w, some err)
    | none =>
      match excMsg env x cur m with
      | .error err => (w, some err)
      | .ok (.error err) => (w.bump, some err)
      | .ok (.ok msg) =>
        let e := mkEvent w a x.logger .exception .exception t msg fargs cur
        let w := w.bump.setAct a { x with excEvs := x.excEvs ++ [e] }
        andThen (publishExc env w x.logger e) fun w => Verif.end_ env w a .exception msg fargs kw (some t) cur

/-- `Logger.comment` (logger.py:220-246).  An action that was made for a comment that fails is dropped. -/
def comment (env : Env) (w : World) (l : LogId) (m : Obj) (fargs : List Val) (kw : Dict) : World × Option Exc :=
  match w.logs l with
  | none => (w, none)
  | some _ =>
    let a := w.nextId
    let t := w.now env
    let w1 := w.bump.tick
    match m.plus " (begin comment)" with
    | .error e => (w1, some e)
    | .ok (.error e) => (w1.bump, some e)
    | .ok (.ok tb) =>
      let b := mkEvent w1 a l .begin .begin t tb fargs none
      let w2 := w1.bump
      match m.plus " (end comment)" with
      | .error e => (w2, some e)
      | .ok (.error e) => (w2.bump, some e)
      | .ok (.ok te) =>
        let en := mkEvent w2 a l .end_ .success t te fargs none
        let w3 := w2.bump
        match m.text with
        | .error e => (w3.bump, some e)
        | .ok msg =>
          let c := mkEvent w3 a l .comment .comment t msg fargs none
          let x : Act :=
            { logger := l, level := 90, name := "_comment", data := kw.erase "parent_action", reraise := .bool true
              parent := initParent w l kw, beginEv := some b, endEv := some en, warnEvs := [], excEvs := []
              isTrans := false, defer := false, handle := false }
          publish env (w3.bump.setAct a x) l .comment c

/-- A call with an object. -/
inductive Call
  | newAction (l : LogId) (level : Except Exc Int) (name : Obj) (kw : Dict)
  | begin (a : ActId) (m : Obj) (fargs : List Val) (kw : Dict)
  | warn (a : ActId) (m : Obj) (fargs : List Val) (kw : Dict)
  | success (a : ActId) (m : Obj) (fargs : List Val) (kw : Dict)
  | failure (a : ActId) (m : Obj) (fargs : List Val) (kw : Dict)
  | exception (a : ActId) (cur : Option Exc) (m : Obj) (fargs : List Val) (kw : Dict)
  | comment (l : LogId) (m : Obj) (fargs : List Val) (kw : Dict)

/-- One such call: the state after it, and what it raises or returns. -/
def call (env : Env) (w : World) : Call → World × Res
  | .newAction l lv nm kw =>
    match w.logs l with
    | none => (w, .ok)
    | some _ =>
      match newAction w l lv nm kw with
      | (w', .ok a) => (w', .newAct a)
      | (w', .error e) => (w', .exc e)
  | .begin a m f kw => guard w a (begin_ env w a m f kw)
  | .warn a m f kw => guard w a (warn env w a m f kw)
  | .success a m f kw => guard w a (success env w a m f kw)
  | .failure a m f kw => guard w a (failure env w a m f kw)
  | .exception a cur m f kw => guard w a (exception_ env w a cur m f kw)
  | .comment l m f kw => ret (comment env w l m f kw)

/-- A history of calls with objects among all others (`Model/Step.lean`). -/
def stepAny (env : Env) (w : World) : Item ⊕ Call → World
  | .inl it => stepItem env w it
  | .inr c => (call env w c).1

def runAny (env : Env) (w : World) (h : List (Item ⊕ Call)) : World := h.foldl (stepAny env) w

/-- The states such histories lead to. -/
def ReachableAny (env : Env) (w : World) : Prop := ∃ h, w = runAny env World.init h

end Verif.Objects
