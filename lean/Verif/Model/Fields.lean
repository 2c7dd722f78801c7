import Verif.Model.Action
import Verif.Model.Depth
import Verif.Model.Sensible
/-!
# The built-in format fields of `lithoxyl/sensible.py`

What the getter of each built-in field gives for an event, in a state.  The state is the one at the time of rendering, which
in asynchronous mode is later than the event.
-/
namespace Verif.Fields

open Verif.Sens (Res)

/-- The six variants of an ISO 8601 field (sensible.py:472-506). -/
inductive Iso
  | plain | notz | loc | locNotz | locNoms | locNomsNotz
deriving DecidableEq, Repr

/-- The names of the built-in fields (sensible.py:431-465, 472-506, 513-515, 521-525). -/
inductive Field
  | loggerName | loggerId | actionName | actionId | actionGuid
  | statusStr | statusChar | warnChar
  | levelName | levelNameUpper | levelChar | levelNumber
  | dataMap | dataMapRepr
  | beginMessage | beginMessageRaw | endMessage | endMessageRaw | eventMessage | eventMessageRaw
  | beginTimestamp | endTimestamp
  | durationS | durationMs | durationUs | durationAuto
  | moduleName | modulePath | funcName | lineNumber
  | excType | excMessage | excTbStr | excTbList
  | processId
  | parentDepth | parentDepthIndent
  | isoBegin (v : Iso) | isoEnd (v : Iso)
  | importDeltaS | importDeltaMs
deriving DecidableEq, Repr

/-- What a field shows, before it is turned into text. -/
inductive FVal
  | text (s : String)
  | num (n : Int)
  | guid (a : ActId)
  /-- a point in time; the format is fixed by the field -/
  | time (t : Int)
  /-- a length of time -/
  | span (t : Int)
  /-- the rendered message of an event (`Event.message`, see Model/Message.lean) -/
  | message (e : Event)
  | dict (d : Dict)
  /-- a part of an `ExceptionInfo` -/
  | exc (x : Option Exc)
  /-- a part of the callpoint of an action -/
  | callpoint (a : ActId)
  | pid
deriving DecidableEq, Repr

/-- What the getters use beyond the state: names of loggers and levels, `str.upper`, the import time, whether `json.dumps`
can write a data map. -/
structure Names where
  logger : LogId → String
  level : Int → String
  upper : String → String
  importTime : Int
  jsonOk : Dict → Bool

/-- The text of a status. -/
def statusText : Status → String
  | .begin => "begin"
  | .success => "success"
  | .failure => "failure"
  | .exception => "exception"
  | .warning => "warning"
  | .comment => "comment"

/-- `status_char` (action.py:330, 343, 366-372, 382, 394): a class attribute, except for end events, where it depends on
whether the action has been entered. -/
def statusChar (x : Act) (e : Event) : String :=
  match e.kind with
  | .begin => "b"
  | .warn => "W"
  | .exception => "!"
  | .comment => "#"
  | .end_ =>
    match e.status with
    | .success => if x.isTrans then "S" else "s"
    | .failure => if x.isTrans then "F" else "f"
    | .exception => if x.isTrans then "E" else "e"
    | .begin => if x.isTrans then "B" else "b"
    | .warning => if x.isTrans then "W" else "w"
    | .comment => if x.isTrans then "C" else "c"

/-- An attribute of an object that may be None: AttributeError. -/
def attr {α : Type} (o : Option α) (f : α → FVal) : Res FVal :=
  match o with
  | some a => .ok (f a)
  | none => .exc

/-- The getters (sensible.py:431-465, 472-506, 513-515, 521-525) for event `e` of the action with record `x`. -/
def getter (n : Names) (par : ActId → Option ActId) (x : Act) (e : Event) : Field → Res FVal
  | .loggerName => .ok (.text (n.logger x.logger))
  | .loggerId => .ok (.num x.logger)
  | .actionName => .ok (.text x.name)
  | .actionId => .ok (.num e.act)
  | .actionGuid => .ok (.guid e.act)
  | .statusStr => .ok (.text (statusText e.status))
  | .statusChar => .ok (.text (statusChar x e))
  | .warnChar => .exc                                -- neither events nor actions have `warn_char`
  | .levelName => .ok (.text (n.level x.level))
  | .levelNameUpper => .ok (.text (n.upper (n.level x.level)))
  | .levelChar =>
    match (n.upper (n.level x.level)).toList with
    | [] => .exc
    | c :: _ => .ok (.text (String.ofList [c]))
  | .levelNumber => .ok (.num x.level)
  | .dataMap => if n.jsonOk x.data then .ok (.dict x.data) else .exc
  | .dataMapRepr => .ok (.dict x.data)
  | .beginMessage => attr x.beginEv .message
  | .beginMessageRaw => attr x.beginEv fun b => .text b.msg
  | .endMessage => attr x.endEv .message
  | .endMessageRaw => attr x.endEv fun b => .text b.msg
  | .eventMessage => .ok (.message e)
  | .eventMessageRaw => .ok (.message e)             -- sic (sensible.py:450)
  | .beginTimestamp => attr x.beginEv fun b => .time b.etime
  | .endTimestamp => attr x.endEv fun b => .time b.etime
  | .durationS => .ok (.span x.duration)
  | .durationMs => .ok (.span x.duration)
  | .durationUs => .ok (.span x.duration)
  | .durationAuto => .ok (.span x.duration)
  | .moduleName => .ok (.callpoint e.act)
  | .modulePath => .ok (.callpoint e.act)
  | .funcName => .ok (.callpoint e.act)
  | .lineNumber => .ok (.callpoint e.act)
  | .excType => attr x.excEvs.getLast? fun b => .exc b.excInfo
  | .excMessage => attr x.excEvs.getLast? fun b => .exc b.excInfo
  | .excTbStr => attr x.excEvs.getLast? fun b => .exc b.excInfo
  | .excTbList => attr x.excEvs.getLast? fun b => .exc b.excInfo
  | .processId => .ok .pid
  | .parentDepth => .ok (.num (parentDepth par e.act))
  | .parentDepthIndent => .ok (.num (parentDepth par e.act))
  | .isoBegin _ => attr x.beginEv fun b => .time b.etime
  | .isoEnd _ => attr x.endEv fun b => .time b.etime
  | .importDeltaS => .ok (.span (e.etime - n.importTime))
  | .importDeltaMs => .ok (.span (e.etime - n.importTime))

/-- The value of a built-in field for event `e`, read in state `w`. -/
def read (n : Names) (w : World) (e : Event) (f : Field) : Res FVal :=
  match w.acts e.act with
  | none => .exc                                     -- cannot happen
  | some x => getter n w.par x e f

end Verif.Fields
