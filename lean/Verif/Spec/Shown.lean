import Verif.Model.PyFormat
import Verif.Spec.Entry
import Verif.Spec.Fields
/-!
# What entries should show for the built-in fields, character by character
-/
namespace Verif.Py

open Verif.Fields (Field)

/-- The exception event last recorded on an action. -/
def excOf (w : World) (a : ActId) : Option Event := (w.acts a).bind (·.excEvs.getLast?)

/-- The time from an action's beginning to its end, 0 if it has not got both. -/
def lasted (w : World) (a : ActId) : Int :=
  match w.beginOf a, w.endOf a with
  | some b, some d => d.etime - b.etime
  | _, _ => 0

/-- An integer in decimal notation. -/
def decimal (n : Int) : List Char := (if n < 0 then ['-'] else []) ++ Tmpl.dec n.natAbs

/-- A time in seconds with fourteen significant digits. -/
def stamp (P : Foreign) (t : Int) : List Char := (if t < 0 then ['-'] else []) ++ P.g 14 |secs t|

/-- The characters for the status of an end event: small letters unless a with block was entered. -/
def initial : Status → Char
  | .begin => 'b'
  | .success => 's'
  | .failure => 'f'
  | .exception => 'e'
  | .warning => 'w'
  | .comment => 'c'

/-- What a field tells about event `e` in state `w`; `none` if it has nothing to tell. -/
def content (P : Foreign) (F : Facts) (w : World) (e : Event) : Field → Option (List Char)
  | .loggerName => some (F.names.logger e.logger).toList
  | .loggerId => some (decimal e.logger)
  | .actionName => (w.acts e.act).map (·.name.toList)
  | .actionId => some (decimal e.act)
  | .actionGuid => some (F.guid e.act)
  | .statusStr => some (Fields.statusText e.status).toList
  | .statusChar =>
    match e.kind with
    | .begin => some ['b']
    | .warn => some ['W']
    | .exception => some ['!']
    | .comment => some ['#']
    | .end_ => (w.acts e.act).map fun x => [if x.isTrans then (initial e.status).toUpper else initial e.status]
  | .warnChar => none
  | .levelName => (w.acts e.act).map fun x => (F.names.level x.level).toList
  | .levelNameUpper => (w.acts e.act).map fun x => (F.names.upper (F.names.level x.level)).toList
  | .levelChar => (w.acts e.act).bind fun x => (F.names.upper (F.names.level x.level)).toList.head?.map ([·])
  | .levelNumber => (w.acts e.act).map fun x => decimal x.level
  | .dataMap => (w.acts e.act).bind fun x => if F.names.jsonOk x.data then some (F.json x.data) else none
  | .dataMapRepr => (w.acts e.act).map fun x => F.repr x.data
  | .beginMessage => (w.beginOf e.act).map fun b => (F.message w b).toList
  | .beginMessageRaw => (w.beginOf e.act).map fun b => b.msg.toList
  | .endMessage => (w.endOf e.act).map fun d => (F.message w d).toList
  | .endMessageRaw => (w.endOf e.act).map fun d => d.msg.toList
  | .eventMessage | .eventMessageRaw => some (F.message w e).toList
  | .beginTimestamp => (w.beginOf e.act).map fun b => stamp P b.etime
  | .endTimestamp => (w.endOf e.act).map fun d => stamp P d.etime
  | .durationS => some (chars (Dec.fixed 3 (secs (lasted w e.act))))
  | .durationMs => some (chars (Dec.fixed 3 (secs (lasted w e.act) * 1000)))
  | .durationUs => some (chars (Dec.fixed 3 (secs (lasted w e.act) * 1000000)))
  | .durationAuto => some (chars (Dec.showAuto (secs (lasted w e.act))))
  | .moduleName => some (F.moduleName e.act)
  | .modulePath => some (F.modulePath e.act)
  | .funcName => some (F.funcName e.act)
  | .lineNumber => some (decimal (F.lineno e.act))
  | .excType => (excOf w e.act).map fun x => F.excType x.excInfo
  | .excMessage => (excOf w e.act).map fun x => F.excMsg x.excInfo
  | .excTbStr => (excOf w e.act).map fun x => F.excTb x.excInfo
  | .excTbList => (excOf w e.act).map fun _ => P.str .seq
  | .processId => some (decimal F.pid)
  | .parentDepth => some (decimal (parentDepth w.par e.act))
  | .parentDepthIndent => some (List.replicate (3 * parentDepth w.par e.act) ' ')
  | .isoBegin v => (w.beginOf e.act).map fun b => isoText F b.etime v
  | .isoEnd v => (w.endOf e.act).map fun d => isoText F d.etime v
  | .importDeltaS => some (chars (Dec.fixed 6 (secs (e.etime - F.names.importTime))))
  | .importDeltaMs => some (chars (Dec.fixed 4 (secs (e.etime - F.names.importTime) * 1000)))

/-- The names of the fields in templates. -/
def nameOf : Field → String
  | .loggerName => "logger_name"
  | .loggerId => "logger_id"
  | .actionName => "action_name"
  | .actionId => "action_id"
  | .actionGuid => "action_guid"
  | .statusStr => "status_str"
  | .statusChar => "status_char"
  | .warnChar => "warn_char"
  | .levelName => "level_name"
  | .levelNameUpper => "level_name_upper"
  | .levelChar => "level_char"
  | .levelNumber => "level_number"
  | .dataMap => "data_map"
  | .dataMapRepr => "data_map_repr"
  | .beginMessage => "begin_message"
  | .beginMessageRaw => "begin_message_raw"
  | .endMessage => "end_message"
  | .endMessageRaw => "end_message_raw"
  | .eventMessage => "event_message"
  | .eventMessageRaw => "event_message_raw"
  | .beginTimestamp => "begin_timestamp"
  | .endTimestamp => "end_timestamp"
  | .durationS => "duration_s"
  | .durationMs => "duration_ms"
  | .durationUs => "duration_us"
  | .durationAuto => "duration_auto"
  | .moduleName => "module_name"
  | .modulePath => "module_path"
  | .funcName => "func_name"
  | .lineNumber => "line_number"
  | .excType => "exc_type"
  | .excMessage => "exc_message"
  | .excTbStr => "exc_tb_str"
  | .excTbList => "exc_tb_list"
  | .processId => "process_id"
  | .parentDepth => "parent_depth"
  | .parentDepthIndent => "parent_depth_indent"
  | .isoBegin .plain => "iso_begin"
  | .isoEnd .plain => "iso_end"
  | .isoBegin .notz => "iso_begin_notz"
  | .isoEnd .notz => "iso_end_notz"
  | .isoBegin .loc => "iso_begin_local"
  | .isoEnd .loc => "iso_end_local"
  | .isoBegin .locNotz => "iso_begin_local_notz"
  | .isoEnd .locNotz => "iso_end_local_notz"
  | .isoBegin .locNoms => "iso_begin_local_noms"
  | .isoEnd .locNoms => "iso_end_local_noms"
  | .isoBegin .locNomsNotz => "iso_begin_local_noms_notz"
  | .isoEnd .locNomsNotz => "iso_end_local_noms_notz"
  | .importDeltaS => "import_delta_s"
  | .importDeltaMs => "import_delta_ms"

/-- Free text is quoted; labels, numbers, times and indentation are not. -/
def free : Field → Bool
  | .loggerName | .actionName | .beginMessage | .beginMessageRaw | .endMessage | .endMessageRaw | .eventMessage
  | .eventMessageRaw | .moduleName | .modulePath | .excMessage | .excTbStr | .excTbList => true
  | _ => false

/-- Text in quotes, as JSON has it (C39 reads it back). -/
def inQuotes (s : List Char) : String := String.ofList ((Json.dumps (s.map Char.toNat)).map Char.ofNat)

/-- What a field shows: what it tells, quoted if it is free text; its name in braces if it has nothing to tell. -/
def shows (P : Foreign) (F : Facts) (w : World) (e : Event) (f : Field) : String :=
  match content P F w e f with
  | some s => if free f then inQuotes s else String.ofList s
  | none => "{" ++ nameOf f ++ "}"

/-- No foreign part of formatting raises anything but an Exception. -/
structure Foreign.Calm (P : Foreign) : Prop where
  exotic : ∀ v sp, P.exotic v sp ≠ .base
  other : ∀ p c s o v, P.other p c s o v ≠ .base

/-- A piece of a template: text, or a built-in field. -/
inductive Bit
  | lit (s : List Char)
  | field (f : Field)

def Bit.part : Bit → Tmpl.Part
  | .lit s => .lit s
  | .field f => .name (nameOf f).toList none []

/-- What a piece shows. -/
def Bit.shows (P : Foreign) (F : Facts) (w : World) (e : Event) : Bit → String
  | .lit s => String.ofList s
  | .field f => Py.shows P F w e f

/-- A template made of text and built-in fields, under names that the action has no data for (C38). -/
def Plain (w : World) (e : Event) (t : List Bit) : Prop :=
  ∀ f, Bit.field f ∈ t → w.dataOf e.act (nameOf f) = none

/-- C120 in full. -/
def Shown : Prop :=
  ∀ (env : Env) (P : Foreign) (F : Facts) (_ : P.Calm) (w : World) (_ : Reachable env w) (k : Kind) (e : Event) (_ : (k, e) ∈ w.pub)
    (t : List Bit) (_ : Plain w e t),
    entry P F (Tmpl.write (t.map Bit.part)) w e = .ok (String.join (t.map (Bit.shows P F w e)))

end Verif.Py
