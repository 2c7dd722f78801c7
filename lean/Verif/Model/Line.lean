import Verif.Model.Fields
import Verif.Model.Template
import Verif.Model.Files
import Verif.Model.Utf8
import Verif.Spec.Actions
/-!
# From an event to its line in a file

What joins `Model/Fields.lean` (the getters), `Model/Template.lean` (the formatter), `Model/Sensible.lean` (the sink) and
`Model/Files.lean` (the emitter).
-/
namespace Verif.LineOf

open Verif.Fields (Field FVal)
open Verif.Tmpl (Conf builtinMap)

/-- What a formatter handles: None, text, application data, or the value of another built-in field. -/
inductive V
  | none
  | text (s : String)
  | data (v : Val)
  | field (f : FVal)

/-- The names of the built-in fields (sensible.py:431-465, 472-506, 513-515, 521-525). -/
def fieldNames : List (String × Field) :=
  [("logger_name", .loggerName), ("logger_id", .loggerId), ("action_name", .actionName), ("action_id", .actionId),
   ("action_guid", .actionGuid), ("status_str", .statusStr), ("status_char", .statusChar), ("warn_char", .warnChar),
   ("level_name", .levelName), ("level_name_upper", .levelNameUpper), ("level_char", .levelChar), ("level_number", .levelNumber),
   ("data_map", .dataMap), ("data_map_repr", .dataMapRepr), ("begin_message", .beginMessage),
   ("begin_message_raw", .beginMessageRaw), ("end_message", .endMessage), ("end_message_raw", .endMessageRaw),
   ("event_message", .eventMessage), ("event_message_raw", .eventMessageRaw), ("begin_timestamp", .beginTimestamp),
   ("end_timestamp", .endTimestamp), ("duration_s", .durationS), ("duration_ms", .durationMs), ("duration_us", .durationUs),
   ("duration_auto", .durationAuto), ("module_name", .moduleName), ("module_path", .modulePath), ("func_name", .funcName),
   ("line_number", .lineNumber), ("exc_type", .excType), ("exc_message", .excMessage), ("exc_tb_str", .excTbStr),
   ("exc_tb_list", .excTbList), ("process_id", .processId), ("parent_depth", .parentDepth),
   ("parent_depth_indent", .parentDepthIndent), ("iso_begin", .isoBegin .plain), ("iso_end", .isoEnd .plain),
   ("iso_begin_notz", .isoBegin .notz), ("iso_end_notz", .isoEnd .notz), ("iso_begin_local", .isoBegin .loc),
   ("iso_end_local", .isoEnd .loc), ("iso_begin_local_notz", .isoBegin .locNotz), ("iso_end_local_notz", .isoEnd .locNotz),
   ("iso_begin_local_noms", .isoBegin .locNoms), ("iso_end_local_noms", .isoEnd .locNoms),
   ("iso_begin_local_noms_notz", .isoBegin .locNomsNotz), ("iso_end_local_noms_notz", .isoEnd .locNomsNotz),
   ("import_delta_s", .importDeltaS), ("import_delta_ms", .importDeltaMs)]

/-- the same names as in the table of specs -/
example : fieldNames.map (·.1) = Tmpl.builtins.map (·.1) := by decide

/-- What rendering uses beyond the state: the names the getters use, how the text of an event's message comes out
(`Event.message`, Model/Message.lean and Model/Template.lean), and how Python formats a value. -/
structure Render where
  names : Fields.Names
  message : World → Event → Sens.Res String
  fmt : (path : List Char) → Option Char → (spec : List Char) → List V → V → Sens.Res String

/-- The value of a built-in field as the formatter gets it. -/
def Render.value (r : Render) (w : World) : Sens.Res FVal → Sens.Res V
  | .ok (.text s) => .ok (.text s)
  | .ok (.message e) =>
    match r.message w e with
    | .ok s => .ok (.text s)
    | .keyError => .keyError
    | .exc => .exc
    | .base => .base
  | .ok v => .ok (.field v)
  | .keyError => .keyError
  | .exc => .exc
  | .base => .base

/-- `BUILTIN_FIELD_MAP` for an event, rendered in state `w`. -/
def Render.conf (r : Render) (w : World) (e : Event) : Conf V where
  defs := builtinMap fun k =>
    match fieldNames.find? fun b => b.1 = k with
    | some b => r.value w (Fields.read r.names w e b.2)
    | none => .exc
  nothing := .none
  fmt := r.fmt

/-- `SensibleFormatter(template)` called with an event (sensible.py:165-191, 267-300): no arguments, the event's data map; `none`
is a raised exception. -/
def Render.entry (r : Render) (template : List Char) (w : World) (e : Event) : Option String :=
  match Tmpl.formatAll (r.conf w e) Tmpl.defaultDefaulter (Tmpl.defaultQuoter (r.conf w e) Tmpl.jsonQuoter) template
      (fun _ => none) (fun k => (w.dataOf e.act k).map .data) [] with
  | .ok s => some s
  | _ => none

/-- The hooks of a `SensibleSink` (sensible.py:50-57): none for `on_exception`. -/
def sensKind : Kind → Option Sens.Kind
  | .begin => some .begin
  | .warn => some .warn
  | .end_ => some .end'
  | .comment => some .comment
  | .exception => none

/-- `SensibleSink(formatter, emitter, filters, on)` (sensible.py:35-57), the formatter rendering each event in the state it is
delivered in; the filters may raise (`none`). -/
def sinkOf (r : Render) (template : List Char) (on : List String) (filters : List (Kind × Event → Option Bool))
    (at_ : Kind × Event → World) : Option (Sens.Sink (Kind × Event)) :=
  Sens.mkSink on filters fun q => r.entry template (at_ q) q.2

/-- `SensibleSink(formatter, emitter)`, with all events and no filters. -/
def sink (r : Render) (template : List Char) (at_ : Kind × Event → World) : Option (Sens.Sink (Kind × Event)) :=
  sinkOf r template Sens.EVENTS [] at_

/-- The file a new `FileEmitter` (UTF-8, newline as separator, emitters.py) has made of the events a sink was given. -/
def fileOf (s : Sens.Sink (Kind × Event)) (evs : List (Kind × Event)) : List Nat :=
  ((Files.run 0 (⟨none, []⟩ : Files.St Nat)
    (.make false true [10] :: (Sens.emitted s (evs.filterMap fun q => (sensKind q.1).map fun k => (k, q))).map fun x =>
      .emit 0 (Utf8.encode (x.2.2.toList.map Char.toNat)))).file).getD []

end Verif.LineOf
