import Verif.Model.Message
import Verif.Model.Json
/-!
# `SensibleMessageFormatter.__init__` (`lithoxyl/sensible.py`)

Construction of a formatter from the pieces of its template: which fields are positional, which format spec they get, their
defaults and quoters; and formatting with what construction left behind.
-/
namespace Verif.Tmpl

open Verif.Sens Verif.Msg

/-- A decimal digit. -/
def digit (n : Nat) : Char := Char.ofNat (48 + n)

/-- `str(n)`, as used by boltons to number anonymous fields. -/
def dec (n : Nat) : List Char :=
  if n < 10 then [digit n] else dec (n / 10) ++ [digit (n % 10)]

/-- The number written by decimal digits, as `str.format` reads a positional field. -/
def readDec (s : List Char) : Nat := s.foldl (fun n c => 10 * n + (c.toNat - 48)) 0

/-- A field of a template (boltons' `BaseFormatField`). -/
structure TField where
  name : List Char
  spec : List Char
  conv : Option Char
deriving DecidableEq, Repr

/-- `base_name`: the name up to the first `.` or `[`. -/
def TField.base (t : TField) : List Char := t.name.takeWhile fun c => c ≠ '.' ∧ c ≠ '['

/-- The rest of the name, as `str.format` applies it to the value. -/
def TField.path (t : TField) : List Char := t.name.dropWhile fun c => c ≠ '.' ∧ c ≠ '['

/-- `is_positional`: no base name, or only digits.  Digits other than ASCII ones are left out. -/
def TField.positional (t : TField) : Bool := t.base.all Char.isDigit

/-- `str(token)`: the field as it is written in a template. -/
def TField.text (t : TField) : List Char :=
  '{' :: t.name ++ (match t.conv with | some c => ['!', c] | none => []) ++
    (if t.spec = [] then [] else ':' :: t.spec) ++ ['}']

/-- A registered field (`SensibleField`, sensible.py:401-417): its spec, whether it is to be quoted, its getter, None
(`none`) for a field declared without one. -/
structure FieldDef (V : Type) where
  spec : List Char
  quote : Bool
  getter : Option (Res V)

/-- What `SensibleField.__init__` makes of its arguments (sensible.py:407-417): unless told, a field is quoted if its spec
does not end in one of the letters that boltons counts as those of integers and floats. -/
def mkDef {V : Type} (spec : List Char) (getter : Option (Res V)) (quote : Option Bool) : FieldDef V :=
  { spec
    quote := match quote with
      | some b => b
      | none => match spec.getLast? with
        | some ch => !"bcdoxXneEfFgG%".toList.contains ch
        | none => true
    getter }

/-- The built-in fields (sensible.py:431-465, 472-510, 513-515, 521-525): name, spec, and the `quote` argument; the ISO 8601
fields have it set to False afterwards (sensible.py:509-510). -/
def builtins : List (String × String × Option Bool) :=
  [("logger_name", "s", none), ("logger_id", "d", none), ("action_name", "s", none), ("action_id", "d", none),
   ("action_guid", "s", some false), ("status_str", "s", some false), ("status_char", "s", some false),
   ("warn_char", "s", some false), ("level_name", "s", some false), ("level_name_upper", "s", some false),
   ("level_char", "s", some false), ("level_number", "d", none), ("data_map", "s", some false),
   ("data_map_repr", "s", some false), ("begin_message", "s", none), ("begin_message_raw", "s", none),
   ("end_message", "s", none), ("end_message_raw", "s", none), ("event_message", "s", none),
   ("event_message_raw", "s", none), ("begin_timestamp", ".14g", none), ("end_timestamp", ".14g", none),
   ("duration_s", ".3f", none), ("duration_ms", ".3f", none), ("duration_us", ".3f", none),
   ("duration_auto", ">9s", some false), ("module_name", "s", none), ("module_path", "s", none),
   ("func_name", "s", some false), ("line_number", "d", none), ("exc_type", "s", some false),
   ("exc_message", "s", none), ("exc_tb_str", "s", none), ("exc_tb_list", "s", none), ("process_id", "d", none),
   ("parent_depth", "d", none), ("parent_depth_indent", "s", some false),
   ("iso_begin", "s", some false), ("iso_end", "s", some false), ("iso_begin_notz", "s", some false),
   ("iso_end_notz", "s", some false), ("iso_begin_local", "s", some false), ("iso_end_local", "s", some false),
   ("iso_begin_local_notz", "s", some false), ("iso_end_local_notz", "s", some false),
   ("iso_begin_local_noms", "s", some false), ("iso_end_local_noms", "s", some false),
   ("iso_begin_local_noms_notz", "s", some false), ("iso_end_local_noms_notz", "s", some false),
   ("import_delta_s", "0.6f", none), ("import_delta_ms", "0.4f", none)]

/-- `BUILTIN_FIELD_MAP` (sensible.py:25-31, 528-535), given what the getters return for an event. -/
def builtinMap {V : Type} (getter : String → Res V) (name : String) : Option (FieldDef V) :=
  (builtins.find? fun b => b.1 = name).map fun b => mkDef b.2.1.toList (some (getter b.1)) b.2.2

/-- A field map with extra fields (sensible.py:240-243): the last of a name counts. -/
def withExtra {V : Type} (base : String → Option (FieldDef V)) (extra : List (String × FieldDef V)) (name : String) :
    Option (FieldDef V) :=
  match extra.reverse.find? fun b => b.1 = name with
  | some b => some b.2
  | none => base name

/-- What a formatter is given beyond its template: the fields it knows (built-in and extra ones, sensible.py:239-244) and
Python's None. -/
structure Conf (V : Type) where
  defs : String → Option (FieldDef V)
  nothing : V
  /-- how Python formats a value: with the path, the conversion and the spec of a field (`others` are the arguments a spec
  may refer to) -/
  fmt : (path : List Char) → Option Char → (spec : List Char) → (others : List V) → V → Res String

abbrev Quoter := Option (String → Res String)

/-- A token of a formatter: the entries of `default_map` and `quoter_map` may be missing. -/
inductive Token
  | lit (s : List Char)
  | field (t : TField) (default : Option String) (quoter : Option Quoter)

/-- The end of the constructor or of `format`: a value or the exception raised. -/
abbrev Out (α : Type) := Res α

/-- The loop body of the constructor for a field (sensible.py:252-264): a KeyError of defaulter, quoter or field map is
taken for an unknown field. -/
def mkField {V : Type} (c : Conf V) (defaulter : TField → Res String) (quoter : TField → Res Quoter) (t : TField) :
    Out Token :=
  match defaulter t with
  | .keyError => .ok (.field t none none)
  | .exc => .exc
  | .base => .base
  | .ok d =>
    match quoter t with
    | .keyError => .ok (.field t (some d) none)
    | .exc => .exc
    | .base => .base
    | .ok q =>
      if t.spec = [] then
        match c.defs (String.ofList t.name) with
        | some f => .ok (.field { t with spec := f.spec } (some d) (some q))
        | none => .ok (.field t (some d) (some q))
      else .ok (.field t (some d) (some q))

/-- The loop of the constructor (sensible.py:251-265). -/
def mkTokens {V : Type} (c : Conf V) (defaulter : TField → Res String) (quoter : TField → Res Quoter) :
    List Piece → Out (List Token)
  | [] => .ok []
  | .lit s :: ps =>
    match mkTokens c defaulter quoter ps with
    | .ok ts => .ok (.lit s :: ts)
    | r => r
  | .field nm spec conv :: ps =>
    match mkField c defaulter quoter ⟨nm, spec, conv⟩ with
    | .keyError => .keyError
    | .exc => .exc
    | .base => .base
    | .ok t =>
      match mkTokens c defaulter quoter ps with
      | .ok ts => .ok (t :: ts)
      | r => r

/-- `SensibleMessageFormatter(template, ...)` (sensible.py:221-265); an invalid template is a ValueError. -/
def construct {V : Type} (c : Conf V) (defaulter : TField → Res String) (quoter : TField → Res Quoter)
    (template : List Char) : Out (List Token) :=
  match tokenize dec template with
  | none => .exc
  | some ps => mkTokens c defaulter quoter ps

/-- `_default_defaulter` (sensible.py:302-303): the field as written. -/
def defaultDefaulter (t : TField) : Res String := .ok (String.ofList t.text)

/-- `_default_quoter` (sensible.py:305-311): quote unless the field is known and says not to.  `q` is `DEFAULT_QUOTER`. -/
def defaultQuoter {V : Type} (c : Conf V) (q : String → Res String) (t : TField) : Res Quoter :=
  match c.defs (String.ofList t.name) with
  | none => .ok (some q)
  | some f => if f.quote then .ok (some q) else .ok none

/-- The default quoter on text: `json.dumps` (sensible.py:19, 304-311). -/
def jsonQuoter (s : String) : Res String :=
  .ok (String.ofList ((Json.dumps (s.toList.map Char.toNat)).map Char.ofNat))

/-- The quoter for `quoter=False` (sensible.py:227-229). -/
def noQuoter (_ : TField) : Res Quoter := .ok none

/-- What is read: keyword arguments of the call, the event's data map, the getters of the known fields; a field without a
getter is a TypeError (sensible.py:142-161, 244-245, 281-282). -/
def look {V : Type} (c : Conf V) (kwargs dataMap : String → Option V) (name : String) : Res V :=
  lookup c.nothing kwargs dataMap (fun k => (c.defs k).map fun f => f.getter.getD .exc) name

/-- `t.fstr.format(...)` (sensible.py:291-294). -/
def value {V : Type} (c : Conf V) (kwargs dataMap : String → Option V) (args : List V) (t : TField) : Res String :=
  if t.positional then
    match args[readDec t.base]? with
    | some v => c.fmt t.path t.conv t.spec args v
    | none => .exc
  else
    match look c kwargs dataMap (String.ofList t.base) with
    | .ok v => c.fmt t.path t.conv t.spec [] v
    | .keyError => .keyError
    | .exc => .exc
    | .base => .base

/-- The `try` block of `format` (sensible.py:290-297). -/
def attempt {V : Type} (c : Conf V) (kwargs dataMap : String → Option V) (args : List V) (t : TField)
    (q : Option Quoter) : Res String :=
  match value c kwargs dataMap args t with
  | .ok s =>
    match q with
    | none => .keyError
    | some none => .ok s
    | some (some q) => q s
  | r => r

/-- `format` (sensible.py:270-300); a default that is missing from `default_map` is a KeyError out of it. -/
def formatTokens {V : Type} (c : Conf V) (kwargs dataMap : String → Option V) (args : List V) :
    List Token → String → Out String
  | [], acc => .ok acc
  | .lit s :: ts, acc => formatTokens c kwargs dataMap args ts (acc ++ String.ofList s)
  | .field t d q :: ts, acc =>
    match attempt c kwargs dataMap args t q with
    | .ok s => formatTokens c kwargs dataMap args ts (acc ++ s)
    | .base => .base
    | .keyError | .exc =>
      match d with
      | none => .keyError
      | some d => formatTokens c kwargs dataMap args ts (acc ++ d)

/-- A formatter made and used at once: `SensibleMessageFormatter(template, ...).format(event, *args, **kwargs)`. -/
def formatAll {V : Type} (c : Conf V) (defaulter : TField → Res String) (quoter : TField → Res Quoter)
    (template : List Char) (kwargs dataMap : String → Option V) (args : List V) : Out String :=
  match construct c defaulter quoter template with
  | .ok ts => formatTokens c kwargs dataMap args ts ""
  | .keyError => .keyError
  | .exc => .exc
  | .base => .base

/-- An event's message text when it is first read (action.py:308-321) for a raw message that is not None. -/
def messageText {V : Type} (c : Conf V) (raw : List Char) (dataMap : String → Option V) (fargs : List V) : Out String :=
  if '{' ∈ raw then formatAll c defaultDefaulter noQuoter raw (fun _ => none) dataMap fargs
  else .ok (String.ofList raw)

end Verif.Tmpl
