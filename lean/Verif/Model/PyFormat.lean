import Verif.Model.Line
import Verif.Model.Decimal
import Mathlib.Data.Rat.Floor
/-!
# What `str.format` makes of the values of built-in fields

The format spec mini-language of Python (`[[fill]align][sign][#][0][width][,][.precision][type]`), from its documentation, as
far as it is used by the specs of the built-in fields (sensible.py:431-465, 472-525) and by plain variations of them in templates;
the rest is a parameter.  With it, what an entry shows for a built-in field: `t.fstr.format(**{name: kw_vals[name]})`
(sensible.py:291-294).
-/
namespace Verif.Py

open Verif.Fields (Field FVal)

/-- A value as `format` gets it: None, text, an integer, a float (exact), a list, or application data. -/
inductive Val
  | none
  | str (s : List Char)
  | int (n : Int)
  | flt (x : ℚ)
  | seq
  | app (v : Verif.Val)

/-- A format spec, taken apart. -/
structure Spec where
  fill : Option Char
  align : Option Char
  sign : Option Char
  alt : Bool
  zero : Bool
  width : Nat
  comma : Bool
  prec : Option Nat
  type : Option Char
deriving DecidableEq, Repr

def isAlign (c : Char) : Bool := "<>=^".toList.contains c

/-- `[[fill]align]` -/
def takeAlign : List Char → (Option Char × Option Char) × List Char
  | [] => ((none, none), [])
  | [a] => if isAlign a then ((none, some a), []) else ((none, none), [a])
  | f :: a :: r =>
    if isAlign a then ((some f, some a), r)
    else if isAlign f then ((none, some f), a :: r) else ((none, none), f :: a :: r)

/-- A character that may be there. -/
def takeIf (p : Char → Bool) : List Char → Option Char × List Char
  | [] => (none, [])
  | c :: r => if p c then (some c, r) else (none, c :: r)

/-- Digits that may be there. -/
def takeNum (s : List Char) : Option Nat × List Char :=
  match s.takeWhile Char.isDigit with
  | [] => (none, s)
  | ds => (some (Tmpl.readDec ds), s.dropWhile Char.isDigit)

/-- A format spec; `none` is a ValueError. -/
def parse (s : List Char) : Option Spec :=
  let ((fill, align), s) := takeAlign s
  let (sign, s) := takeIf (fun c => "+- ".toList.contains c) s
  let (alt, s) := takeIf (· = '#') s
  let (zero, s) := takeIf (· = '0') s
  let (width, s) := takeNum s
  let (comma, s) := takeIf (· = ',') s
  let (dot, s) := takeIf (· = '.') s
  let (prec, s) := if dot.isSome then takeNum s else (none, s)
  if dot.isSome ∧ prec = none then none
  else match s with
    | [] => some ⟨fill, align, sign, alt.isSome, zero.isSome, width.getD 0, comma.isSome, prec, none⟩
    | [t] => some ⟨fill, align, sign, alt.isSome, zero.isSome, width.getD 0, comma.isSome, prec, some t⟩
    | _ => none

/-- Sign and body filled up to a width: after the text, before it, on both sides, or between sign and digits. -/
def pad (fill align : Char) (width : Nat) (sign body : List Char) : List Char :=
  let n := width - (sign.length + body.length)
  if align = '<' then sign ++ body ++ List.replicate n fill
  else if align = '^' then List.replicate (n / 2) fill ++ (sign ++ body) ++ List.replicate (n - n / 2) fill
  else if align = '=' then sign ++ List.replicate n fill ++ body
  else List.replicate n fill ++ (sign ++ body)

/-- The fill character, and the alignment with what it is if not given; the flag `0` is for `0=`. -/
def Spec.filled (sp : Spec) : Char := sp.fill.getD (if sp.zero then '0' else ' ')
def Spec.aligned (sp : Spec) (dflt : Char) : Char := sp.align.getD (if sp.zero then '=' else dflt)

/-- What belongs to the interpreter: version 3 or 2, the text of a float with `g`, `str` of None and lists, formatting beyond
what is modelled here, and attributes, indices and conversions. -/
structure Foreign where
  v3 : Bool
  g : Nat → ℚ → List Char
  str : Val → List Char
  exotic : Val → Spec → Sens.Res String
  other : List Char → Option Char → List Char → List Val → Val → Sens.Res String

/-- `format` of text: no signs, no alternate form, no filling between sign and digits. -/
def fmtStr (sp : Spec) (s : List Char) : Sens.Res String :=
  if (sp.type = none ∨ sp.type = some 's') ∧ sp.sign = none ∧ sp.alt = false ∧ sp.comma = false ∧ sp.aligned '<' ≠ '=' then
    .ok (String.ofList (pad sp.filled (sp.aligned '<') sp.width [] (match sp.prec with | some n => s.take n | none => s)))
  else .exc

/-- The sign of a number. -/
def signOf (sp : Spec) (neg : Bool) : List Char :=
  if neg then ['-'] else match sp.sign with | some '+' => ['+'] | some ' ' => [' '] | _ => []

/-- The digits of `'%.kf'`, without the sign. -/
def fixedDigits (k : Nat) (x : ℚ) : List Char :=
  if k = 0 then Tmpl.dec (Dec.rnd |x|).toNat else (Dec.fixed k |x|).map Char.ofNat

/-- `format` of a float. -/
def fmtFlt (F : Foreign) (sp : Spec) (x : ℚ) : Sens.Res String :=
  if sp.comma ∨ sp.alt then F.exotic (.flt x) sp
  else match sp.type with
    | some 'f' | some 'F' =>
      .ok (String.ofList (pad sp.filled (sp.aligned '>') sp.width (signOf sp (x < 0)) (fixedDigits (sp.prec.getD 6) x)))
    | some 'g' | some 'G' =>
      .ok (String.ofList (pad sp.filled (sp.aligned '>') sp.width (signOf sp (x < 0)) (F.g (sp.prec.getD 6) |x|)))
    | some 'e' | some 'E' | some 'n' | some '%' | none => F.exotic (.flt x) sp
    | some _ => .exc

/-- `format` of an integer: with the type of a float it is one, with that of an integer it has no precision. -/
def fmtInt (F : Foreign) (sp : Spec) (n : Int) : Sens.Res String :=
  match sp.type with
  | some 'd' | none =>
    if sp.prec ≠ none then .exc
    else if sp.comma ∨ sp.alt then F.exotic (.int n) sp
    else .ok (String.ofList (pad sp.filled (sp.aligned '>') sp.width (signOf sp (n < 0)) (Tmpl.dec n.natAbs)))
  | some 'f' | some 'F' | some 'g' | some 'G' => fmtFlt F sp n
  | some 'b' | some 'c' | some 'o' | some 'x' | some 'X' | some 'n' | some 'e' | some 'E' | some '%' => F.exotic (.int n) sp
  | some _ => .exc

/-- `format(v, spec)`.  None and lists take no spec in Python 3; in Python 2 their text is formatted. -/
def format (F : Foreign) (v : Val) (spec : List Char) : Sens.Res String :=
  match parse spec with
  | none => .exc
  | some sp =>
    match v with
    | .str s => fmtStr sp s
    | .int n => fmtInt F sp n
    | .flt x => if spec = [] then F.exotic (.flt x) sp else fmtFlt F sp x
    | .none => if F.v3 = true ∧ spec ≠ [] then .exc else fmtStr sp (F.str .none)
    | .seq => if F.v3 = true ∧ spec ≠ [] then .exc else fmtStr sp (F.str .seq)
    | .app v => F.exotic (.app v) sp

/-- `'{name...}'.format(name=v)` for a field with path and conversion. -/
def fmt (F : Foreign) (path : List Char) (conv : Option Char) (spec : List Char) (others : List Val) (v : Val) : Sens.Res String :=
  if path = [] ∧ conv = none then format F v spec else F.other path conv spec others v

/-- What the getters use beyond the state: the names, guids, callpoints, exceptions and data maps as text, the process id, the time
zone (Model/Iso.lean), and the text of a message (Model/Message.lean; reading it does not raise, C68). -/
structure Facts where
  names : Fields.Names
  guid : ActId → List Char
  moduleName : ActId → List Char
  modulePath : ActId → List Char
  funcName : ActId → List Char
  lineno : ActId → Int
  excType : Option Exc → List Char
  excMsg : Option Exc → List Char
  excTb : Option Exc → List Char
  json : Dict → List Char
  repr : Dict → List Char
  pid : Int
  zone : Iso.LocalTz
  offset : Nat → Int
  message : World → Event → String

/-- Code points as text. -/
def chars (s : List Nat) : List Char := s.map Char.ofNat

/-- Seconds, for a clock that counts microseconds. -/
def secs (t : Int) : ℚ := (t : ℚ) / 1000000

/-- The text of the ISO 8601 fields (sensible.py:472-506); times before 1970 are left out (Model/Iso.lean). -/
def isoText (F : Facts) (t : Int) : Fields.Iso → List Char
  | .plain => chars (Iso.utcTz t.toNat)
  | .notz => chars (Iso.utcNotz t.toNat)
  | .loc => chars (Iso.localTz F.zone t.toNat)
  | .locNotz => chars (Iso.localNotz F.zone t.toNat)
  | .locNoms => chars (Iso.localNoms F.offset t.toNat)
  | .locNomsNotz => chars (Iso.localNomsNotz F.offset t.toNat)

/-- The Python value of a field, from what it is about (sensible.py:431-465, 472-506, 513-515, 521-525). -/
def pyOf (F : Facts) (w : World) (f : Field) : FVal → Val
  | .text s => .str s.toList
  | .num n => if f = .parentDepthIndent then .str (List.replicate (3 * n.toNat) ' ') else .int n
  | .guid a => .str (F.guid a)
  | .time t =>
    match f with
    | .isoBegin v | .isoEnd v => .str (isoText F t v)
    | _ => .flt (secs t)
  | .span t =>
    match f with
    | .durationMs => .flt (secs t * 10 ^ 3)
    | .durationUs => .flt (secs t * 10 ^ 6)
    | .durationAuto => .str (chars (Dec.durationAuto (secs t)))
    | .importDeltaMs => .flt (secs t * 1000)
    | _ => .flt (secs t)
  | .message e => .str (F.message w e).toList
  | .dict d => if f = .dataMap then .str (F.json d) else .str (F.repr d)
  | .exc x =>
    match f with
    | .excType => .str (F.excType x)
    | .excMessage => .str (F.excMsg x)
    | .excTbStr => .str (F.excTb x)
    | _ => .seq
  | .callpoint a =>
    match f with
    | .moduleName => .str (F.moduleName a)
    | .modulePath => .str (F.modulePath a)
    | .funcName => .str (F.funcName a)
    | _ => .int (F.lineno a)
  | .pid => .int F.pid

/-- What a getter returns or raises, for the formatter. -/
def pyRes (F : Facts) (w : World) (f : Field) : Sens.Res FVal → Sens.Res Val
  | .ok v => .ok (pyOf F w f v)
  | .keyError => .keyError
  | .exc => .exc
  | .base => .base

/-- `BUILTIN_FIELD_MAP` and `str.format` for an event, rendered in state `w`. -/
def conf (P : Foreign) (F : Facts) (w : World) (e : Event) : Tmpl.Conf Val where
  defs := Tmpl.builtinMap fun k =>
    match LineOf.fieldNames.find? fun b => b.1 = k with
    | some b => pyRes F w b.2 (Fields.read F.names w e b.2)
    | none => .exc
  nothing := .none
  fmt := fmt P

/-- `SensibleFormatter(template)` called with an event (sensible.py:165-191, 267-300). -/
def entry (P : Foreign) (F : Facts) (template : List Char) (w : World) (e : Event) : Sens.Res String :=
  Tmpl.formatAll (conf P F w e) Tmpl.defaultDefaulter (Tmpl.defaultQuoter (conf P F w e) Tmpl.jsonQuoter) template
    (fun _ => none) (fun k => (w.dataOf e.act k).map .app) []

end Verif.Py
