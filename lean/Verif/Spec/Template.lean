import Verif.Model.Template
/-!
# What a message template means

A template is written as a list of parts, and what it shows is said part by part.
-/
namespace Verif.Tmpl

open Verif.Sens

/-- The parts of a template: literal text; a field without a name (`{}`), numbered or named, each with an optional
conversion and format spec. -/
inductive Part
  | lit (s : List Char)
  | auto (conv : Option Char) (spec : List Char)
  | num (i : Nat) (conv : Option Char) (spec : List Char)
  | name (k : List Char) (conv : Option Char) (spec : List Char)
deriving DecidableEq, Repr

/-- A field as it is written. -/
def field (name : List Char) (conv : Option Char) (spec : List Char) : List Char :=
  ['{'] ++ name ++ (match conv with | some c => ['!', c] | none => []) ++ (if spec = [] then [] else [':'] ++ spec) ++ ['}']

/-- A part as it is written; braces of literal text are doubled. -/
def Part.write : Part → List Char
  | .lit s => s.flatMap fun c => if c = '{' ∨ c = '}' then [c, c] else [c]
  | .auto conv spec => field [] conv spec
  | .num i conv spec => field (dec i) conv spec
  | .name k conv spec => field k conv spec

def write (ps : List Part) : List Char := ps.flatMap Part.write

/-- Characters with no meaning inside a field. -/
def Ordinary (c : Char) : Prop := c ≠ '{' ∧ c ≠ '}' ∧ c ≠ '[' ∧ c ≠ '.' ∧ c ≠ ':' ∧ c ≠ '!'

/-- A format spec may refer to other arguments in braces (as in `{0:{1}}`): its braces are balanced, and what a pair of them
encloses begins with a name or number.  `d` is the number of pairs that are open. -/
def Balanced : Nat → List Char → Prop
  | d, [] => d = 0
  | d, c :: s =>
    if c = '{' then (∃ e r, s = e :: r ∧ Ordinary e) ∧ Balanced (d + 1) s
    else if c = '}' then 0 < d ∧ Balanced (d - 1) s
    else Balanced d s

/-- What parts are allowed: names are ordinary text that is not a number; conversions have no braces, specs have balanced ones. -/
def Part.Ok : Part → Prop
  | .lit _ => True
  | .auto conv spec | .num _ conv spec => (∀ c, conv = some c → c ≠ '{' ∧ c ≠ '}') ∧ Balanced 0 spec
  | .name k conv spec => (∀ c ∈ k, Ordinary c) ∧ (∃ c ∈ k, c.isDigit = false) ∧
      (∀ c, conv = some c → c ≠ '{' ∧ c ≠ '}') ∧ Balanced 0 spec

/-- Fields without a name stand for the arguments in order: the first for argument `n`, the next for `n + 1`, ... -/
def numbered : Nat → List Part → List Part
  | _, [] => []
  | n, .auto conv spec :: ps => .num n conv spec :: numbered (n + 1) ps
  | n, p :: ps => p :: numbered n ps

/-- The value of a name: from the data map, else from the field of that name, else None. -/
def named {V : Type} (c : Conf V) (dataMap : String → Option V) (k : String) : Res V :=
  match dataMap k with
  | some v => .ok v
  | none =>
    match c.defs k with
    | none => .ok c.nothing
    | some f =>
      match f.getter with
      | some .keyError => .ok c.nothing
      | some r => r
      | none => .exc

/-- The text of a value; whatever goes wrong, the field as it is written. -/
def orWritten (written : List Char) : Res String → String
  | .ok s => s
  | _ => String.ofList written

/-- What a part shows. -/
def Part.shown {V : Type} (c : Conf V) (dataMap : String → Option V) (args : List V) : Part → String
  | .lit s => String.ofList s
  | .auto _ _ => ""
  | .num i conv spec =>
    match args[i]? with
    | some v => orWritten (field (dec i) conv spec) (c.fmt [] conv spec args v)
    | none => String.ofList (field (dec i) conv spec)
  | .name k conv spec =>
    match named c dataMap (String.ofList k) with
    | .ok v =>
      let spec' := if spec = [] then ((c.defs (String.ofList k)).map (·.spec)).getD [] else spec
      orWritten (field k conv spec) (c.fmt [] conv spec' [] v)
    | _ => String.ofList (field k conv spec)

/-- What a template shows. -/
def shown {V : Type} (c : Conf V) (dataMap : String → Option V) (args : List V) (ps : List Part) : String :=
  String.join ((numbered 0 ps).map (Part.shown c dataMap args))

/-- Nothing raises a BaseException that is not an Exception, and no field is called by a number. -/
structure Conf.Calm {V : Type} (c : Conf V) : Prop where
  fmt : ∀ p cv s o v, c.fmt p cv s o v ≠ .base
  getter : ∀ k f, c.defs k = some f → f.getter ≠ some .base
  numbers : ∀ i, c.defs (String.ofList (dec i)) = none

/-- The names of known fields are names: not empty, not a number, without attribute or index. -/
def Conf.Names {V : Type} (c : Conf V) : Prop :=
  ∀ k f, c.defs k = some f → k.toList.all Char.isDigit = false ∧ ∀ ch ∈ k.toList, ch ≠ '.' ∧ ch ≠ '['

/-- Known fields that are shown unquoted are safe to show so: the text of what their getter returns has no `bad` character,
with any conversion and any spec that has none; neither has the text of None. -/
def Conf.Safe {V : Type} (c : Conf V) (bad : Char → Prop) : Prop :=
  ∀ k f, c.defs k = some f → f.quote = false → ∀ v, f.getter = some (.ok v) ∨ v = c.nothing → ∀ conv spec s,
    (∀ ch ∈ spec, ¬ bad ch) → c.fmt [] conv spec [] v = .ok s → ∀ ch ∈ s.toList, ¬ bad ch

/-- C88 in full: no event's entry contains an unwanted character, if the template, the specs of the known fields, what
quoting gives and what the unquoted fields get contain none; whatever keyword arguments, data map and arguments contain. -/
def C88_full : Prop :=
  ∀ {V : Type} (c : Conf V) (q : String → Res String) (bad : Char → Prop) (template : List Char)
    (kwargs dataMap : String → Option V) (args : List V) (s : String), c.Names → c.Safe bad →
    (∀ ch : Char, ch.isDigit = true ∨ ch ∈ ['{', '}', ':', '!'] → ¬ bad ch) →
    (∀ k f, c.defs k = some f → ∀ ch ∈ f.spec, ¬ bad ch) → (∀ x y, q x = .ok y → ∀ ch ∈ y.toList, ¬ bad ch) →
    (∀ ch ∈ template, ¬ bad ch) →
    formatAll c defaultDefaulter (defaultQuoter c q) template kwargs dataMap args = .ok s → ∀ ch ∈ s.toList, ¬ bad ch

end Verif.Tmpl
