import Verif.Spec.Template
import Verif.Spec.Json
/-!
# Reading entries back

What an entry shows field by field, and a reader that gets the fields out of an entry.  The reader knows which fields of
the template are quoted, and nothing else.
-/
namespace Verif.Tmpl

open Verif.Sens

/-- The text of a field of an event; anything but `.ok` means that it cannot be shown.  Names are looked up in the keyword
arguments, then in the data map, then among the known fields. -/
def Part.text {V : Type} (c : Conf V) (kwargs dataMap : String → Option V) (args : List V) : Part → Res String
  | .lit s => .ok (String.ofList s)
  | .auto _ _ => .exc
  | .num i conv spec =>
    match args[i]? with
    | some v => c.fmt [] conv spec args v
    | none => .exc
  | .name k conv spec =>
    match (match kwargs (String.ofList k) with | some v => Res.ok v | none => named c dataMap (String.ofList k)) with
    | .ok v => c.fmt [] conv (if spec = [] then ((c.defs (String.ofList k)).map (·.spec)).getD [] else spec) [] v
    | .keyError => .keyError
    | .exc => .exc
    | .base => .base

/-- Whether a field is quoted: all but the known ones that are declared otherwise. -/
def Part.quoted {V : Type} (c : Conf V) : Part → Bool
  | .lit _ => false
  | .auto _ _ | .num _ _ _ => true
  | .name k _ _ =>
    match c.defs (String.ofList k) with
    | some f => f.quote
    | none => true

/-- What a part of an entry shows: its text, quoted if it is to be; the field as written if that cannot be had. -/
def Part.entry {V : Type} (c : Conf V) (q : String → Res String) (kwargs dataMap : String → Option V) (args : List V)
    (p : Part) : String :=
  match p.text c kwargs dataMap args with
  | .ok s => if p.quoted c then orWritten p.write (q s) else s
  | _ => String.ofList p.write

/-- Fields with a space between each two. -/
def spaced : List Part → List Part
  | [] => []
  | [p] => [p]
  | p :: ps => p :: .lit [' '] :: spaced ps

/-- A field written without a space. -/
def Part.Solid (p : Part) : Prop := (∀ s, p ≠ .lit s) ∧ ' ' ∉ p.write

/-- What is read for a field: the text of a quoted string, or the characters up to the next space. -/
inductive Reading
  | text (s : List Nat)
  | plain (s : List Nat)
deriving DecidableEq, Repr

/-- Reads an entry: a quoted string where a field is quoted and there is one, else the characters up to the next space. -/
def readEntry : List Bool → List Nat → List Reading
  | [], _ => []
  | q :: qs, line =>
    match (if q then Json.loads line else none) with
    | some (s, rest) => .text s :: readEntry qs (rest.drop 1)
    | none => .plain (line.takeWhile (· ≠ 32)) :: readEntry qs ((line.dropWhile (· ≠ 32)).drop 1)

/-- The code points of a text. -/
def points (s : String) : List Nat := s.toList.map Char.toNat

/-- What should be read for a field: the text of a quoted field; what an unquoted one shows; the field as written if it
cannot be shown. -/
def Part.reading {V : Type} (c : Conf V) (kwargs dataMap : String → Option V) (args : List V) (p : Part) : Reading :=
  match p.text c kwargs dataMap args with
  | .ok s => if p.quoted c then .text (points s) else .plain (points s)
  | _ => .plain (points (String.ofList p.write))

end Verif.Tmpl
