import Mathlib.Data.List.Chain
/-!
# Reading quoted text back

A reader of JSON strings, independent of how they are written: it takes a quoted string from the front of its input and
returns the text and the remaining input.  An escaped high surrogate followed by an escaped low one is one character.
-/
namespace Verif.Json

/-- The value of a hexadecimal digit. -/
def hexVal (c : Nat) : Option Nat :=
  if 48 ≤ c ∧ c ≤ 57 then some (c - 48)
  else if 97 ≤ c ∧ c ≤ 102 then some (c - 87)
  else if 65 ≤ c ∧ c ≤ 70 then some (c - 55)
  else none

/-- What a single-letter escape stands for. -/
def simpleEscape (c : Nat) : Option Nat :=
  if c = 34 then some 34 else if c = 92 then some 92 else if c = 47 then some 47
  else if c = 98 then some 8 else if c = 102 then some 12 else if c = 110 then some 10
  else if c = 114 then some 13 else if c = 116 then some 9 else none

/-- The units of a string body up to the closing quote, and the rest of the input. -/
def readUnits : List Nat → Option (List Nat × List Nat)
  | [] => none
  | 34 :: rest => some ([], rest)
  | 92 :: 117 :: a :: b :: c :: d :: rest =>
    match hexVal a, hexVal b, hexVal c, hexVal d with
    | some a, some b, some c, some d =>
      (readUnits rest).map fun r => ((a * 4096 + b * 256 + c * 16 + d) :: r.1, r.2)
    | _, _, _, _ => none
  | 92 :: c :: rest =>
    match simpleEscape c with
    | some x => (readUnits rest).map fun r => (x :: r.1, r.2)
    | none => none
  | c :: rest => if c < 32 then none else (readUnits rest).map fun r => (c :: r.1, r.2)

def isHigh (c : Nat) : Bool := 0xd800 ≤ c && c < 0xdc00
def isLow (c : Nat) : Bool := 0xdc00 ≤ c && c < 0xe000

/-- Joins surrogate pairs. -/
def joinPairs : List Nat → List Nat
  | [] => []
  | [c] => [c]
  | h :: l :: rest =>
    if isHigh h && isLow l then (0x10000 + (h - 0xd800) * 1024 + (l - 0xdc00)) :: joinPairs rest
    else h :: joinPairs (l :: rest)

/-- Reads one quoted string from the front of the input. -/
def loads : List Nat → Option (List Nat × List Nat)
  | 34 :: rest => (readUnits rest).map fun r => (joinPairs r.1, r.2)
  | _ => none

/-- Python text: code points, with no high surrogate directly followed by a low one.  (Text read from the outside never has
one: decoders produce whole characters.) -/
def Text (s : List Nat) : Prop :=
  (∀ c ∈ s, c < 0x110000) ∧ s.IsChain fun a b => ¬ (isHigh a = true ∧ isLow b = true)

end Verif.Json
