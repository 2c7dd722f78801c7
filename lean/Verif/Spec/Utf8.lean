import Mathlib.Data.List.Basic
/-!
# Reading UTF-8

A strict decoder, as in the Unicode standard: shortest forms only, no surrogates, nothing beyond U+10FFFF.
-/
namespace Verif.Utf8

/-- A continuation byte. -/
def cont (b : Nat) : Bool := 0x80 ≤ b && b < 0xc0

/-- A character that is not a surrogate. -/
def Scalar (c : Nat) : Prop := c < 0xd800 ∨ 0xe000 ≤ c ∧ c < 0x110000

instance (c : Nat) : Decidable (Scalar c) := by unfold Scalar; infer_instance

/-- Decodes bytes; `none` is a decoding error. -/
def decode : List Nat → Option (List Nat)
  | [] => some []
  | a :: rest =>
    if a < 0x80 then (decode rest).map (a :: ·)
    else if a < 0xc0 then none
    else if a < 0xe0 then
      match rest with
      | b :: rest =>
        let c := (a - 0xc0) * 64 + (b - 0x80)
        if cont b ∧ 0x80 ≤ c then (decode rest).map (c :: ·) else none
      | _ => none
    else if a < 0xf0 then
      match rest with
      | b :: b' :: rest =>
        let c := (a - 0xe0) * 4096 + (b - 0x80) * 64 + (b' - 0x80)
        if cont b ∧ cont b' ∧ 0x800 ≤ c ∧ Scalar c then (decode rest).map (c :: ·) else none
      | _ => none
    else
      match rest with
      | b :: b' :: b'' :: rest =>
        let c := (a - 0xf0) * 262144 + (b - 0x80) * 4096 + (b' - 0x80) * 64 + (b'' - 0x80)
        if cont b ∧ cont b' ∧ cont b'' ∧ 0x10000 ≤ c ∧ Scalar c then (decode rest).map (c :: ·) else none
      | _ => none

/-- Little-endian two-byte units. -/
def pairs : List Nat → List Nat
  | a :: b :: rest => (a + 256 * b) :: pairs rest
  | _ => []

/-- Decodes UTF-16 (characters below 0x10000): a byte order mark at the very beginning is dropped, anywhere else it is the
character U+FEFF. -/
def decode16 : List Nat → List Nat
  | 0xff :: 0xfe :: rest => pairs rest
  | bytes => pairs bytes

end Verif.Utf8
