import Mathlib.Algebra.Order.Field.Basic
/-!
# Reading numbers and durations, for C97

Text is a list of code points.
-/
namespace Verif.Spec.Dec

variable {K : Type*} [Field K]

/-- The value of a row of digits. -/
def digits (s : List Nat) : Nat := s.foldl (fun v c => 10 * v + (c - 48)) 0

/-- The value of digits, a point (46) and digits. -/
def unsigned (s : List Nat) : K :=
  let a := s.takeWhile (· ≠ 46)
  let b := (s.dropWhile (· ≠ 46)).drop 1
  (digits (a ++ b) : K) / 10 ^ b.length

/-- The same with a sign (45 is the minus sign). -/
def number : List Nat → K
  | 45 :: s => -unsigned s
  | s => unsigned s

/-- How many seconds a unit is: `us`, `ms`, `s`. -/
def unit : List Nat → Option K
  | [117, 115] => some (1 / 10 ^ 6)
  | [109, 115] => some (1 / 10 ^ 3)
  | [115] => some 1
  | _ => none

/-- A duration with its unit: blanks (32), a number, a unit (lower case letters). -/
def span (s : List Nat) : Option K :=
  let t := s.dropWhile (· = 32)
  (unit (t.dropWhile (· < 97))).map (number (t.takeWhile (· < 97)) * ·)

end Verif.Spec.Dec
