import Mathlib.Algebra.Order.Floor.Ring
import Mathlib.Data.Int.Log
/-!
# Floating point arithmetic

Python's floats are IEEE 754 doubles: every operation gives the exact result, rounded.  The other models of numeric code
compute exactly; the models built on this file round after every operation, with any function that has the properties of
`Rounding`.  `ieee` is the rounding of binary floating point with `p` bits, to nearest, ties to even, with gradual underflow;
`Verif/Props/Float.lean` proves that it is a `Rounding`.  Left out: overflow (numbers above the largest double become
infinite), NaN, and the sign of zero.
-/
namespace Verif.Flt

/-- What the theorems need to know about rounding: it keeps the order, what has been rounded stays as it is, it treats both
signs alike, 1 and 2 are not changed, and half of a rounded number is not more than the number. -/
structure Rounding (K : Type) [Field K] [LinearOrder K] where
  rnd : K → K
  mono : ∀ {x y : K}, x ≤ y → rnd x ≤ rnd y
  idem : ∀ x, rnd (rnd x) = rnd x
  neg : ∀ x, rnd (-x) = -rnd x
  one : rnd 1 = 1
  two : rnd 2 = 2
  half : ∀ {x : K}, 0 ≤ x → rnd (rnd x / 2) ≤ x

variable {K : Type} [Field K] [LinearOrder K]

/-- A number that is a float. -/
def Rounding.Is (R : Rounding K) (x : K) : Prop := R.rnd x = x

instance (R : Rounding K) (x : K) : Decidable (R.Is x) := inferInstanceAs (Decidable (R.rnd x = x))

section
variable [IsStrictOrderedRing K] [FloorRing K]

/-- The nearest integer, the even one if there are two (IEEE 754, roundTiesToEven). -/
def rne (x : K) : ℤ :=
  if Int.fract x < 1 / 2 then ⌊x⌋
  else if 1 / 2 < Int.fract x then ⌊x⌋ + 1
  else if Even ⌊x⌋ then ⌊x⌋ else ⌊x⌋ + 1

/-- The exponent of the last place of a number: `p` bits, none below `2 ^ emin`. -/
def lastPlace (p : ℕ) (emin : ℤ) (x : K) : ℤ := max (Int.log 2 |x| - (p - 1)) emin

/-- Rounding to `p` bits. -/
def ieee (p : ℕ) (emin : ℤ) (x : K) : K :=
  (rne (x / (2 : K) ^ lastPlace p emin x) : K) * (2 : K) ^ lastPlace p emin x

end

end Verif.Flt
