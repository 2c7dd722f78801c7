import Verif.Model.Iso
import Mathlib.Algebra.Order.Floor.Ring
/-!
# Numbers in entries: the specs `.3f`, `.4f`, `0.6f` and `duration_auto` (lithoxyl/sensible.py:420-426, 453-456, 513-515)

Numbers are exact; `%` formatting of the interpreter is modelled from its documentation: correctly rounded, halves to even.
Text is a list of code points.
-/
namespace Verif.Dec

open Verif.Iso (pad)

variable {K : Type*} [Field K] [LinearOrder K] [IsStrictOrderedRing K] [FloorRing K]

/-- The nearest integer, the even one of two. -/
def rnd (x : K) : Int :=
  let f := ⌊x⌋
  if x - f < 1 / 2 then f
  else if 1 / 2 < x - f then f + 1
  else if f % 2 = 0 then f else f + 1

/-- The decimal digits of a number, no leading zeros. -/
def dec (n : Nat) : List Nat := if n < 10 then [48 + n] else dec (n / 10) ++ [48 + n % 10]
termination_by n
decreasing_by omega

/-- `'%.kf' % x` for `k > 0`. -/
def fixed (k : Nat) (x : K) : List Nat :=
  let n := (rnd (|x| * 10 ^ k)).toNat
  (if x < 0 then [45] else []) ++ (dec (n / 10 ^ k) ++ 46 :: pad k (n % 10 ^ k))

/-- `duration_auto` (sensible.py:420-426): 117 115 is `us`, 109 115 is `ms`, 115 is `s`. -/
def durationAuto (d : K) : List Nat :=
  if d < 1 / 10 ^ 3 then fixed 3 (d * 10 ^ 6) ++ [117, 115]
  else if d < 1 then fixed 3 (d * 10 ^ 3) ++ [109, 115]
  else fixed 4 d ++ [115]

/-- The spec `>9s` of the field (sensible.py:456): to the right in nine columns. -/
def right9 (s : List Nat) : List Nat := List.replicate (9 - s.length) 32 ++ s

/-- What the fields `duration_s`, `duration_ms`, `duration_us`, `duration_auto` show for a duration (sensible.py:453-456). -/
def showS (d : K) : List Nat := fixed 3 d
def showMs (d : K) : List Nat := fixed 3 (d * 10 ^ 3)
def showUs (d : K) : List Nat := fixed 3 (d * 10 ^ 6)
def showAuto (d : K) : List Nat := right9 (durationAuto d)

/-- `import_delta_s` and `import_delta_ms` (sensible.py:513-515) for the time since the import. -/
def importS (d : K) : List Nat := fixed 6 d
def importMs (d : K) : List Nat := fixed 4 (d * 1000)

end Verif.Dec
