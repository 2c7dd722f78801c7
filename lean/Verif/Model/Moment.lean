import Mathlib.Algebra.Order.Field.Basic
/-!
# `lithoxyl/moment.py`: `MomentAccumulator`

Floats are replaced by an arbitrary ordered field: arithmetic is exact, there are no NaNs and no infinite inputs.
-/
namespace Verif.Mom

variable {K : Type} [Field K] [LinearOrder K] [IsStrictOrderedRing K]

/-- A `MomentAccumulator` (moment.py:24-31).  `min = none` is `inf` and `max = none` is `-inf`. -/
structure Acc (K : Type) where
  count : Nat
  min : Option K
  max : Option K
  mean : K
  m2 : K
  m3 : K
  m4 : K

/-- `MomentAccumulator.__init__` (moment.py:24-31). -/
def init : Acc K := ⟨0, none, none, 0, 0, 0, 0⟩

/-- `val > self._max` (moment.py:35). -/
def gtMax (val : K) (m : Option K) : Bool := match m with | none => true | some m => decide (val > m)
/-- `val < self._min` (moment.py:39). -/
def ltMin (val : K) (m : Option K) : Bool := match m with | none => true | some m => decide (val < m)

/-- `MomentAccumulator.add` (moment.py:33-56). -/
def add (s : Acc K) (val : K) : Acc K :=
  let (mn, mx) :=
    if gtMax val s.max then (if s.count = 0 then some val else s.min, some val)
    else if ltMin val s.min then (some val, s.max)
    else (s.min, s.max)
  let n : K := ((s.count + 1 : Nat) : K)
  let delta := val - s.mean
  let delta_n := delta / n
  let delta_n2 := delta_n ^ 2
  let term := delta * delta_n * (n - 1)
  { count := s.count + 1, min := mn, max := mx
    mean := s.mean + delta_n
    m4 := s.m4 + term * delta_n2 * (n ^ 2 - 3 * n + 3) + 6 * delta_n2 * s.m2 - 4 * delta_n * s.m3
    m3 := s.m3 + term * delta_n * (n - 2) - 3 * delta_n * s.m2
    m2 := s.m2 + term }

/-- An accumulator after a sequence of `add`s. -/
def run (xs : List K) : Acc K := xs.foldl add init

/-- Python division with `except ArithmeticError: return -0.0` (moment.py:66-86). -/
def safeDiv (a b : K) : K := if b = 0 then 0 else a / b

/-- `variance` (moment.py:66-71). -/
def variance (s : Acc K) : K := safeDiv s.m2 ((s.count : K) - 1)

/-- `skewness` (moment.py:73-78): `p05 x` is `x ** 0.5` and `p15 x` is `x ** 1.5`. -/
def skewness (p05 p15 : K → K) (s : Acc K) : K := safeDiv (p05 (s.count : K) * s.m3) (p15 s.m2)

/-- `kurtosis` (moment.py:80-86). -/
def kurtosis (s : Acc K) : K := safeDiv ((s.count : K) * s.m4) (s.m2 ^ 2)

/-- `std_dev` (moment.py:88-90). -/
def stdDev (p05 : K → K) (s : Acc K) : K := p05 (variance s)

end Verif.Mom
