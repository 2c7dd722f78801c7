import Verif.Model.Float
import Verif.Model.Moment
/-!
# `lithoxyl/moment.py` in floating point

As `Verif.Model.Moment`, but every operation on floats is rounded (`Verif.Model.Float`).  Python converts the integers that
meet floats to floats; the arithmetic of `n ** 2 - 3 * n + 3`, `n - 1`, `n - 2` and `self._count - 1` is that of integers.
-/
namespace Verif.FltMom

open Verif.Flt Verif.Mom

variable {K : Type} [Field K] [LinearOrder K]

/-- `MomentAccumulator.add` (moment.py:33-56). -/
def add (R : Rounding K) (s : Acc K) (val : K) : Acc K :=
  let r := R.rnd
  let (mn, mx) :=
    if gtMax val s.max then (if s.count = 0 then some val else s.min, some val)
    else if ltMin val s.min then (some val, s.max)
    else (s.min, s.max)
  let n : ℤ := (s.count : ℤ) + 1
  let delta := r (val - s.mean)
  let delta_n := r (delta / r n)
  let delta_n2 := r (delta_n ^ 2)
  let term := r (r (delta * delta_n) * r ((n - 1 : ℤ) : K))
  { count := s.count + 1, min := mn, max := mx
    mean := r (s.mean + delta_n)
    m4 := r (r (r (s.m4 + r (r (term * delta_n2) * r ((n ^ 2 - 3 * n + 3 : ℤ) : K))) + r (r (6 * delta_n2) * s.m2)) -
      r (r (4 * delta_n) * s.m3))
    m3 := r (r (s.m3 + r (r (term * delta_n) * r ((n - 2 : ℤ) : K))) - r (r (3 * delta_n) * s.m2))
    m2 := r (s.m2 + term) }

/-- An accumulator after a sequence of `add`s. -/
def run (R : Rounding K) (xs : List K) : Acc K := xs.foldl (add R) init

/-- `variance` (moment.py:66-71): dividing by zero is `-0.0`. -/
def variance (R : Rounding K) (s : Acc K) : K :=
  if (s.count : ℤ) - 1 = 0 then 0 else R.rnd (s.m2 / R.rnd (((s.count : ℤ) - 1 : ℤ) : K))

end Verif.FltMom
