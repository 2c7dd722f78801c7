import Verif.Model.Sinks
/-!
# `RateAccumulator.get_norm_times` (`lithoxyl/sinks.py`)
-/
namespace Verif.Sinks

variable {K : Type} [Field K] [LinearOrder K] [IsStrictOrderedRing K]

/-- `get_norm_times(ndigits)` (sinks.py:89-97); `rnd` is `round(_, ndigits)`. -/
def normTimes (rnd : K → K) (a : RateAcc K) : List K :=
  match a.times with
  | [] => []
  | first :: rest => (first :: rest).map fun x => rnd (x - first)

end Verif.Sinks
