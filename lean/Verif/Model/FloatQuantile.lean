import Verif.Model.Float
import Verif.Model.Quantile
/-!
# `ReservoirAccumulator._get_quantile` in floating point

As in `Verif.Model.Quantile`, but every operation on floats is rounded (`Verif.Model.Float`).  `n - 1`, `idx_f` and `idx_c` are
integers; as floats they are exact up to 2 ** 53, more values are left out.
-/
namespace Verif.FltQuant

open Verif.Flt Verif.Quant

variable {K : Type} [Field K] [LinearOrder K] [IsStrictOrderedRing K] [FloorRing K]

/-- `ReservoirAccumulator._get_quantile` (quantile.py:144-153). -/
def resQuantile (F : Rounding K) (r : Res K) (q : K) : Except Exc K × Res K :=
  let rnd := F.rnd
  if ¬ (0 < q ∧ q < 1) then (.error .value, r)
  else
    let r' := sortData r
    let idx : K := rnd (q * ((r'.data.length : K) - 1))
    let f := ⌊idx⌋
    let c := ⌈idx⌉
    (if f = c then item r'.data f
     else do
      let a ← item r'.data f
      let b ← item r'.data c
      return rnd (rnd (a * rnd ((c : K) - idx)) + rnd (b * rnd (idx - (f : K)))), r')

end Verif.FltQuant
