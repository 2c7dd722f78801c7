import Verif.Model.FloatQuantile
import Verif.Model.Histogram
/-!
# `get_histogram` in floating point

As in `Verif.Model.Histogram`, but every operation on floats is rounded (`Verif.Model.Float`).
-/
namespace Verif.FltHist

open Verif.Flt Verif.Quant
open Verif.Accum (Ext)
open Verif.P2 (trunc)

variable {K : Type} [Field K] [LinearOrder K] [IsStrictOrderedRing K] [FloorRing K]

/-- The body of the loop (quantile.py:56-67); Python converts `total_count` to a float to multiply it. -/
def cell (F : Rounding K) (total n : Nat) (s e : K × Ext K) : Cell K :=
  let ratio := F.rnd (e.1 - s.1)
  let count := trunc (F.rnd (ratio * F.rnd (total : K)))
  let count :=
    if total < n then (if e.2 > s.2 then count + 1 else count)
    else if s.1 = 0 ∨ e.1 = 1 then count + 1 else count
  ⟨s.1, e.1, s.2, e.2, ratio, count⟩

/-- The loop over `zip(qwantz, qwantz[1:])` (quantile.py:55-68). -/
def cells (F : Rounding K) (total : Nat) (qwantz : List (K × Ext K)) : List (Cell K) :=
  (qwantz.zip qwantz.tail).map fun p => cell F total qwantz.length p.1 p.2

/-- `get_quantiles` (quantile.py:34-39) with the points `qs`. -/
def getQuantiles (F : Rounding K) (r : Res K) (qs : List K) : Except Exc (List (K × Ext K)) :=
  match (readAll (FltQuant.resQuantile F) r qs).1 with
  | .error e => .error e
  | .ok vs => .ok ((0, r.base.min) :: qs.zip (vs.map fin) ++ [(1, r.base.max)])

/-- `get_histogram` (quantile.py:41-69) of a reservoir, with the points `qs`. -/
def getHistogram (F : Rounding K) (r : Res K) (qs : List K) : Except Exc (List (Cell K)) :=
  match getQuantiles F r qs with
  | .error e => .error e
  | .ok w => .ok (cells F r.base.count w)

end Verif.FltHist
