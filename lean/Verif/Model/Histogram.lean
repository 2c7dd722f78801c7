import Verif.Model.P2
/-!
# `get_histogram` of `lithoxyl/quantile.py`
-/
namespace Verif.Quant

open Verif.Accum (Ext)
open Verif.P2 (trunc)

variable {K : Type} [Field K] [LinearOrder K] [IsStrictOrderedRing K] [FloorRing K]

/-- A `HistogramCell` (quantile.py:9-10): `q_range`, `val_range`, `ratio`, `count`. -/
structure Cell (K : Type) where
  q0 : K
  q1 : K
  v0 : Ext K
  v1 : Ext K
  ratio : K
  count : Int

/-- The body of the loop (quantile.py:56-67): `total` is the accumulator's count and `n` the number of points in `qwantz`. -/
def cell (total n : Nat) (s e : K × Ext K) : Cell K :=
  let ratio := e.1 - s.1
  let count := trunc (ratio * (total : K))
  let count :=
    if total < n then (if e.2 > s.2 then count + 1 else count)
    else if s.1 = 0 ∨ e.1 = 1 then count + 1 else count
  ⟨s.1, e.1, s.2, e.2, ratio, count⟩

/-- The loop over `zip(qwantz, qwantz[1:])` (quantile.py:55-68). -/
def cells (total : Nat) (qwantz : List (K × Ext K)) : List (Cell K) :=
  (qwantz.zip qwantz.tail).map fun p => cell total qwantz.length p.1 p.2

/-- `get_histogram` (quantile.py:41-69) of a reservoir, with the points `qs`. -/
def getHistogram (r : Res K) (qs : List K) : Except Exc (List (Cell K)) :=
  match getQuantiles r qs with
  | .error e => .error e
  | .ok w => .ok (cells r.base.count w)

end Verif.Quant
