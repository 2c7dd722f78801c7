import Verif.Model.Bisect
import Mathlib.Data.List.Sort
import Mathlib.Order.WithBot
/-!
# `lithoxyl/accumulators.py`

Values are elements of a linear order (`MaxAccumulator`, `MinAccumulator`); NaN is not among them.  `HistogramCounter` also
takes infinities and NaN.
-/
namespace Verif.Accum

open Verif.Bis

variable {K : Type} [LinearOrder K]

/-- `MaxAccumulator.add` (accumulators.py:13-27) on `max_list`, with `max_len = n`. -/
def maxAdd (n : Nat) (xs : List K) (val : K) : List K :=
  if xs.head?.any (fun x => decide (val ≤ x)) then xs
  else if xs.length < n then insort (fun y => decide (val < y)) xs val
  else
    let idx := right (fun y => decide (val < y)) xs
    if idx = n then (xs ++ [val]).drop 1
    else xs.set idx val

/-- `max_list` after a sequence of `add`s (accumulators.py:9-11). -/
def maxRun (n : Nat) (vals : List K) : List K := vals.foldl (maxAdd n) []

/-- `MinAccumulator.add` (accumulators.py:36-50). -/
def minAdd (n : Nat) (xs : List K) (val : K) : List K :=
  if xs.getLast?.any (fun x => decide (val ≥ x)) then xs
  else if xs.length < n then insort (fun y => decide (val < y)) xs val
  else
    let idx := right (fun y => decide (val < y)) xs
    if idx = 0 then (val :: xs).dropLast
    else xs.set idx val

/-- `min_list` after a sequence of `add`s (accumulators.py:32-34). -/
def minRun (n : Nat) (vals : List K) : List K := vals.foldl (minAdd n) []

/-! ## HistogramCounter -/

/-- Numbers with `-inf` and `inf`. -/
abbrev Ext (K : Type) := WithBot (WithTop K)

/-- `-inf` and `inf`. -/
def negInf : Ext K := ⊥
def posInf : Ext K := ((⊤ : WithTop K) : Ext K)

/-- A `HistogramCounter` (accumulators.py:54-70). -/
structure Hist (K : Type) where
  bounds : List (Ext K)
  buckets : List Nat

/-- `zip(bounds, bounds[1:])` (accumulators.py:68-69). -/
def ranges {X : Type} (bounds : List X) : List (X × X) := bounds.zip bounds.tail

/-- `HistogramCounter.__init__` (accumulators.py:54-70), for bounds without NaN: the set of the bounds and both infinities,
sorted. -/
def histInit (bounds : List (Ext K)) : Hist K :=
  let b := ((posInf :: negInf :: bounds).dedup).mergeSort (fun x y => decide (x ≤ y))
  ⟨b, List.replicate (ranges b).length 0⟩

/-- `val < y` for a value that may be NaN (`none`). -/
def histLt (val : Option (Ext K)) (y : Ext K) : Bool := match val with | none => false | some v => decide (v < y)

/-- `HistogramCounter.add` (accumulators.py:72-75); `none` is an IndexError.  `bisect_right(...) - 1` is never negative
(the first bound is `-inf`). -/
def histAdd (h : Hist K) (val : Option (Ext K)) : Option (Hist K) :=
  let idx := right (histLt val) h.bounds - 1
  match h.buckets[idx]? with
  | none => none
  | some c => some { h with buckets := h.buckets.set idx (c + 1) }

/-- A sequence of `add`s that do not raise. -/
def histRun (h : Hist K) : List (Option (Ext K)) → Option (Hist K)
  | [] => some h
  | v :: vs => (histAdd h v).bind fun h => histRun h vs

/-- `get_results` (accumulators.py:77-78). -/
def results (h : Hist K) : List ((Ext K × Ext K) × Nat) := (ranges h.bounds).zip h.buckets

end Verif.Accum
