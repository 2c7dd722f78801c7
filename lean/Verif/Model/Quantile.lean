import Verif.Model.Accum
import Mathlib.Algebra.Order.Field.Basic
import Mathlib.Algebra.Order.Floor.Ring
/-!
# `lithoxyl/quantile.py`: `BaseQuantileAccumulator` and `ReservoirAccumulator`

Numbers are elements of a linearly ordered field with floors (no NaN, no infinite data, exact arithmetic).  What an
`array.array('f')` makes of a number when it is stored (rounding to single precision) is the parameter `store`.
-/
namespace Verif.Quant

open Verif.Accum (Ext negInf posInf)

variable {K : Type} [Field K] [LinearOrder K] [IsStrictOrderedRing K] [FloorRing K]

/-- A finite number among the extended ones. -/
def fin (x : K) : Ext K := ((x : WithTop K) : Ext K)

/-- ValueError, IndexError. -/
inductive Exc where
  | value
  | index
  deriving DecidableEq, Repr

/-- The fields of `BaseQuantileAccumulator` (quantile.py:21-25), without the default points. -/
structure Base (K : Type) where
  count : Nat
  min : Ext K
  max : Ext K

/-- `BaseQuantileAccumulator.__init__` (quantile.py:21-25). -/
def baseInit : Base K := ⟨0, posInf, negInf⟩

/-- `BaseQuantileAccumulator.add` (quantile.py:27-32). -/
def baseAdd (b : Base K) (val : K) : Base K :=
  { count := b.count + 1
    min := if fin val < b.min then fin val else b.min
    max := if fin val > b.max then fin val else b.max }

/-- A `ReservoirAccumulator` (quantile.py:105-119); `cap = none` is `float('inf')`. -/
structure Res (K : Type) where
  base : Base K
  data : List K
  isSorted : Bool
  cap : Option Int

/-- `ReservoirAccumulator(cap=...)` without data (quantile.py:106-116); data given to the constructor is added with `add`
(quantile.py:117-119).  `cap=True` is `some (2 ^ 14)`. -/
def resInit (cap : Option Int) : Res K := ⟨baseInit, [], true, cap⟩

/-- `_sort` (quantile.py:121-128): arrays have no `sort`, the data is replaced by a sorted copy. -/
def sortData (r : Res K) : Res K :=
  if r.isSorted then r
  else { r with data := r.data.mergeSort (fun x y => decide (x ≤ y)), isSorted := true }

/-- `self._count < self._cap` and `idx < self._cap` (quantile.py:131, 139). -/
def below (n : Nat) (cap : Option Int) : Bool := match cap with | none => true | some c => decide ((n : Int) < c)

/-- `ReservoirAccumulator.add` (quantile.py:130-142); `rnd` is what `random.randint(0, self._count)` returns if it is called.
An item assignment beyond the array raises IndexError. -/
def resAdd (store : K → K) (r : Res K) (val : K) (rnd : Nat) : Except Exc (Res K) :=
  if below r.base.count r.cap then
    .ok { r with data := r.data ++ [store val], isSorted := false, base := baseAdd r.base val }
  else if below rnd r.cap then
    if rnd < r.data.length then
      .ok { r with data := r.data.set rnd (store val), isSorted := false, base := baseAdd r.base val }
    else .error .index
  else .ok r

/-- `data[i]`, with Python's negative indices (quantile.py:152-153). -/
def item (data : List K) (i : Int) : Except Exc K :=
  let j := if i < 0 then i + data.length else i
  if j < 0 then .error .index
  else match data[j.toNat]? with
    | some x => .ok x
    | none => .error .index

/-- `ReservoirAccumulator._get_quantile` (quantile.py:144-153): the result and the accumulator left behind (the data may have
been sorted). -/
def resQuantile (r : Res K) (q : K) : Except Exc K × Res K :=
  if ¬ (0 < q ∧ q < 1) then (.error .value, r)
  else
    let r' := sortData r
    let idx : K := q * ((r'.data.length : K) - 1)
    let f := ⌊idx⌋
    let c := ⌈idx⌉
    (if f = c then item r'.data f
     else do
      let a ← item r'.data f
      let b ← item r'.data c
      return a * ((c : K) - idx) + b * (idx - (f : K)), r')

/-- `__iter__` (quantile.py:155-157). -/
def resIter (r : Res K) : List K × Res K := ((sortData r).data, sortData r)

/-- What one can do with a reservoir: add a value, read a quantile, iterate over it. -/
inductive Op (K : Type) where
  | add (val : K) (rnd : Nat)
  | quantile (q : K)
  | iter

/-- One use; a failed `add` leaves the accumulator as it is. -/
def step (store : K → K) (r : Res K) : Op K → Res K
  | .add v rnd => match resAdd store r v rnd with | .ok r' => r' | .error _ => r
  | .quantile q => (resQuantile r q).2
  | .iter => (resIter r).2

/-- Any sequence of uses of a new accumulator. -/
def run (store : K → K) (cap : Option Int) (ops : List (Op K)) : Res K := ops.foldl (step store) (resInit cap)

/-- The values added, in order. -/
def added : List (Op K) → List K
  | [] => []
  | .add v _ :: ops => v :: added ops
  | _ :: ops => added ops

/-- Reads a list of quantiles one after the other, keeping the first exception (quantile.py:37, 91-92). -/
def readAll (quant : Res K → K → Except Exc K × Res K) (r : Res K) : List K → Except Exc (List K) × Res K
  | [] => (.ok [], r)
  | q :: qs =>
    let p := quant r q
    match p.1 with
    | .error e => (.error e, p.2)
    | .ok v =>
      let p' := readAll quant p.2 qs
      match p'.1 with
      | .error e => (.error e, p'.2)
      | .ok vs => (.ok (v :: vs), p'.2)

/-- `get_quantiles` (quantile.py:34-39) with the points `qs`. -/
def getQuantiles (r : Res K) (qs : List K) : Except Exc (List (K × Ext K)) :=
  match (readAll resQuantile r qs).1 with
  | .error e => .error e
  | .ok vs => .ok ((0, r.base.min) :: qs.zip (vs.map fin) ++ [(1, r.base.max)])

/-- `median` (quantile.py:85-87). -/
def median (r : Res K) : Except Exc K := (resQuantile r (1 / 2)).1

/-- `quartiles` (quantile.py:89-92). -/
def quartiles (r : Res K) : Except Exc (K × K × K) :=
  match (readAll resQuantile r [1 / 4, 1 / 2, 3 / 4]).1 with
  | .ok [a, b, c] => .ok (a, b, c)
  | .ok _ => .error .index
  | .error e => .error e

/-- `iqr` (quantile.py:94-97). -/
def iqr (r : Res K) : Except Exc K :=
  match (readAll resQuantile r [3 / 4, 1 / 4]).1 with
  | .ok [a, b] => .ok (a - b)
  | .ok _ => .error .index
  | .error e => .error e

/-- `trimean` (quantile.py:99-102). -/
def trimean (r : Res K) : Except Exc K :=
  match quartiles r with
  | .ok (a, b, c) => .ok ((a + 2 * b + c) / 4)
  | .error e => .error e

end Verif.Quant
