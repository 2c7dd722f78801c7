import Verif.Model.Quantile
/-!
# `lithoxyl/p_squared.py`, and `P2Accumulator` of `lithoxyl/quantile.py`

Numbers as in `Verif.Model.Quantile`.  The shared, mutable `[position, height]` pairs of the estimator are one list of
markers; a division by zero is `none`.
-/
namespace Verif.P2

open Verif.Quant

variable {K : Type} [Field K] [LinearOrder K] [IsStrictOrderedRing K] [FloorRing K]

/-! ## Quantile points -/

/-- `_process_q_points` from the sorted points on (p_squared.py:43-48): drops 0.0 in front and 1.0 at the end; `none` is
ValueError (also for the IndexError of `qps[0]` or `qps[-1]` of an empty list). -/
def strip (qps : List K) : Option (List K) :=
  match qps.head? with
  | none => none
  | some q =>
    let qps := if q = 0 then qps.tail else qps
    match qps.getLast? with
    | none => none
    | some l =>
      let qps := if l = 1 then qps.dropLast else qps
      if qps = [] ∨ ¬ (∀ x ∈ qps, 0 < x ∧ x < 1) then none else some qps

/-- `_process_q_points` (p_squared.py:39-52); `none` among the points is something `float()` does not take (or NaN), the
result `none` is ValueError.  Points are numbers that `float()` does not change, so that the set has no two equal ones
left. -/
def processPoints (points : List (Option K)) : Option (List K) :=
  match points.mapM id with
  | none => none
  | some ps => strip (ps.dedup.mergeSort (fun x y => decide (x ≤ y)))

/-! ## The estimator -/

/-- One of `self._points`: the quantile, the position and the height (p_squared.py:27-28). -/
structure Marker (K : Type) where
  q : K
  pos : Int
  height : K
  deriving DecidableEq

/-- `a / b`. -/
def pdiv (a b : K) : Option K := if b = 0 then none else some (a / b)

/-- `int(x)`. -/
def trunc (x : K) : Int := if 0 ≤ x then ⌊x⌋ else ⌈x⌉

/-- `initial` and `vals` (p_squared.py:26-28). -/
def initial (qps : List K) (data : List K) : List (Marker K) :=
  let vals := (data.take qps.length).mergeSort (fun x y => decide (x ≤ y))
  (qps.zip vals).zipIdx.map fun (p, i) => ⟨p.1, (i : Int) + 1, p.2⟩

/-- `self._max_point[0] = prev_count + 1` (p_squared.py:55-56). -/
def bumpLast : List (Marker K) → List (Marker K)
  | [] => []
  | [m] => [{ m with pos := m.pos + 1 }]
  | m :: ms => m :: bumpLast ms

/-- `self._max_point[1] = val`. -/
def raiseLast (val : K) : List (Marker K) → List (Marker K)
  | [] => []
  | [m] => [{ m with height := val }]
  | m :: ms => m :: raiseLast val ms

/-- The new minimum or maximum (p_squared.py:58-62). -/
def extremes (val : K) (ms : List (Marker K)) : List (Marker K) :=
  match ms with
  | [] => []
  | m :: rest =>
    if val < m.height then { m with height := val } :: rest
    else match (m :: rest).getLast? with
      | some l => if val > l.height then raiseLast val (m :: rest) else m :: rest
      | none => m :: rest

/-- The loop over `_back_tuples`, from the last pair to the first (p_squared.py:30, 64-68), over the markers from the second
one on. -/
def backPass (val : K) : List (Marker K) → List (Marker K)
  | [] => []
  | [m] => [m]
  | m :: n :: ms =>
    match backPass val (n :: ms) with
    | [] => []
    | nxt :: rest =>
      (if val ≤ m.height then
        if m.pos + 1 = nxt.pos then { m with pos := m.pos + 1 - 1 } else { m with pos := m.pos + 1 }
       else m) :: nxt :: rest

/-- The new height and position of a marker that moves by `d` (p_squared.py:79-87). -/
def move (d : Int) (l c r : Marker K) : Option (Marker K) := do
  let a ← pdiv (d : K) ((r.pos : K) - l.pos)
  let b ← pdiv (((c.pos : K) - l.pos + d) * (r.height - c.height)) ((r.pos : K) - c.pos)
  let e ← pdiv (((r.pos : K) - c.pos - d) * (c.height - l.height)) ((c.pos : K) - l.pos)
  let nq := c.height + a * (b + e)
  if l.height < nq ∧ nq < r.height then some { c with pos := c.pos + d, height := nq }
  else if d = 1 then do
    let x ← pdiv (r.height - c.height) ((r.pos : K) - c.pos)
    some { c with pos := c.pos + d, height := c.height + x }
  else do
    let x ← pdiv (l.height - c.height) ((l.pos : K) - c.pos)
    some { c with pos := c.pos + d, height := c.height - x }

/-- The body of the loop over `_quads` (p_squared.py:71-87): the new middle marker. -/
def adjust (prev : Int) (l c r : Marker K) : Option (Marker K) :=
  let d := trunc ((prev : K) * c.q + 1 - (c.pos : K))
  if d = 0 then some c
  else
    let d : Int := if d > 0 then 1 else -1
    if ¬ (l.pos < c.pos + d ∧ c.pos + d < r.pos) then some c
    else move d l c r

/-- The loop over `_quads` (p_squared.py:32, 71-87): `l` is the left neighbour, already adjusted. -/
def quadPass (prev : Int) (l : Marker K) : List (Marker K) → Option (List (Marker K))
  | [] => some []
  | [m] => some [m]
  | c :: r :: ms => do
    let c' ← adjust prev l c r
    let rest ← quadPass prev c' (r :: ms)
    some (c' :: rest)

/-- `P2Estimator.add` (p_squared.py:54-87). -/
def add (ms : List (Marker K)) (val : K) : Option (List (Marker K)) :=
  match ms.getLast? with
  | none => some []
  | some l =>
    let prev := l.pos
    match extremes val (bumpLast ms) with
    | [] => some []
    | m :: rest => do
      let rest' ← quadPass prev m (backPass val rest)
      some (m :: rest')

/-- A sequence of `add`s. -/
def addAll (ms : List (Marker K)) : List K → Option (List (Marker K))
  | [] => some ms
  | v :: vs => do
    let ms' ← add ms v
    addAll ms' vs

/-- `P2Estimator(q_points, data)` for points already processed (p_squared.py:17-37), with enough data (fewer raise
ValueError). -/
def make (points data : List K) : Option (List (Marker K)) :=
  let qps := 0 :: points ++ [1]
  if data.length < qps.length then none
  else addAll (initial qps data) (data.drop qps.length)

/-- `get_quantiles` (p_squared.py:89-90). -/
def getQuantiles (ms : List (Marker K)) : List (K × K) := ms.map fun m => (m.q, m.height)

/-- `_get_quantile` (p_squared.py:92-96); `none` is ValueError. -/
def getQuantile (ms : List (Marker K)) (q : K) : Option K := (ms.find? fun m => decide (m.q = q)).map (·.height)

/-! ## `P2Accumulator` -/

/-- A `P2Accumulator` (quantile.py:160-171); `_tmp_acc` is kept, unused, once there is an estimator. -/
structure Acc (K : Type) where
  base : Base K
  points : List K
  tmp : Res K
  est : Option (List (Marker K))

/-- `P2Accumulator(q_points=points)` for points already processed, without data (quantile.py:161-168); data given to the
constructor is added with `add`. -/
def accInit (points : List K) : Acc K := ⟨baseInit, points, resInit none, none⟩

/-- `P2Accumulator.add` (quantile.py:173-183); `none` is an exception. -/
def accAdd (store : K → K) (a : Acc K) (val : K) : Option (Acc K) :=
  match a.est with
  | none =>
    match resAdd store a.tmp val 0 with
    | .error _ => none
    | .ok t =>
      if t.base.count ≥ a.points.length + 2 then
        (make a.points t.data).map fun e => { a with tmp := t, est := some e }
      else some { a with tmp := t }
  | some e => (add e val).map fun e' => { a with est := some e', base := baseAdd a.base val }

/-- `P2Accumulator._get_quantile` (quantile.py:189-193): the estimator's, or the temporary accumulator's if there is none
yet. -/
def accQuantile (a : Acc K) (q : K) : Except Exc K × Acc K :=
  match a.est with
  | some e =>
    match getQuantile e q with
    | some v => (.ok v, a)
    | none => (.error .value, a)
  | none => ((resQuantile a.tmp q).1, { a with tmp := (resQuantile a.tmp q).2 })

/-- Adding a value, reading a quantile. -/
inductive AccOp (K : Type) where
  | add (val : K)
  | read (q : K)

/-- Any sequence of uses; `none`: an `add` raised. -/
def accRun (store : K → K) (a : Acc K) : List (AccOp K) → Option (Acc K)
  | [] => some a
  | .add v :: ops => match accAdd store a v with | none => none | some a' => accRun store a' ops
  | .read q :: ops => accRun store (accQuantile a q).2 ops

/-- The values added. -/
def accAdded : List (AccOp K) → List K
  | [] => []
  | .add v :: ops => v :: accAdded ops
  | .read _ :: ops => accAdded ops

end Verif.P2
