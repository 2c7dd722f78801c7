import Verif.Props.Quantile
import Verif.Props.P2
import Verif.Props.Ewma
/-!
# C135: reading statistics does not change them
-/
open scoped List

namespace Verif.Quant

variable {K : Type} [Field K] [LinearOrder K] [IsStrictOrderedRing K] [FloorRing K]

/-- Two reservoirs without a cap that hold the same, perhaps in another order. -/
structure Same (r r' : Res K) : Prop where
  base : r.base = r'.base
  cap : r.cap = none
  cap' : r'.cap = none
  sorted : r.isSorted = true → r.data.Pairwise (· ≤ ·)
  sorted' : r'.isSorted = true → r'.data.Pairwise (· ≤ ·)
  data : r.data ~ r'.data

theorem same_init : Same (resInit none : Res K) (resInit none) :=
  ⟨rfl, rfl, rfl, fun _ => List.Pairwise.nil, fun _ => List.Pairwise.nil, List.Perm.refl _⟩

theorem sortData_eq {r : Res K} (h : r.isSorted = true → r.data.Pairwise (· ≤ ·)) : (sortData r).data = sorted r.data := by
  unfold sortData
  split
  · rename_i hs; exact eq_sorted (h hs) (List.Perm.refl _)
  · rfl

theorem Same.symm {r r' : Res K} (h : Same r r') : Same r' r :=
  ⟨h.base.symm, h.cap', h.cap, h.sorted', h.sorted, h.data.symm⟩

theorem Same.sort {r r' : Res K} (h : Same r r') : Same (sortData r) r' := by
  have e := sortData_eq h.sorted
  refine ⟨?_, ?_, h.cap', ?_, h.sorted', ?_⟩
  · rw [← h.base]; unfold sortData; split <;> rfl
  · rw [← h.cap]; unfold sortData; split <;> rfl
  · intro _; rw [e]; exact sorted_pairwise _
  · rw [e]; exact (sorted_perm _).trans h.data

theorem Same.sorted_eq {r r' : Res K} (h : Same r r') : (sortData r).data = (sortData r').data := by
  rw [sortData_eq h.sorted, sortData_eq h.sorted']
  exact eq_sorted (sorted_pairwise _) ((sorted_perm _).trans h.data)

/-- Same contents, same quantiles. -/
theorem Same.quantile {r r' : Res K} (h : Same r r') (q : K) :
    (resQuantile r q).1 = (resQuantile r' q).1 ∧ Same (resQuantile r q).2 r' := by
  unfold resQuantile
  by_cases hq : ¬ (0 < q ∧ q < 1)
  · rw [if_pos hq, if_pos hq]; exact ⟨rfl, h⟩
  · rw [if_neg hq, if_neg hq]
    dsimp only
    rw [h.sorted_eq]
    exact ⟨rfl, h.sort⟩

theorem Same.add {r r' : Res K} (h : Same r r') (store : K → K) (v : K) (n n' : Nat) :
    ∃ t t', resAdd store r v n = .ok t ∧ resAdd store r' v n' = .ok t' ∧ Same t t' ∧
      t.data.length = r.data.length + 1 ∧ t.base.count = r.base.count + 1 := by
  unfold resAdd
  rw [if_pos (by rw [h.cap]; rfl), if_pos (by rw [h.cap']; rfl)]
  exact ⟨_, _, rfl, rfl, ⟨by rw [h.base], h.cap, h.cap', fun e => (by cases e), fun e => (by cases e), h.data.append_right _⟩,
    by simp, rfl⟩

/-- A use that adds. -/
def Op.adds : Op K → Bool
  | .add _ _ => true
  | _ => false

/-- **C135**, as far as it holds: a reservoir without a cap reports the same after the same values, whatever was read in
between. -/
theorem C135_reservoir_partial (store : K → K) (ops : List (Op K)) :
    (∀ q, (resQuantile (run store none ops) q).1 = (resQuantile (run store none (ops.filter Op.adds)) q).1) ∧
      (resIter (run store none ops)).1 = (resIter (run store none (ops.filter Op.adds))).1 ∧
      (run store none ops).base = (run store none (ops.filter Op.adds)).base := by
  have key : Same (run store none ops) (run store none (ops.filter Op.adds)) := by
    unfold run
    have : ∀ r r' : Res K, Same r r' → Same (ops.foldl (step store) r) ((ops.filter Op.adds).foldl (step store) r') := by
      induction ops with
      | nil => exact fun _ _ h => h
      | cons o ops ih =>
        intro r r' h
        cases o with
        | add v n =>
          obtain ⟨t, t', h1, h2, h3, -⟩ := h.add store v n n
          simp only [Op.adds, List.filter_cons, if_true, List.foldl_cons, step, h1, h2]
          exact ih _ _ h3
        | quantile q =>
          simp only [Op.adds, List.filter_cons, List.foldl_cons, step, Bool.false_eq_true, if_false]
          exact ih _ _ (h.quantile q).2
        | iter =>
          simp only [Op.adds, List.filter_cons, List.foldl_cons, step, Bool.false_eq_true, if_false]
          exact ih _ _ h.sort
    exact this _ _ same_init
  exact ⟨fun q => (key.quantile q).1, key.sorted_eq, key.base⟩

/-- Values added and quantiles read in between. -/
example : (resQuantile (run id none [.add (3 : ℚ) 0, .quantile (1 / 2), .add 1 0, .iter, .add 2 0]) (1 / 2)).1 =
    (resQuantile (run id none [.add (3 : ℚ) 0, .add 1 0, .add 2 0]) (1 / 2)).1 :=
  (C135_reservoir_partial id [.add (3 : ℚ) 0, .quantile (1 / 2), .add 1 0, .iter, .add 2 0]).1 (1 / 2)

/-- **C135** is false of a reservoir with a cap: reading sorts the values, and the next value that is kept replaces another one.
(The values 3, 1 and 5, the last one in place of the first.) -/
theorem C135_violated_reservoir :
    (run (id : ℚ → ℚ) (some 2) [.add 3 0, .add 1 0, .add 5 0]).data = [5, 1] ∧
      (run (id : ℚ → ℚ) (some 2) [.add 3 0, .add 1 0, .quantile (1 / 2), .add 5 0]).data = [5, 3] ∧
      median (run (id : ℚ → ℚ) (some 2) [.add 3 0, .add 1 0, .add 5 0]) = .ok 3 ∧
      median (run (id : ℚ → ℚ) (some 2) [.add 3 0, .add 1 0, .quantile (1 / 2), .add 5 0]) = .ok 4 := by
  have s1 : ([3, 1] : List ℚ).mergeSort (fun x y => decide (x ≤ y)) = [1, 3] :=
    (eq_sorted (l := [1, 3]) (by simp) (by decide)).symm
  have s2 : ([5, 1] : List ℚ).mergeSort (fun x y => decide (x ≤ y)) = [1, 5] :=
    (eq_sorted (l := [1, 5]) (by simp) (by decide)).symm
  have s3 : ([5, 3] : List ℚ).mergeSort (fun x y => decide (x ≤ y)) = [3, 5] :=
    (eq_sorted (l := [3, 5]) (by simp; norm_num) (by decide)).symm
  have h1 : ∃ b, run (id : ℚ → ℚ) (some 2) [.add 3 0, .add 1 0, .add 5 0] = ⟨b, [5, 1], false, some 2⟩ := ⟨_, rfl⟩
  have h2 : ∃ b, run (id : ℚ → ℚ) (some 2) [.add 3 0, .add 1 0, .quantile (1 / 2), .add 5 0] = ⟨b, [5, 3], false, some 2⟩ := by
    have hq : ∀ b : Base ℚ, (resQuantile (⟨b, [3, 1], false, some 2⟩ : Res ℚ) (1 / 2)).2 = ⟨b, [1, 3], true, some 2⟩ := by
      intro b
      unfold resQuantile
      rw [if_neg (by norm_num)]
      simp [sortData, s1]
    refine ⟨baseAdd (baseAdd (baseAdd baseInit 3) 1) 5, ?_⟩
    show step id ((resQuantile (⟨_, [3, 1], false, some 2⟩ : Res ℚ) (1 / 2)).2) (.add 5 0) = _
    rw [hq]
    rfl
  obtain ⟨b1, h1⟩ := h1
  obtain ⟨b2, h2⟩ := h2
  rw [h1, h2]
  refine ⟨rfl, rfl, ?_, ?_⟩
  · unfold median resQuantile
    rw [if_neg (by norm_num)]
    simp only [sortData, s2, Bool.false_eq_true, if_false]
    decide +kernel
  · unfold median resQuantile
    rw [if_neg (by norm_num)]
    simp only [sortData, s3, Bool.false_eq_true, if_false]
    decide +kernel

end Verif.Quant

namespace Verif.P2

open Verif.Quant

variable {K : Type} [Field K] [LinearOrder K] [IsStrictOrderedRing K] [FloorRing K]

/-- A use that adds. -/
def AccOp.adds : AccOp K → Bool
  | .add _ => true
  | _ => false

/-- What a `P2Accumulator` reports: count, minimum, maximum and every quantile. -/
def reports (a : Acc K) : Base K × (K → Except Exc K) := (a.base, fun q => (accQuantile a q).1)

/-- Two accumulators that hold the same. -/
structure SameAcc (a b : Acc K) : Prop where
  base : a.base = b.base
  points : a.points = b.points
  est : a.est = b.est
  tmp : Same a.tmp b.tmp
  len : a.tmp.data.length = a.tmp.base.count
  few : a.est = none → a.tmp.base.count < a.points.length + 2

theorem make_perm (points : List K) {d d' : List K} (h : d ~ d') (hl : d.length = points.length + 2) : make points d = make points d' := by
  have hl' : d'.length = points.length + 2 := by rw [← h.length_eq]; exact hl
  have hi : ∀ e : List K, e.length = points.length + 2 → make points e = some (initial (0 :: points ++ [1]) e) := by
    intro e he
    unfold make
    have : (0 :: points ++ [1] : List K).length = points.length + 2 := by simp
    simp only [this, he, lt_irrefl, if_false]
    rw [List.drop_of_length_le (by omega)]
    rfl
  rw [hi d hl, hi d' hl']
  have hs : sorted d = sorted d' := eq_sorted (sorted_pairwise _) ((sorted_perm _).trans h)
  unfold initial
  have e1 : (0 :: points ++ [1] : List K).length = points.length + 2 := by simp
  simp only [e1]
  rw [List.take_of_length_le (by omega), List.take_of_length_le (by omega)]
  exact congrArg (fun s => some (List.map _ (List.zipIdx (List.zip _ s)))) hs

theorem SameAcc.add {a b : Acc K} (h : SameAcc a b) (store : K → K) (v : K) :
    (accAdd store a v = none ∧ accAdd store b v = none) ∨
      ∃ a' b', accAdd store a v = some a' ∧ accAdd store b v = some b' ∧ SameAcc a' b' := by
  unfold accAdd
  rw [← h.est]
  cases he : a.est with
  | none =>
    obtain ⟨t, t', h1, h2, h3, h4, h5⟩ := h.tmp.add store v 0 0
    have hf := h.few he
    simp only [h1, h2, ← h.points, ← h3.base]
    by_cases hc : t.base.count ≥ a.points.length + 2
    · simp only [if_pos hc]
      rw [make_perm a.points h3.data (by rw [h4, h.len]; omega)]
      cases make a.points t'.data with
      | none => exact .inl ⟨rfl, rfl⟩
      | some e =>
        refine .inr ⟨_, _, rfl, rfl, ⟨h.base, rfl, rfl, h3, by simp only [h4, h5, h.len], fun e => by cases e⟩⟩
    · simp only [if_neg hc]
      exact .inr ⟨_, _, rfl, rfl, ⟨h.base, rfl, rfl, h3, by simp only [h4, h5, h.len], fun _ => by simp only; omega⟩⟩
  | some e =>
    dsimp only
    cases P2.add e v with
    | none => exact .inl ⟨rfl, rfl⟩
    | some e' =>
      exact .inr ⟨_, _, rfl, rfl, ⟨by simp only [h.base], h.points, rfl, h.tmp, h.len, fun e => by cases e⟩⟩

theorem SameAcc.read {a b : Acc K} (h : SameAcc a b) (q : K) :
    (accQuantile a q).1 = (accQuantile b q).1 ∧ SameAcc (accQuantile a q).2 b := by
  unfold accQuantile
  rw [← h.est]
  cases he : a.est with
  | none =>
    obtain ⟨h1, h2⟩ := h.tmp.quantile q
    have hb : (resQuantile a.tmp q).2.base = a.tmp.base := by rw [h2.base, h.tmp.base]
    have hl : (resQuantile a.tmp q).2.data.length = a.tmp.data.length := by rw [h2.data.length_eq, h.tmp.data.length_eq]
    exact ⟨h1, h.base, h.points, he.symm.trans h.est, h2, by rw [hb, hl]; exact h.len, fun _ => by rw [hb]; exact h.few he⟩
  | some e =>
    dsimp only
    cases getQuantile e q <;> exact ⟨rfl, h⟩

/-- **C135** for `P2Accumulator`s, as far as it holds: they report the same after the same values, whatever was read in between. -/
theorem C135_p2_partial (store : K → K) (points : List K) (ops : List (AccOp K)) :
    (accRun store (accInit points) ops).map reports = (accRun store (accInit points) (ops.filter AccOp.adds)).map reports := by
  have key : ∀ (ops : List (AccOp K)) (a b : Acc K), SameAcc a b →
      (accRun store a ops).map reports = (accRun store b (ops.filter AccOp.adds)).map reports := by
    intro ops
    induction ops with
    | nil =>
      intro a b h
      simp only [accRun, List.filter_nil, Option.map_some, reports, h.base, Option.some.injEq, Prod.mk.injEq, true_and]
      funext q
      exact (h.read q).1
    | cons o ops ih =>
      intro a b h
      cases o with
      | add v =>
        simp only [AccOp.adds, List.filter_cons, if_true, accRun]
        rcases h.add store v with ⟨h1, h2⟩ | ⟨a', b', h1, h2, h3⟩
        · rw [h1, h2]
        · rw [h1, h2]; exact ih a' b' h3
      | read q =>
        simp only [AccOp.adds, List.filter_cons, Bool.false_eq_true, if_false, accRun]
        exact ih _ _ (h.read q).2
  exact key ops _ _ ⟨rfl, rfl, rfl, same_init, rfl, fun _ => by simp [accInit, resInit, baseInit]⟩

/-- Reads before and after there is an estimator. -/
example : (accRun id (accInit [(1 / 2 : ℚ)]) [.add 3, .read (1 / 2), .add 1, .add 2, .read (1 / 4), .add 5]).map reports =
    (accRun id (accInit [(1 / 2 : ℚ)]) [.add 3, .add 1, .add 2, .add 5]).map reports :=
  C135_p2_partial id [1 / 2] [.add 3, .read (1 / 2), .add 1, .add 2, .read (1 / 4), .add 5]

end Verif.P2

namespace Verif.Ewma

/-- **C135** is false of moving averages: the first read closes a window. Ten things, read after five seconds: the rate is 2; read after
one second too (or shown in a debugger), it is 10. -/
theorem C135_violated_ewma :
    (getRates (run sample [.add 10]) 5 5).1 = some [(60, some 2)] ∧
      (getRates (run sample [.add 10, .read 1 1]) 5 5).1 = some [(60, some 10)] := by
  have h1 : ¬ ((5 : ℝ) ≤ 1) := by norm_num
  have h2 : ¬ ((5 : ℝ) ≤ 5 - 1) := by norm_num
  constructor
  · simp [getRates, run, step, sample, update, add, newRate]; norm_num
  · simp [getRates, run, step, sample, update, add, newRate, h1, h2]

/-- **C135** for moving averages, as far as it holds: reads within the interval of the last update, after a first read, change
nothing. -/
theorem C135_ewma_partial (e : Ewma) (t1 t2 : ℝ) (hf : e.force = false) (h : t1 - e.last < e.interval) (ops : List Op) :
    run e (.read t1 t2 :: ops) = run e ops := by
  have : step e (.read t1 t2) = e := by
    simp only [step]
    unfold getRates
    rw [if_neg (not_le.2 h), hf]
    simp
  simp only [run, List.foldl_cons, this]

example (t2 : ℝ) : run (run sample [.add 10, .read 1 1]) [.read 4 t2, .read 6 6] = run (run sample [.add 10, .read 1 1]) [.read 6 6] := by
  have h1 : ¬ ((5 : ℝ) ≤ 1) := by norm_num
  apply C135_ewma_partial
  · simp [run, step, getRates, sample, update, add, h1]
  · simp [run, step, getRates, sample, update, add, h1]; norm_num

end Verif.Ewma
