import Verif.Props.Reads
/-!
# C135 for reservoirs with a cap
-/
open scoped List

namespace Verif.Quant

variable {K : Type} [Field K] [LinearOrder K] [IsStrictOrderedRing K] [FloorRing K]

/-- Two reservoirs of the same size. -/
structure Alike (r r' : Res K) : Prop where
  base : r.base = r'.base
  cap : r.cap = r'.cap
  data : r.data.length = r'.data.length

theorem sortData_fields (r : Res K) :
    (sortData r).base = r.base ∧ (sortData r).cap = r.cap ∧ (sortData r).data ~ r.data := by
  unfold sortData
  split
  · exact ⟨rfl, rfl, List.Perm.refl _⟩
  · exact ⟨rfl, rfl, sorted_perm _⟩

theorem resQuantile_after (r : Res K) (q : K) : (resQuantile r q).2 = r ∨ (resQuantile r q).2 = sortData r := by
  unfold resQuantile
  split
  · exact .inl rfl
  · exact .inr rfl

theorem Alike.sort {r r' : Res K} (h : Alike r r') : Alike (sortData r) r' := by
  obtain ⟨h1, h2, h3⟩ := sortData_fields r
  exact ⟨h1.trans h.base, h2.trans h.cap, h3.length_eq.trans h.data⟩

theorem Alike.add {r r' : Res K} (h : Alike r r') (store : K → K) (v : K) (n : Nat) :
    Alike (step store r (.add v n)) (step store r' (.add v n)) := by
  have hb := h.base
  have hc := h.cap
  have hd := h.data
  simp only [step, resAdd, hb, hc, hd]
  by_cases h1 : below r'.base.count r'.cap = true
  · simp only [h1, if_true]
    exact ⟨rfl, rfl, by simp [hd]⟩
  · simp only [h1, Bool.false_eq_true, if_false]
    by_cases h2 : below n r'.cap = true
    · simp only [h2, if_true]
      by_cases h3 : n < r'.data.length
      · simp only [h3, if_true]
        exact ⟨rfl, rfl, by simp [hd]⟩
      · simp only [h3, if_false]
        exact h
    · simp only [h2, Bool.false_eq_true, if_false]
      exact h

/-- **C135**, as far as it holds for any cap: whatever was read in between, the count, the minimum, the maximum and the number
of values kept are the same after the same values and the same random draws. -/
theorem C135_capped_partial (store : K → K) (cap : Option Int) (ops : List (Op K)) :
    (run store cap ops).base = (run store cap (ops.filter Op.adds)).base ∧
      (run store cap ops).data.length = (run store cap (ops.filter Op.adds)).data.length := by
  have : ∀ r r' : Res K, Alike r r' → Alike (ops.foldl (step store) r) ((ops.filter Op.adds).foldl (step store) r') := by
    induction ops with
    | nil => exact fun _ _ h => h
    | cons o ops ih =>
      intro r r' h
      cases o with
      | add v n =>
        simp only [Op.adds, List.filter_cons, if_true, List.foldl_cons]
        exact ih _ _ (h.add store v n)
      | quantile q =>
        simp only [Op.adds, List.filter_cons, List.foldl_cons, step, Bool.false_eq_true, if_false]
        rcases resQuantile_after r q with e | e
        · rw [e]; exact ih _ _ h
        · rw [e]; exact ih _ _ h.sort
      | iter =>
        simp only [Op.adds, List.filter_cons, List.foldl_cons, step, Bool.false_eq_true, if_false]
        exact ih _ _ h.sort
  have h := this (resInit cap) (resInit cap) ⟨rfl, rfl, rfl⟩
  exact ⟨h.base, h.data⟩

/-- As long as there is room, a reservoir with a cap is one without. -/
theorem run_uncapped (store : K → K) (c : Int) (ops : List (Op K)) (h : ((ops.filter Op.adds).length : Int) ≤ c) :
    run store (some c) ops = { run store none ops with cap := some c } := by
  have : ∀ r : Res K, r.cap = none → ((r.base.count : Int) + (ops.filter Op.adds).length ≤ c) →
      ops.foldl (step store) { r with cap := some c } = { ops.foldl (step store) r with cap := some c } := by
    clear h
    induction ops with
    | nil => intro r _ _; rfl
    | cons o ops ih =>
      intro r hr hc
      cases o with
      | add v n =>
        simp only [Op.adds, List.filter_cons, if_true, List.length_cons] at hc
        have h1 : step store { r with cap := some c } (.add v n) = { step store r (.add v n) with cap := some c } := by
          simp only [step, resAdd, hr, below]
          rw [if_pos (by simp; omega), if_pos trivial]
        rw [List.foldl_cons, List.foldl_cons, h1]
        have h2 : (step store r (.add v n)).base.count = r.base.count + 1 ∧ (step store r (.add v n)).cap = none := by
          simp only [step, resAdd, hr, below]
          rw [if_pos trivial]
          exact ⟨rfl, rfl⟩
        refine ih _ h2.2 ?_
        rw [h2.1]
        push_cast
        push_cast at hc
        omega
      | quantile q =>
        simp only [Op.adds, List.filter_cons, Bool.false_eq_true, if_false] at hc
        have h1 : step store { r with cap := some c } (.quantile q) = { step store r (.quantile q) with cap := some c } := by
          simp only [step, resQuantile, sortData]
          split
          · rfl
          · dsimp only; split <;> rfl
        rw [List.foldl_cons, List.foldl_cons, h1]
        have h2 : (step store r (.quantile q)).base = r.base ∧ (step store r (.quantile q)).cap = r.cap := by
          simp only [step]
          rcases resQuantile_after r q with e | e
          · rw [e]; exact ⟨rfl, rfl⟩
          · rw [e]; exact ⟨(sortData_fields r).1, (sortData_fields r).2.1⟩
        exact ih _ (h2.2.trans hr) (by rw [h2.1]; exact hc)
      | iter =>
        simp only [Op.adds, List.filter_cons, Bool.false_eq_true, if_false] at hc
        have h1 : step store { r with cap := some c } .iter = { step store r .iter with cap := some c } := by
          simp only [step, resIter, sortData]
          split <;> rfl
        rw [List.foldl_cons, List.foldl_cons, h1]
        exact ih _ ((sortData_fields r).2.1.trans hr) (by
          show ((sortData r).base.count : Int) + _ ≤ c
          rw [(sortData_fields r).1]; exact hc)
  refine this (resInit none) rfl ?_
  show ((0 : Nat) : Int) + _ ≤ c
  omega

/-- **C135**, as far as it holds for a cap: as long as no more values were added than there is room for, every quantile and the
values shown are the same, whatever was read in between. -/
theorem C135_filling_partial (store : K → K) (c : Int) (ops : List (Op K)) (h : ((ops.filter Op.adds).length : Int) ≤ c) :
    (∀ q, (resQuantile (run store (some c) ops) q).1 = (resQuantile (run store (some c) (ops.filter Op.adds)) q).1) ∧
      (resIter (run store (some c) ops)).1 = (resIter (run store (some c) (ops.filter Op.adds))).1 := by
  have hf : (ops.filter Op.adds).filter Op.adds = ops.filter Op.adds := by simp
  rw [run_uncapped store c ops h, run_uncapped store c (ops.filter Op.adds) (by rw [hf]; exact h)]
  obtain ⟨h1, h2, _⟩ := C135_reservoir_partial store ops
  have q1 : ∀ (r : Res K) (q : K), (resQuantile { r with cap := some c } q).1 = (resQuantile r q).1 := by
    intro r q
    simp only [resQuantile, sortData]
    split
    · rfl
    · dsimp only
      split <;> rfl
  have q2 : ∀ r : Res K, (resIter { r with cap := some c }).1 = (resIter r).1 := by
    intro r
    simp only [resIter, sortData]
    split <;> rfl
  exact ⟨fun q => by rw [q1, q1]; exact h1 q, by rw [q2, q2]; exact h2⟩

/-- Four values and two reads, room for three: the statistics are the same, whatever the draw. -/
example (n : Nat) := C135_capped_partial (K := ℚ) id (some 3) [.add 3 0, .add 1 0, .quantile (1 / 2), .add 2 0, .iter, .add 4 n]
/-- Three values and two reads, room for three: everything is. -/
example := C135_filling_partial (K := ℚ) id 3 [.add 3 0, .add 1 0, .quantile (1 / 2), .add 2 0, .iter] (by decide)

end Verif.Quant
