import Verif.Model.FloatQuantile
import Verif.Props.Float
import Verif.Props.Quantile
import Mathlib.Data.Rat.Floor
/-!
# C132: quantiles of stored values in floating point
-/
set_option linter.unusedSectionVars false
namespace Verif.FltQuant

open Verif.Flt Verif.Quant
open scoped List

variable {K : Type} [Field K] [LinearOrder K] [IsStrictOrderedRing K] [FloorRing K]

/-- With exact arithmetic the model is `Verif.Model.Quantile`. -/
theorem resQuantile_exact (r : Res K) (q : K) : resQuantile exact r q = Quant.resQuantile r q := rfl

theorem mix_near {F : Rounding K} {u η : K} (hn : F.Near u η) (hu0 : 0 ≤ u) (hu : u ≤ 1 / 2) (he : 0 ≤ η) {a b t M : K}
    (ha : |a| ≤ M) (hb : |b| ≤ M) (h0 : 0 ≤ t) (h1 : t ≤ 1) :
    |F.rnd (F.rnd (a * F.rnd (1 - t)) + F.rnd (b * F.rnd t)) - (a + t * (b - a))| ≤ 7 * u * M + 4 * η * (M + 1) := by
  have hM : 0 ≤ M := (abs_nonneg a).trans ha
  set w1 := F.rnd (1 - t) with hw1
  set w2 := F.rnd t with hw2
  have w10 : 0 ≤ w1 := F.nonneg (by linarith)
  have w20 : 0 ≤ w2 := F.nonneg h0
  have w11 : w1 ≤ 1 := by rw [← F.one]; exact F.mono (by linarith)
  have w21 : w2 ≤ 1 := by rw [← F.one]; exact F.mono h1
  have d1 : |w1 - (1 - t)| ≤ u + η := by
    have := hn (1 - t)
    rw [abs_of_nonneg (by linarith : (0 : K) ≤ 1 - t)] at this
    nlinarith
  have d2 : |w2 - t| ≤ u + η := by
    have := hn t
    rw [abs_of_nonneg h0] at this
    nlinarith
  have p1 : |a * w1| ≤ M := by
    rw [abs_mul, abs_of_nonneg w10]
    calc |a| * w1 ≤ M * 1 := mul_le_mul ha w11 w10 hM
      _ = M := mul_one M
  have p2 : |b * w2| ≤ M := by
    rw [abs_mul, abs_of_nonneg w20]
    calc |b| * w2 ≤ M * 1 := mul_le_mul hb w21 w20 hM
      _ = M := mul_one M
  have e1 : |F.rnd (a * w1) - a * w1| ≤ u * M + η := (hn _).trans (by nlinarith)
  have e2 : |F.rnd (b * w2) - b * w2| ≤ u * M + η := (hn _).trans (by nlinarith)
  set s1 := F.rnd (a * w1)
  set s2 := F.rnd (b * w2)
  have hs : |s1 + s2| ≤ 2 * M + 2 * (u * M + η) := by
    have t1 : |s1| ≤ M + (u * M + η) := by
      calc |s1| = |a * w1 + (s1 - a * w1)| := by rw [add_sub_cancel]
        _ ≤ |a * w1| + |s1 - a * w1| := abs_add_le _ _
        _ ≤ _ := add_le_add p1 e1
    have t2 : |s2| ≤ M + (u * M + η) := by
      calc |s2| = |b * w2 + (s2 - b * w2)| := by rw [add_sub_cancel]
        _ ≤ |b * w2| + |s2 - b * w2| := abs_add_le _ _
        _ ≤ _ := add_le_add p2 e2
    calc |s1 + s2| ≤ |s1| + |s2| := abs_add_le _ _
      _ ≤ _ := by linarith
  have e3 : |F.rnd (s1 + s2) - (s1 + s2)| ≤ u * (2 * M + 2 * (u * M + η)) + η :=
    (hn _).trans (by have := mul_le_mul_of_nonneg_left hs hu0; linarith)
  have q1 : |a * (w1 - (1 - t))| ≤ M * (u + η) := by
    rw [abs_mul]; exact mul_le_mul ha d1 (abs_nonneg _) hM
  have q2 : |b * (w2 - t)| ≤ M * (u + η) := by
    rw [abs_mul]; exact mul_le_mul hb d2 (abs_nonneg _) hM
  have split : F.rnd (s1 + s2) - (a + t * (b - a)) = (F.rnd (s1 + s2) - (s1 + s2)) + (s1 - a * w1) + (s2 - b * w2) +
      a * (w1 - (1 - t)) + b * (w2 - t) := by ring
  rw [split]
  have sum : |(F.rnd (s1 + s2) - (s1 + s2)) + (s1 - a * w1) + (s2 - b * w2) + a * (w1 - (1 - t)) + b * (w2 - t)| ≤
      (u * (2 * M + 2 * (u * M + η)) + η) + (u * M + η) + (u * M + η) + M * (u + η) + M * (u + η) := by
    refine (abs_add_le _ _).trans (add_le_add ((abs_add_le _ _).trans (add_le_add ((abs_add_le _ _).trans (add_le_add
      ((abs_add_le _ _).trans (add_le_add e3 e1)) e2)) q1)) q2)
  refine sum.trans ?_
  have k1 : u * (u * M) ≤ 1 / 2 * (u * M) := mul_le_mul_of_nonneg_right hu (mul_nonneg hu0 hM)
  have k2 : u * η ≤ 1 / 2 * η := mul_le_mul_of_nonneg_right hu he
  have k3 : 0 ≤ η * M := mul_nonneg he hM
  nlinarith

theorem quantile_near {F : Rounding K} {u η : K} (hn : F.Near u η) (hu0 : 0 ≤ u) (hu : u ≤ 1 / 2) (he : 0 ≤ η) (r : Res K) (q : K)
    (hs : r.isSorted = true → r.data.Pairwise (· ≤ ·)) (hne : r.data ≠ []) (h0 : 0 < q) (h1 : q < 1)
    (hl : F.Is ((r.data.length : K) - 1)) {M : K} (hM : ∀ x ∈ r.data, |x| ≤ M) :
    ∃ v w, (resQuantile F r q).1 = .ok v ∧ Interp (sorted r.data) (F.rnd (q * ((r.data.length : K) - 1))) w ∧
      |v - w| ≤ 7 * u * M + 4 * η * (M + 1) := by
  have hM0 : 0 ≤ M := by
    obtain ⟨x, hx⟩ := List.exists_mem_of_ne_nil _ hne
    exact (abs_nonneg x).trans (hM x hx)
  have hpos : 0 ≤ 7 * u * M + 4 * η * (M + 1) := by
    have := mul_nonneg hu0 hM0
    have := mul_nonneg he (by linarith : 0 ≤ M + 1)
    linarith
  have hd : (sortData r).data = sorted r.data := by
    unfold sortData
    split
    · rename_i h; exact eq_sorted (hs h) (List.Perm.refl _)
    · rfl
  have hlen : (sortData r).data.length = r.data.length := by rw [hd]; exact (sorted_perm _).length_eq
  have hmem : ∀ x ∈ sorted r.data, |x| ≤ M := fun x hx => hM x ((sorted_perm _).mem_iff.1 hx)
  unfold resQuantile
  dsimp only
  rw [if_neg (by simp [h0, h1])]
  dsimp only
  rw [hlen]
  rw [hd] at hlen ⊢
  have hn1 : 1 ≤ r.data.length := by
    rcases hc : r.data with _ | _
    · exact absurd hc hne
    · simp
  have hn' : (0 : K) ≤ (r.data.length : K) - 1 := by
    have : ((1 : Nat) : K) ≤ (r.data.length : K) := Nat.cast_le.2 hn1
    push_cast at this; linarith
  set x : K := F.rnd (q * ((r.data.length : K) - 1)) with hx
  have hx0 : 0 ≤ x := F.nonneg (mul_nonneg (le_of_lt h0) hn')
  have hxn : x ≤ (r.data.length : K) - 1 := by
    rw [hx, ← hl]; exact F.mono (by rw [hl]; nlinarith)
  obtain ⟨i, hi⟩ : ∃ i : Nat, ⌊x⌋ = (i : Int) := Int.eq_ofNat_of_zero_le (Int.floor_nonneg.2 hx0)
  have hfl : ((i : Nat) : K) ≤ x := by
    have := Int.floor_le x
    rw [hi] at this; simpa using this
  have hlt : x < (i : K) + 1 := by
    have := Int.lt_floor_add_one x
    rw [hi] at this; simpa using this
  have hil : i < (sorted r.data).length := by
    rw [hlen]
    have : (i : K) ≤ ((r.data.length - 1 : Nat) : K) := by
      rw [Nat.cast_sub hn1]; push_cast; linarith
    have := Nat.cast_le.1 this
    omega
  split
  · rename_i hfc
    rw [hi, item_nat _ _ hil]
    have hxi : x = (i : K) := by
      refine le_antisymm ?_ hfl
      have := Int.le_ceil x
      rw [← hfc, hi] at this; simpa using this
    refine ⟨_, _, rfl, ⟨i, 0, (sorted r.data)[i], 0, le_refl _, one_pos, by rw [hxi, add_zero], by simp [hil], .inl rfl, rfl⟩, ?_⟩
    rw [zero_mul, add_zero, sub_self, abs_zero]
    exact hpos
  · rename_i hfc
    have hc : ⌈x⌉ = ((i + 1 : Nat) : Int) := by
      have h2 := Int.ceil_le_floor_add_one x
      have h3 := Int.floor_le_ceil x
      rw [hi] at h2 h3 hfc
      push_cast
      omega
    have hil' : i + 1 < (sorted r.data).length := by
      rw [hlen]
      have : ((i : K)) < ((r.data.length - 1 : Nat) : K) := by
        rw [Nat.cast_sub hn1]; push_cast
        refine lt_of_lt_of_le (lt_of_le_of_ne hfl ?_) hxn
        intro e
        apply hfc
        rw [← e, Int.floor_natCast, Int.ceil_natCast]
      have := Nat.cast_lt.1 this
      omega
    rw [hi, hc, item_nat _ _ hil, item_nat _ _ hil']
    refine ⟨_, _, rfl, ⟨i, x - i, (sorted r.data)[i], (sorted r.data)[i + 1], by linarith, by linarith, by ring, by simp [hil],
      .inr (by simp [hil']), rfl⟩, ?_⟩
    have key := mix_near hn hu0 hu he (a := (sorted r.data)[i]) (b := (sorted r.data)[i + 1]) (t := x - i)
      (hmem _ (List.getElem_mem _)) (hmem _ (List.getElem_mem _)) (by linarith) (by linarith)
    have e1 : (((i + 1 : Nat) : Int) : K) - x = 1 - (x - i) := by push_cast; ring
    have e2 : x - (((i : Nat) : Int) : K) = x - i := by push_cast; ring
    rw [e1, e2]
    exact key

/-- **C132**, as far as it holds: in floating point every quantile of the values kept is there, and it lies between the bounds of the
values up to an error of a few units in the last place. -/
theorem C132_near_partial {F : Rounding K} {u η : K} (hn : F.Near u η) (hu0 : 0 ≤ u) (hu : u ≤ 1 / 2) (he : 0 ≤ η) (store : K → K)
    (ops : List (Op K)) (hne : added ops ≠ []) (hl : F.Is (((added ops).length : K) - 1)) (q : K) (h0 : 0 < q) (h1 : q < 1)
    (lo hi M : K) (hb : ∀ x ∈ added ops, lo ≤ store x ∧ store x ≤ hi) (hM : ∀ x ∈ added ops, |store x| ≤ M) :
    ∃ v, (resQuantile F (run store none ops) q).1 = .ok v ∧
      lo - (7 * u * M + 4 * η * (M + 1)) ≤ v ∧ v ≤ hi + (7 * u * M + 4 * η * (M + 1)) := by
  obtain ⟨acc, h⟩ := inv_run store none ops
  obtain ⟨rfl, hlen⟩ := h.none_len rfl
  have hp : (run store none ops).data ~ (added ops).map store :=
    h.data_sub.perm_of_length_le (by simp [hlen])
  have hmem : ∀ y ∈ (run store none ops).data, ∃ x ∈ added ops, store x = y := by
    intro y hy
    have := hp.mem_iff.1 hy
    simpa using this
  obtain ⟨v, w, hv, hw, hd⟩ := quantile_near hn hu0 hu he (run store none ops) q h.isSorted
    (by intro e; rw [e] at hlen; exact hne (List.length_eq_zero_iff.1 hlen.symm)) h0 h1 (by rw [hlen]; exact hl)
    (M := M) (by intro y hy; obtain ⟨x, hx, rfl⟩ := hmem y hy; exact hM x hx)
  obtain ⟨b1, b2⟩ := interp_bounds (sorted_pairwise _) hw (lo := lo) (hi := hi)
    (by intro y hy; obtain ⟨x, hx, rfl⟩ := hmem y ((sorted_perm _).mem_iff.1 hy); exact (hb x hx).1)
    (by intro y hy; obtain ⟨x, hx, rfl⟩ := hmem y ((sorted_perm _).mem_iff.1 hy); exact (hb x hx).2)
  rw [abs_le] at hd
  exact ⟨v, hv, by linarith [hd.1], by linarith [hd.2]⟩

/-- **C132**: the full claim for doubles and values stored in single precision: quantiles lie between the bounds of the values. -/
def InRange : Prop :=
  ∀ (ops : List (Op ℚ)) (q v lo hi : ℚ), binary64.Is q → (∀ x ∈ added ops, binary64.Is x) →
    (∀ x ∈ added ops, lo ≤ ieee 24 (-149) x ∧ ieee 24 (-149) x ≤ hi) →
    (resQuantile binary64 (run (ieee 24 (-149)) none ops) q).1 = .ok v → lo ≤ v ∧ v ≤ hi

/-- The float 0.01. -/
def cent : ℚ := 5764607523034235 / 2 ^ 59

/-- **C132** is false: the quantile 0.01 of 3.0 and 3.0 is 2.9999999999999996. -/
theorem C132_violated : ¬ InRange := by
  intro h
  have hrun : run (ieee 24 (-149)) none [Op.add (3 : ℚ) 0, Op.add 3 0] =
      ⟨(run (ieee 24 (-149)) none [Op.add (3 : ℚ) 0, Op.add 3 0]).base, [3, 3], false, none⟩ := by
    have e : ieee 24 (-149) (3 : ℚ) = 3 := by decide +kernel
    simp [run, step, resAdd, below, resInit, e]
  have hsort : ∀ b : Base ℚ, sortData (⟨b, [3, 3], false, none⟩ : Res ℚ) = ⟨b, [3, 3], true, none⟩ := by
    intro b
    have : sorted ([3, 3] : List ℚ) = [3, 3] := (eq_sorted (by simp) (List.Perm.refl _)).symm
    unfold sortData
    simp only [Bool.false_eq_true, if_false]
    rw [show ([3, 3] : List ℚ).mergeSort (fun x y => decide (x ≤ y)) = [3, 3] from this]
  have hres : (resQuantile binary64 (run (ieee 24 (-149)) none [Op.add (3 : ℚ) 0, Op.add 3 0]) cent).1 =
      .ok (3 - 1 / 2 ^ 51) := by
    rw [hrun]
    unfold resQuantile
    dsimp only
    rw [if_neg (by decide +kernel), hsort]
    decide +kernel
  have := (h [Op.add (3 : ℚ) 0, Op.add 3 0] cent _ 3 3 (by decide +kernel) (by decide +kernel) (by decide +kernel) hres).1
  norm_num at this

/-- What C132 says of that case: 3.0, up to 22 / 2 ** 53 or so. -/
example : ∃ v, (resQuantile binary64 (run (ieee 24 (-149)) none [Op.add (3 : ℚ) 0, Op.add 3 0]) cent).1 = .ok v ∧
    3 - (7 * 2 ^ (-53 : ℤ) * 3 + 4 * 2 ^ (-1075 : ℤ) * (3 + 1)) ≤ v ∧ v ≤ 3 + (7 * 2 ^ (-53 : ℤ) * 3 + 4 * 2 ^ (-1075 : ℤ) * (3 + 1)) :=
  C132_near_partial binary64_near (two_zpow_pos _).le (by norm_num) (two_zpow_pos _).le _ _ (by simp [added])
    (by decide +kernel) cent (by decide +kernel) (by decide +kernel) 3 3 3 (by decide +kernel) (by decide +kernel)

end Verif.FltQuant
