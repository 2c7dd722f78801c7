import Verif.Props.Moment
/-!
# C103: the statistics of a `MomentAccumulator` fit together, and change with the unit as they should
-/
set_option linter.unusedSectionVars false
namespace Verif.Mom

variable {K : Type} [Field K] [LinearOrder K] [IsStrictOrderedRing K]

theorem sum_map_le {f g : K → K} {xs : List K} (h : ∀ x ∈ xs, f x ≤ g x) : (xs.map f).sum ≤ (xs.map g).sum :=
  List.sum_le_sum h

theorem sum_const (c : K) (xs : List K) : (xs.map fun _ => c).sum = (xs.length : K) * c := by
  induction xs with
  | nil => simp
  | cons x xs ih => simp only [List.map_cons, List.sum_cons, ih, List.length_cons]; push_cast; ring

theorem len_pos {xs : List K} (hx : xs ≠ []) : (0 : K) < xs.length := by
  have : 0 < xs.length := List.length_pos_iff.2 hx
  exact_mod_cast this

/-- C103: the mean lies between the extremes. -/
theorem C103_mean (xs : List K) (hx : xs ≠ []) :
    ∃ mn mx, (run xs).min = some mn ∧ (run xs).max = some mx ∧ mn ≤ (run xs).mean ∧ (run xs).mean ≤ mx := by
  obtain ⟨mn, mx, h1, h2, _, _, h5⟩ := C46_min_max xs hx
  have hn := len_pos (K := K) hx
  refine ⟨mn, mx, h1, h2, ?_, ?_⟩
  · rw [mean_eq xs hx, Mean, le_div_iff₀ hn]
    have := sum_map_le (f := fun _ => mn) (g := fun x => x) (xs := xs) fun x hx => (h5 x hx).1
    rw [sum_const, List.map_id'] at this
    linarith
  · rw [mean_eq xs hx, Mean, div_le_iff₀ hn]
    have := sum_map_le (f := fun x => x) (g := fun _ => mx) (xs := xs) fun x hx => (h5 x hx).2
    rw [sum_const, List.map_id'] at this
    linarith

/-- Sums around the mean of a quadratic expression in the deviation and its square. -/
theorem sum_square (xs : List K) (a b c : K) :
    (xs.map fun x => ((x - c) ^ 2 - a * (x - c) - b) ^ 2).sum =
      S 4 c xs + a ^ 2 * S 2 c xs + (xs.length : K) * b ^ 2 - 2 * a * S 3 c xs - 2 * b * S 2 c xs + 2 * a * b * S 1 c xs := by
  induction xs with
  | nil => simp [S]
  | cons x xs ih =>
    have e : ∀ k c, S k c (x :: xs) = (x - c) ^ k + S k c xs := by intro k c; simp [S]
    rw [List.map_cons, List.sum_cons, ih, e, e, e, e, List.length_cons]
    push_cast; ring

theorem S_mean (xs : List K) (hx : xs ≠ []) : S 1 (Mean xs) xs = 0 := by
  have := (run_inv xs).2.1
  rwa [mean_eq xs hx] at this

/-- Pearson's inequality for the central sums. -/
theorem pearson (xs : List K) (hx : xs ≠ []) (h2 : 0 < Central 2 xs) :
    Central 3 xs ^ 2 / Central 2 xs + Central 2 xs ^ 2 / (xs.length : K) ≤ Central 4 xs := by
  have hn := len_pos (K := K) hx
  have h := sum_square xs (Central 3 xs / Central 2 xs) (Central 2 xs / (xs.length : K)) (Mean xs)
  have h0 : 0 ≤ (xs.map fun x => ((x - Mean xs) ^ 2 - Central 3 xs / Central 2 xs * (x - Mean xs) -
      Central 2 xs / (xs.length : K)) ^ 2).sum := by
    refine List.sum_nonneg fun y hy => ?_
    obtain ⟨x, _, rfl⟩ := List.mem_map.1 hy
    positivity
  rw [h, S_mean xs hx] at h0
  have e : ∀ k, S k (Mean xs) xs = Central k xs := fun k => rfl
  rw [e, e, e] at h0
  have h3 : Central 4 xs + (Central 3 xs / Central 2 xs) ^ 2 * Central 2 xs +
      (xs.length : K) * (Central 2 xs / (xs.length : K)) ^ 2 - 2 * (Central 3 xs / Central 2 xs) * Central 3 xs -
      2 * (Central 2 xs / (xs.length : K)) * Central 2 xs +
      2 * (Central 3 xs / Central 2 xs) * (Central 2 xs / (xs.length : K)) * 0 =
      Central 4 xs - (Central 3 xs ^ 2 / Central 2 xs + Central 2 xs ^ 2 / (xs.length : K)) := by
    field_simp
    ring
  rw [h3] at h0
  linarith

/-- C103: kurtosis is at least one more than the square of the skewness, unless all values are equal. -/
theorem C103_pearson (p05 p15 : K → K) (hp : ∀ x, 0 ≤ x → 0 ≤ p05 x ∧ p05 x ^ 2 = x ∧ p15 x = x * p05 x) (xs : List K)
    (hv : ∃ x ∈ xs, ∃ y ∈ xs, x ≠ y) :
    1 + skewness p05 p15 (run xs) ^ 2 ≤ kurtosis (run xs) := by
  obtain ⟨x, hxm, y, hym, hxy⟩ := hv
  have hx : xs ≠ [] := by intro e; subst e; simp at hxm
  have h2 : 0 < Central 2 xs := by
    rcases (central2_nonneg xs).lt_or_eq with h | h
    · exact h
    · exfalso
      have hz : ∀ z ∈ xs, z = Mean xs := by
        intro z hz
        have := (List.all_zero_of_le_zero_le_of_sum_eq_zero (l := xs.map fun x => (x - Mean xs) ^ 2)
          (fun {y} hy => by obtain ⟨x, _, rfl⟩ := List.mem_map.1 hy; positivity) h.symm)
          (List.mem_map_of_mem hz)
        have := pow_eq_zero_iff (two_ne_zero) |>.1 this
        exact sub_eq_zero.1 this
      exact hxy ((hz x hxm).trans (hz y hym).symm)
  have hn := len_pos (K := K) hx
  obtain ⟨hc, _, e2, e3, e4⟩ := C45_moments xs hx
  obtain ⟨a0, a1, _⟩ := hp (xs.length : K) (le_of_lt hn)
  obtain ⟨b0, b1, b2⟩ := hp (Central 2 xs) (le_of_lt h2)
  have hb : p05 (Central 2 xs) ≠ 0 := by intro e; rw [e] at b1; simp at b1; exact absurd b1.symm (ne_of_gt h2)
  have h15 : p15 (Central 2 xs) ≠ 0 := by rw [b2]; exact mul_ne_zero (ne_of_gt h2) hb
  rw [skewness, kurtosis, safeDiv, safeDiv, e2, e3, e4, hc, if_neg h15, if_neg (pow_ne_zero 2 (ne_of_gt h2)), div_pow,
    mul_pow, a1, b2, mul_pow, b1]
  have hP := pearson xs hx h2
  rw [le_div_iff₀ (by positivity)]
  have h5 : (xs.length : K) * (Central 3 xs ^ 2 / Central 2 xs + Central 2 xs ^ 2 / (xs.length : K)) =
      (1 + (xs.length : K) * Central 3 xs ^ 2 / (Central 2 xs ^ 2 * Central 2 xs)) * Central 2 xs ^ 2 := by
    field_simp
    ring
  rw [← h5]
  exact mul_le_mul_of_nonneg_left hP (le_of_lt hn)

/-- C103: the variance is zero exactly if all values are equal. -/
theorem C103_variance_zero (xs : List K) (h : 2 ≤ xs.length) :
    variance (run xs) = 0 ↔ ∀ x ∈ xs, ∀ y ∈ xs, x = y := by
  have hx : xs ≠ [] := by intro e; simp [e] at h
  have hn : (0 : K) < (xs.length : K) - 1 := by
    have : (2 : K) ≤ xs.length := by exact_mod_cast h
    linarith
  rw [(C45_variance xs).1 h, SampleVariance, div_eq_zero_iff]
  constructor
  · rintro (h0 | h0)
    · have hz : ∀ z ∈ xs, z = Mean xs := by
        intro z hz
        have := (List.all_zero_of_le_zero_le_of_sum_eq_zero (l := xs.map fun x => (x - Mean xs) ^ 2)
          (fun {y} hy => by obtain ⟨x, _, rfl⟩ := List.mem_map.1 hy; positivity) h0)
          (List.mem_map_of_mem hz)
        have := pow_eq_zero_iff (two_ne_zero) |>.1 this
        exact sub_eq_zero.1 this
      intro x hxm y hym
      exact (hz x hxm).trans (hz y hym).symm
    · exact absurd h0 (ne_of_gt hn)
  · intro heq
    left
    obtain ⟨x0, hx0⟩ := List.exists_mem_of_ne_nil xs hx
    have hmap : xs.map (fun x => x) = xs.map fun _ => x0 := List.map_congr_left fun x hxm => heq x hxm x0 hx0
    have hs : xs.sum = (xs.length : K) * x0 := by rw [← sum_const, ← hmap, List.map_id']
    have hm : Mean xs = x0 := by
      rw [Mean, hs]
      exact mul_div_cancel_left₀ x0 (ne_of_gt (len_pos hx))
    have : xs.map (fun x => (x - Mean xs) ^ 2) = xs.map fun _ => (0 : K) := by
      apply List.map_congr_left
      intro x hxm
      rw [hm, heq x hxm x0 hx0]; ring
    rw [Central, this, sum_const, mul_zero]

/-- C103: the spread bounds the variance. -/
theorem C103_popoviciu (xs : List K) (h : 2 ≤ xs.length) :
    ∃ mn mx, (run xs).min = some mn ∧ (run xs).max = some mx ∧
      4 * ((xs.length : K) - 1) * variance (run xs) ≤ (xs.length : K) * (mx - mn) ^ 2 := by
  have hx : xs ≠ [] := by intro e; simp [e] at h
  have hn : (0 : K) < (xs.length : K) - 1 := by
    have : (2 : K) ≤ xs.length := by exact_mod_cast h
    linarith
  obtain ⟨mn, mx, h1, h2, _, _, h5⟩ := C46_min_max xs hx
  refine ⟨mn, mx, h1, h2, ?_⟩
  rw [(C45_variance xs).1 h, SampleVariance]
  have e : 4 * ((xs.length : K) - 1) * (Central 2 xs / ((xs.length : K) - 1)) = 4 * Central 2 xs := by
    have := ne_of_gt hn
    field_simp
  rw [e]
  -- the sum of squares around the middle is no less than around the mean
  have hshift := S2_shift (Mean xs) ((mn + mx) / 2 - Mean xs) xs
  rw [S_mean xs hx] at hshift
  have hc : Mean xs + ((mn + mx) / 2 - Mean xs) = (mn + mx) / 2 := by ring
  rw [hc] at hshift
  have hle : Central 2 xs ≤ S 2 ((mn + mx) / 2) xs := by
    rw [hshift]
    have : 0 ≤ (xs.length : K) * ((mn + mx) / 2 - Mean xs) ^ 2 := by
      have := len_pos (K := K) hx
      positivity
    have e2 : S 2 (Mean xs) xs = Central 2 xs := rfl
    rw [e2]
    linarith
  have hS : S 2 ((mn + mx) / 2) xs ≤ (xs.length : K) * ((mx - mn) / 2) ^ 2 := by
    rw [← sum_const, S]
    refine sum_map_le fun x hxm => ?_
    obtain ⟨ha, hb⟩ := h5 x hxm
    nlinarith [mul_nonneg (sub_nonneg.2 ha) (sub_nonneg.2 hb)]
  have e3 : (xs.length : K) * (mx - mn) ^ 2 = 4 * ((xs.length : K) * ((mx - mn) / 2) ^ 2) := by ring
  rw [e3]
  linarith

/-! ### Change of unit -/

theorem mean_affine (a b : K) (xs : List K) (hx : xs ≠ []) : Mean (xs.map fun x => a * x + b) = a * Mean xs + b := by
  have hn := ne_of_gt (len_pos (K := K) hx)
  have hs : (xs.map fun x => a * x + b).sum = a * xs.sum + (xs.length : K) * b := by
    clear hx hn
    induction xs with
    | nil => simp
    | cons x xs ih => simp only [List.map_cons, List.sum_cons, ih, List.length_cons]; push_cast; ring
  rw [Mean, Mean, hs, List.length_map]
  field_simp

theorem central_affine (k : Nat) (a b : K) (xs : List K) (hx : xs ≠ []) :
    Central k (xs.map fun x => a * x + b) = a ^ k * Central k xs := by
  rw [Central, Central, mean_affine a b xs hx, List.map_map, ← List.sum_map_mul_left]
  congr 1
  apply List.map_congr_left
  intro x _
  simp only [Function.comp_apply]
  rw [← mul_pow]
  ring

/-- C103: in another unit the mean is converted, the variance scaled by the square of the factor. -/
theorem C103_units (a b : K) (xs : List K) (hx : xs ≠ []) :
    (run (xs.map fun x => a * x + b)).count = (run xs).count ∧
    (run (xs.map fun x => a * x + b)).mean = a * (run xs).mean + b ∧
    variance (run (xs.map fun x => a * x + b)) = a ^ 2 * variance (run xs) := by
  have hx' : (xs.map fun x => a * x + b) ≠ [] := by simpa using hx
  obtain ⟨c1, m1, e2, _, _⟩ := C45_moments _ hx'
  obtain ⟨c1', m1', e2', _, _⟩ := C45_moments xs hx
  refine ⟨by rw [c1, c1', List.length_map], by rw [m1, m1', mean_affine a b xs hx], ?_⟩
  rw [variance, variance, e2, e2', c1, c1', List.length_map, central_affine 2 a b xs hx, safeDiv, safeDiv]
  split
  · simp
  · rw [mul_div_assoc]

/-- C103: kurtosis does not depend on the unit; skewness only on its direction. -/
theorem C103_shape (p05 p15 : K → K) (hp : ∀ x, 0 ≤ x → 0 ≤ p05 x ∧ p05 x ^ 2 = x ∧ p15 x = x * p05 x)
    (a b : K) (ha : a ≠ 0) (xs : List K) (hx : xs ≠ []) :
    kurtosis (run (xs.map fun x => a * x + b)) = kurtosis (run xs) ∧
    (0 < a → skewness p05 p15 (run (xs.map fun x => a * x + b)) = skewness p05 p15 (run xs)) ∧
    (a < 0 → skewness p05 p15 (run (xs.map fun x => a * x + b)) = -skewness p05 p15 (run xs)) := by
  have hx' : (xs.map fun x => a * x + b) ≠ [] := by simpa using hx
  obtain ⟨c1, _, e2, e3, e4⟩ := C45_moments _ hx'
  obtain ⟨c1', _, e2', e3', e4'⟩ := C45_moments xs hx
  have h2 := central2_nonneg xs
  obtain ⟨b0, b1, b2⟩ := hp (Central 2 xs) h2
  have hA : 0 ≤ a ^ 2 * Central 2 xs := by positivity
  obtain ⟨d0, d1, d2⟩ := hp (a ^ 2 * Central 2 xs) hA
  have hroot : p05 (a ^ 2 * Central 2 xs) = |a| * p05 (Central 2 xs) := by
    have h : p05 (a ^ 2 * Central 2 xs) ^ 2 = (|a| * p05 (Central 2 xs)) ^ 2 := by rw [d1, mul_pow, b1, sq_abs]
    exact (pow_left_inj₀ d0 (by positivity) (by norm_num)).1 h
  refine ⟨?_, fun hpos => ?_, fun hneg => ?_⟩
  · rw [kurtosis, kurtosis, e2, e4, e2', e4', c1, c1', List.length_map, central_affine 2 a b xs hx,
      central_affine 4 a b xs hx, safeDiv, safeDiv]
    by_cases hz : Central 2 xs = 0
    · simp [hz]
    · rw [if_neg (by positivity), if_neg (by positivity)]
      field_simp
  · rw [skewness, skewness, e2, e3, e2', e3', c1, c1', List.length_map, central_affine 2 a b xs hx,
      central_affine 3 a b xs hx, safeDiv, safeDiv, d2, b2, hroot, abs_of_pos hpos]
    by_cases hz : Central 2 xs * p05 (Central 2 xs) = 0
    · have hz' : a ^ 2 * Central 2 xs * (a * p05 (Central 2 xs)) = 0 := by
        have : a ^ 2 * Central 2 xs * (a * p05 (Central 2 xs)) = a ^ 3 * (Central 2 xs * p05 (Central 2 xs)) := by ring
        rw [this, hz, mul_zero]
      rw [if_pos hz, if_pos hz']
    · obtain ⟨hz1, hz2⟩ := mul_ne_zero_iff.1 hz
      rw [if_neg hz, if_neg (by positivity)]
      field_simp
  · rw [skewness, skewness, e2, e3, e2', e3', c1, c1', List.length_map, central_affine 2 a b xs hx,
      central_affine 3 a b xs hx, safeDiv, safeDiv, d2, b2, hroot, abs_of_neg hneg]
    by_cases hz : Central 2 xs * p05 (Central 2 xs) = 0
    · have hz' : a ^ 2 * Central 2 xs * (-a * p05 (Central 2 xs)) = 0 := by
        have : a ^ 2 * Central 2 xs * (-a * p05 (Central 2 xs)) = -a ^ 3 * (Central 2 xs * p05 (Central 2 xs)) := by ring
        rw [this, hz, mul_zero]
      rw [if_pos hz, if_pos hz', neg_zero]
    · obtain ⟨hz1, hz2⟩ := mul_ne_zero_iff.1 hz
      have hna : -a ≠ 0 := neg_ne_zero.2 ha
      rw [if_neg hz, if_neg (by positivity)]
      field_simp

/-- The hypotheses can be met. -/
example : (∃ x ∈ [(1 : ℝ), 2, 6], ∃ y ∈ [(1 : ℝ), 2, 6], x ≠ y) ∧
    (∀ x : ℝ, 0 ≤ x → 0 ≤ Real.sqrt x ∧ Real.sqrt x ^ 2 = x ∧ (fun x => x * Real.sqrt x) x = x * Real.sqrt x) ∧
    2 ≤ [(1 : ℝ), 2, 6].length :=
  ⟨⟨1, by simp, 2, by simp, by norm_num⟩, real_roots, by simp⟩

/-- Two values: kurtosis exactly 1, the bound is attained. -/
example : kurtosis (run [(0 : ℚ), 1]) = 1 := by norm_num [run, add, init, kurtosis, safeDiv]

example := C103_mean [(1 : ℚ), 2, 6] (by simp)
example := C103_pearson Real.sqrt (fun x => x * Real.sqrt x) real_roots [(1 : ℝ), 2, 6] ⟨1, by simp, 2, by simp, by norm_num⟩
example : variance (run [(1 : ℚ), 2, 6]) ≠ 0 := fun h =>
  absurd ((C103_variance_zero [(1 : ℚ), 2, 6] (by simp)).1 h 1 (by simp) 2 (by simp)) (by norm_num)
example := C103_popoviciu [(1 : ℚ), 2, 6] (by simp)
example := C103_units (1000 : ℚ) 3 [1, 2, 6] (by simp)

end Verif.Mom
