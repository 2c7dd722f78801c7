import Verif.Model.Moment
import Mathlib.Algebra.Order.Ring.Rat
import Mathlib.Algebra.Field.Rat
import Mathlib.Algebra.BigOperators.Group.List.Basic
import Mathlib.Data.List.Induction
import Mathlib.Analysis.Real.Sqrt
import Mathlib.Algebra.Order.BigOperators.Group.List
import Mathlib.Tactic.Ring
import Mathlib.Tactic.FieldSimp
import Mathlib.Tactic.Linarith
import Mathlib.Tactic.NormNum
/-!
# C45, C46: moments
-/
set_option linter.unusedSectionVars false
namespace Verif.Mom

variable {K : Type} [Field K] [LinearOrder K] [IsStrictOrderedRing K]

/-! ## Textbook definitions -/

/-- The arithmetic mean. -/
def Mean (xs : List K) : K := xs.sum / (xs.length : K)
/-- The k-th central sum. -/
def Central (k : Nat) (xs : List K) : K := (xs.map fun x => (x - Mean xs) ^ k).sum
/-- Sample variance: the central sum over one less than the count. -/
def SampleVariance (xs : List K) : K := Central 2 xs / ((xs.length : K) - 1)
/-- Kurtosis: the fourth central moment over the square of the second. -/
def Kurtosis (xs : List K) : K := (Central 4 xs / (xs.length : K)) / (Central 2 xs / (xs.length : K)) ^ 2

/-- Sums of powers around a point. -/
def S (k : Nat) (c : K) (xs : List K) : K := (xs.map fun x => (x - c) ^ k).sum

theorem S_append (k : Nat) (c : K) (xs : List K) (v : K) : S k c (xs ++ [v]) = S k c xs + (v - c) ^ k := by
  simp [S]

theorem S1_shift (c d : K) (xs : List K) : S 1 (c + d) xs = S 1 c xs - (xs.length : K) * d := by
  induction xs with
  | nil => simp [S]
  | cons x xs ih =>
    have e : ∀ k c, S k c (x :: xs) = (x - c) ^ k + S k c xs := by intro k c; simp [S]
    rw [e, e, ih, List.length_cons]; push_cast; ring

theorem S2_shift (c d : K) (xs : List K) :
    S 2 (c + d) xs = S 2 c xs - 2 * d * S 1 c xs + (xs.length : K) * d ^ 2 := by
  induction xs with
  | nil => simp [S]
  | cons x xs ih =>
    have e : ∀ k c, S k c (x :: xs) = (x - c) ^ k + S k c xs := by intro k c; simp [S]
    rw [e, e, e, ih, List.length_cons]; push_cast; ring

theorem S3_shift (c d : K) (xs : List K) :
    S 3 (c + d) xs = S 3 c xs - 3 * d * S 2 c xs + 3 * d ^ 2 * S 1 c xs - (xs.length : K) * d ^ 3 := by
  induction xs with
  | nil => simp [S]
  | cons x xs ih =>
    have e : ∀ k c, S k c (x :: xs) = (x - c) ^ k + S k c xs := by intro k c; simp [S]
    rw [e, e, e, e, ih, List.length_cons]; push_cast; ring

theorem S4_shift (c d : K) (xs : List K) :
    S 4 (c + d) xs = S 4 c xs - 4 * d * S 3 c xs + 6 * d ^ 2 * S 2 c xs - 4 * d ^ 3 * S 1 c xs +
      (xs.length : K) * d ^ 4 := by
  induction xs with
  | nil => simp [S]
  | cons x xs ih =>
    have e : ∀ k c, S k c (x :: xs) = (x - c) ^ k + S k c xs := by intro k c; simp [S]
    rw [e, e, e, e, e, ih, List.length_cons]; push_cast; ring

/-- What the accumulator keeps up. -/
theorem run_inv (xs : List K) :
    (run xs).count = xs.length ∧ S 1 (run xs).mean xs = 0 ∧ (run xs).m2 = S 2 (run xs).mean xs ∧
    (run xs).m3 = S 3 (run xs).mean xs ∧ (run xs).m4 = S 4 (run xs).mean xs := by
  induction xs using List.reverseRecOn with
  | nil => simp [run, init, S]
  | append_singleton xs v ih =>
    obtain ⟨hc, h1, h2, h3, h4⟩ := ih
    have hr : run (xs ++ [v]) = add (run xs) v := by simp [run]
    rw [hr]
    generalize run xs = s at hc h1 h2 h3 h4
    have hn : ((xs.length : K) + 1) ≠ 0 := by positivity
    simp only [add, S_append, S1_shift, S2_shift, S3_shift, S4_shift, ← h2, ← h3, ← h4, h1, hc]
    push_cast
    refine ⟨by simp, ?_, ?_, ?_, ?_⟩ <;> field_simp <;> ring

theorem mean_eq (xs : List K) (hx : xs ≠ []) : (run xs).mean = Mean xs := by
  obtain ⟨_, h1, _⟩ := run_inv xs
  have e : ∀ (c : K) (ys : List K), S 1 c ys = ys.sum - (ys.length : K) * c := by
    intro c ys
    induction ys with
    | nil => simp [S]
    | cons y ys ih =>
      have : S 1 c (y :: ys) = (y - c) ^ 1 + S 1 c ys := by simp [S]
      rw [this, ih, List.sum_cons, List.length_cons]; push_cast; ring
  rw [e] at h1
  have hn : (xs.length : K) ≠ 0 := by simpa using hx
  rw [Mean, eq_div_iff hn]
  linarith

/-- C45: after any non-empty sequence, count, mean and the second, third and fourth central sums are exactly those of the
sequence. -/
theorem C45_moments (xs : List K) (hx : xs ≠ []) :
    (run xs).count = xs.length ∧ (run xs).mean = Mean xs ∧ (run xs).m2 = Central 2 xs ∧
    (run xs).m3 = Central 3 xs ∧ (run xs).m4 = Central 4 xs := by
  obtain ⟨hc, _, h2, h3, h4⟩ := run_inv xs
  rw [mean_eq xs hx] at h2 h3 h4
  exact ⟨hc, mean_eq xs hx, h2, h3, h4⟩

/-- C45: the variance is the sample variance from two values on, and 0 before. -/
theorem C45_variance (xs : List K) :
    (2 ≤ xs.length → variance (run xs) = SampleVariance xs) ∧ (xs.length < 2 → variance (run xs) = 0) := by
  constructor
  · intro h
    have hx : xs ≠ [] := by intro e; simp [e] at h
    obtain ⟨hc, _, h2, _, _⟩ := C45_moments xs hx
    have h1 : (xs.length : K) - 1 ≠ 0 := by
      have : (2 : K) ≤ xs.length := by exact_mod_cast h
      intro e; linarith
    rw [variance, safeDiv, hc, if_neg h1, h2, SampleVariance]
  · intro h
    match xs, h with
    | [], _ => simp [variance, safeDiv, run, init]
    | [x], _ => simp [variance, safeDiv, run, init, add]

theorem central2_nonneg (xs : List K) : 0 ≤ Central 2 xs := by
  unfold Central
  refine List.sum_nonneg fun y hy => ?_
  obtain ⟨x, _, rfl⟩ := List.mem_map.1 hy
  positivity

/-- C45: kurtosis is the textbook ratio when the values are not all equal, and 0 otherwise. -/
theorem C45_kurtosis (xs : List K) :
    (Central 2 xs ≠ 0 → kurtosis (run xs) = Kurtosis xs) ∧ (xs ≠ [] → Central 2 xs = 0 → kurtosis (run xs) = 0) ∧
    kurtosis (run ([] : List K)) = 0 := by
  refine ⟨fun h => ?_, fun hx h => ?_, by simp [kurtosis, safeDiv, run, init]⟩
  · have hx : xs ≠ [] := by intro e; subst e; simp [Central] at h
    obtain ⟨hc, _, h2, _, h4⟩ := C45_moments xs hx
    have hn : (xs.length : K) ≠ 0 := by simpa using hx
    rw [kurtosis, safeDiv, h2, h4, hc, if_neg (pow_ne_zero 2 h), Kurtosis]
    field_simp
  · obtain ⟨_, _, h2, _, _⟩ := C45_moments xs hx
    rw [kurtosis, safeDiv, h2, h, if_pos (by simp)]

/-- C45: skewness is the third central moment over the cube of the standard deviation `sd` (of the population), for exact
square roots. -/
theorem C45_skewness (p05 p15 : K → K) (hp : ∀ x, 0 ≤ x → 0 ≤ p05 x ∧ p05 x ^ 2 = x ∧ p15 x = x * p05 x) (xs : List K)
    (sd : K) (h0 : 0 < sd) (hsd : sd ^ 2 = Central 2 xs / (xs.length : K)) :
    skewness p05 p15 (run xs) = (Central 3 xs / (xs.length : K)) / sd ^ 3 := by
  have hx : xs ≠ [] := by
    intro e; subst e; simp at hsd; exact absurd hsd (ne_of_gt h0)
  obtain ⟨hc, _, h2, h3, _⟩ := C45_moments xs hx
  have hn : (0 : K) < xs.length := by
    have : 0 < xs.length := List.length_pos_iff.2 hx
    exact_mod_cast this
  have hm : Central 2 xs = sd ^ 2 * xs.length := by rw [hsd]; field_simp
  have hm0 : 0 < Central 2 xs := by rw [hm]; positivity
  obtain ⟨a0, a1, _⟩ := hp (xs.length : K) (le_of_lt hn)
  obtain ⟨b0, b1, b2⟩ := hp (Central 2 xs) (le_of_lt hm0)
  -- the root of `n sd²` is the root of `n` times `sd`
  have hroot : p05 (Central 2 xs) = p05 (xs.length : K) * sd := by
    have : p05 (Central 2 xs) ^ 2 = (p05 (xs.length : K) * sd) ^ 2 := by rw [b1, mul_pow, a1, hm]; ring
    exact (pow_left_inj₀ b0 (by positivity) (by norm_num)).1 this
  have ha : p05 (xs.length : K) ≠ 0 := by
    intro e; rw [e] at a1; simp at a1; exact hx (by simpa using a1.symm)
  rw [skewness, safeDiv, h2, h3, hc, b2, hroot, hm, if_neg (by positivity)]
  field_simp

/-- C45: without spread, skewness is 0. -/
theorem C45_skewness_zero (p05 p15 : K → K) (h0 : p15 0 = 0) (xs : List K) (hx : xs ≠ []) (h : Central 2 xs = 0) :
    skewness p05 p15 (run xs) = 0 := by
  obtain ⟨_, _, h2, _, _⟩ := C45_moments xs hx
  rw [skewness, safeDiv, h2, h, h0, if_pos rfl]

/-- C45: the standard deviation is the non-negative root of the variance. -/
theorem C45_std_dev (p05 : K → K) (hp : ∀ x, 0 ≤ x → 0 ≤ p05 x ∧ p05 x ^ 2 = x) (xs : List K) :
    0 ≤ stdDev p05 (run xs) ∧ stdDev p05 (run xs) ^ 2 = variance (run xs) := by
  refine hp _ ?_
  rcases Nat.lt_or_ge xs.length 2 with h | h
  · rw [(C45_variance xs).2 h]
  · rw [(C45_variance xs).1 h, SampleVariance]
    have : (2 : K) ≤ xs.length := by exact_mod_cast h
    exact div_nonneg (central2_nonneg xs) (by linarith)

theorem mean_perm {xs ys : List K} (h : xs.Perm ys) : Mean xs = Mean ys := by
  rw [Mean, Mean, h.sum_eq, h.length_eq]

theorem central_perm {xs ys : List K} (h : xs.Perm ys) (k : Nat) : Central k xs = Central k ys := by
  rw [Central, Central, mean_perm h, (h.map _).sum_eq]

/-- C45: the order of the values does not matter. -/
theorem C45_order (xs ys : List K) (h : xs.Perm ys) :
    (run xs).count = (run ys).count ∧ (run xs).mean = (run ys).mean ∧ (run xs).m2 = (run ys).m2 ∧
    (run xs).m3 = (run ys).m3 ∧ (run xs).m4 = (run ys).m4 := by
  by_cases hx : xs = []
  · subst hx
    have := h.nil_eq
    subst this
    simp
  · have hy : ys ≠ [] := by intro e; subst e; exact hx h.eq_nil
    obtain ⟨a1, a2, a3, a4, a5⟩ := C45_moments xs hx
    obtain ⟨b1, b2, b3, b4, b5⟩ := C45_moments ys hy
    rw [a1, a2, a3, a4, a5, b1, b2, b3, b4, b5, h.length_eq, mean_perm h, central_perm h, central_perm h, central_perm h]
    simp

example : (run [(1 : ℚ), 2, 6]).mean = 3 ∧ (run [(1 : ℚ), 2, 6]).m2 = 14 ∧ variance (run [(1 : ℚ), 2, 6]) = 7 ∧
    (run [(1 : ℚ), 2, 6]).m3 = 18 ∧ (run [(1 : ℚ), 2, 6]).m4 = 98 := by
  refine ⟨?_, ?_, ?_, ?_, ?_⟩ <;> norm_num [run, add, init, variance, safeDiv]

/-- Over the reals the roots exist. -/
theorem real_roots : ∀ x : ℝ, 0 ≤ x → 0 ≤ Real.sqrt x ∧ Real.sqrt x ^ 2 = x ∧ x * Real.sqrt x = x * Real.sqrt x :=
  fun x hx => ⟨Real.sqrt_nonneg x, Real.sq_sqrt hx, rfl⟩

example : skewness Real.sqrt (fun x => x * Real.sqrt x) (run [1, 2, 6]) =
    (Central 3 [1, 2, 6] / (([1, 2, 6] : List ℝ).length : ℝ)) / Real.sqrt (14 / 3) ^ 3 :=
  C45_skewness Real.sqrt (fun x => x * Real.sqrt x) real_roots [1, 2, 6] (Real.sqrt (14 / 3))
    (Real.sqrt_pos.2 (by norm_num)) (by
      rw [Real.sq_sqrt (by norm_num)]
      norm_num [Central, Mean])

/-- C46: after any non-empty sequence, the tracked extremes are the sequence's: members of it that bound it. -/
theorem C46_min_max (xs : List K) (hx : xs ≠ []) :
    ∃ mn mx, (run xs).min = some mn ∧ (run xs).max = some mx ∧ mn ∈ xs ∧ mx ∈ xs ∧ ∀ x ∈ xs, mn ≤ x ∧ x ≤ mx := by
  induction xs using List.reverseRecOn with
  | nil => exact absurd rfl hx
  | append_singleton xs v ih =>
    have hr : run (xs ++ [v]) = add (run xs) v := by simp [run]
    rw [hr]
    by_cases he : xs = []
    · subst he
      exact ⟨v, v, by simp [run, add, init, gtMax], by simp [run, add, init, gtMax], by simp, by simp, by simp⟩
    · obtain ⟨mn, mx, h1, h2, h3, h4, h5⟩ := ih he
      have hc : (run xs).count ≠ 0 := by rw [(run_inv xs).1]; simpa using he
      generalize run xs = s at h1 h2 hc
      have hmm : mn ≤ mx := (h5 mn h3).2
      by_cases hgt : v > mx
      · refine ⟨mn, v, by simp [add, gtMax, h2, hgt, hc, h1], by simp [add, gtMax, h2, hgt], by simp [h3], by simp,
          fun x hx => ?_⟩
        rcases List.mem_append.1 hx with hx | hx
        · exact ⟨(h5 x hx).1, le_of_lt (lt_of_le_of_lt (h5 x hx).2 hgt)⟩
        · rw [List.mem_singleton.1 hx]; exact ⟨le_of_lt (lt_of_le_of_lt hmm hgt), le_refl _⟩
      · by_cases hlt : v < mn
        · refine ⟨v, mx, by simp [add, gtMax, ltMin, h1, h2, hgt, hlt], by simp [add, gtMax, ltMin, h1, h2, hgt, hlt],
            by simp, by simp [h4], fun x hx => ?_⟩
          rcases List.mem_append.1 hx with hx | hx
          · exact ⟨le_of_lt (lt_of_lt_of_le hlt (h5 x hx).1), (h5 x hx).2⟩
          · rw [List.mem_singleton.1 hx]; exact ⟨le_refl _, not_lt.1 hgt⟩
        · refine ⟨mn, mx, by simp [add, gtMax, ltMin, h1, h2, hgt, hlt], by simp [add, gtMax, ltMin, h1, h2, hgt, hlt],
            by simp [h3], by simp [h4], fun x hx => ?_⟩
          rcases List.mem_append.1 hx with hx | hx
          · exact h5 x hx
          · rw [List.mem_singleton.1 hx]; exact ⟨not_lt.1 hlt, not_lt.1 hgt⟩

example : (run [(3 : ℚ), 1, 2]).min = some 1 ∧ (run [(3 : ℚ), 1, 2]).max = some 3 := by
  norm_num [run, add, init, gtMax, ltMin]

example := C45_moments [(1 : ℚ), 2, 6] (by simp)

example := C45_skewness_zero Real.sqrt (fun x => x * Real.sqrt x) (by simp) [5, 5, 5] (by simp) (by norm_num [Central, Mean])

example := C45_std_dev Real.sqrt (fun x hx => ⟨Real.sqrt_nonneg x, Real.sq_sqrt hx⟩) [1, 2, 6]

end Verif.Mom
