import Verif.Props.FloatMoment
import Verif.Props.FloatEwma
import Mathlib.Data.List.Induction
/-!
# The mean in floating point is accurate (C134)
-/
namespace Verif.FltMom

open Verif.Flt Verif.Mom

variable {K : Type} [Field K] [LinearOrder K] [IsStrictOrderedRing K]

theorem mean_add (R : Rounding K) (s : Acc K) (v : K) (hn : R.Is ((s.count + 1 : ℕ) : K)) :
    (add R s v).mean = FltEwma.moved R (1 / ((s.count + 1 : ℕ) : K)) v s.mean := by
  have e : R.rnd (((s.count : ℤ) + 1 : ℤ) : K) = ((s.count + 1 : ℕ) : K) := by
    have : (((s.count : ℤ) + 1 : ℤ) : K) = ((s.count + 1 : ℕ) : K) := by push_cast; rfl
    rw [this]; exact hn
  show R.rnd (s.mean + R.rnd (R.rnd (v - s.mean) / R.rnd (((s.count : ℤ) + 1 : ℤ) : K))) = _
  rw [e]
  unfold FltEwma.moved
  rw [one_div_mul_eq_div]

/-- **C134**: the mean computed in floating point differs from the mean of the values by a small part of their size, growing at most
linearly with their number.  (`u` and `η` bound the error of one operation; as many numbers as there are values are floats.) -/
theorem C134_mean {R : Rounding K} {u η : K} (hn : R.Near u η) (hu0 : 0 ≤ u) (hu : u ≤ 1 / 2) (he : 0 ≤ η) (xs : List K)
    (hx : xs ≠ []) (hf : ∀ x ∈ xs, R.Is x) (hi : ∀ n : ℕ, n ≤ xs.length → R.Is (n : K)) (M : K) (hM : ∀ x ∈ xs, |x| ≤ M) :
    |(run R xs).mean - xs.sum / xs.length| ≤ (xs.length + 1) / 2 * (9 * u * M + 5 * η) := by
  suffices key : ∀ xs : List K, (∀ x ∈ xs, R.Is x) → (∀ n : ℕ, n ≤ xs.length → R.Is (n : K)) → (∀ x ∈ xs, |x| ≤ M) →
      |xs.length * (run R xs).mean - xs.sum| ≤ xs.length * (xs.length + 1) / 2 * (9 * u * M + 5 * η) by
    have hl : (0 : K) < xs.length := by
      have := List.length_pos_iff.2 hx
      exact_mod_cast this
    have h := key xs hf hi hM
    have e : (run R xs).mean - xs.sum / xs.length = (xs.length * (run R xs).mean - xs.sum) / xs.length := by
      field_simp
    rw [e, abs_div, abs_of_pos hl, div_le_iff₀ hl]
    refine h.trans (le_of_eq ?_)
    ring
  intro xs
  induction xs using List.reverseRecOn with
  | nil => intro _ _ _; simp [run, init]
  | append_singleton xs v ih =>
    intro hf hi hM
    have hf' : ∀ x ∈ xs, R.Is x := fun x h => hf x (by simp [h])
    have hM' : ∀ x ∈ xs, |x| ≤ M := fun x h => hM x (by simp [h])
    have h := ih hf' (fun n hn => hi n (by simp; omega)) hM'
    have hv : |v| ≤ M := hM v (by simp)
    have hM0 : 0 ≤ M := (abs_nonneg v).trans hv
    have hm : |(run R xs).mean| ≤ M := by
      by_cases hx : xs = []
      · subst hx; simpa [run, init] using hM0
      · have := C130_mean R xs hx hf' (-M) M (fun x h => abs_le.1 (hM' x h))
        exact abs_le.2 this
    have hc : (run R xs).count = xs.length := by
      rw [(run_extremes R xs).1]; exact (run_inv xs).1
    have hr : (run R (xs ++ [v])).mean = FltEwma.moved R (1 / ((xs.length + 1 : ℕ) : K)) v (run R xs).mean := by
      have : run R (xs ++ [v]) = add R (run R xs) v := by simp [run]
      rw [this, mean_add R (run R xs) v (by rw [hc]; exact hi _ (by simp)), hc]
    have hn0 : (0 : K) < ((xs.length + 1 : ℕ) : K) := by positivity
    have h1 : 1 / ((xs.length + 1 : ℕ) : K) ≤ 1 := by
      rw [div_le_one hn0]; push_cast; have : (0 : K) ≤ xs.length := by positivity
      linarith
    have near := FltEwma.moved_near hn hu0 hu he (a := (run R xs).mean) (b := v) (M := M)
      (one_div_nonneg.2 hn0.le) h1 hm hv
    rw [← hr] at near
    unfold FltEwma.slack at near
    set m := (run R xs).mean
    set m' := (run R (xs ++ [v])).mean
    set δ := 9 * u * M + 5 * η
    have e : ((xs ++ [v]).length : K) * m' - (xs ++ [v]).sum =
        ((xs.length + 1 : ℕ) : K) * (m' - (m + 1 / ((xs.length + 1 : ℕ) : K) * (v - m))) + (xs.length * m - xs.sum) := by
      simp only [List.length_append, List.length_singleton, List.sum_append, List.sum_singleton]
      push_cast at hn0 ⊢
      field_simp
      ring
    rw [e]
    calc _ ≤ |((xs.length + 1 : ℕ) : K) * (m' - (m + 1 / ((xs.length + 1 : ℕ) : K) * (v - m)))| + |xs.length * m - xs.sum| :=
          abs_add_le _ _
      _ ≤ ((xs.length + 1 : ℕ) : K) * δ + xs.length * (xs.length + 1) / 2 * δ := by
          rw [abs_mul, abs_of_pos hn0]
          exact add_le_add (mul_le_mul_of_nonneg_left near hn0.le) h
      _ = _ := by
          simp only [List.length_append, List.length_singleton]
          push_cast
          ring

/-- **C134** in doubles, for at most 2 ** 53 values. -/
theorem C134_double [FloorRing K] (xs : List K) (hx : xs ≠ []) (hl : xs.length ≤ 2 ^ 53) (hf : ∀ x ∈ xs, binary64.Is x) (M : K)
    (hM : ∀ x ∈ xs, |x| ≤ M) :
    |(run binary64 xs).mean - xs.sum / xs.length| ≤ (xs.length + 1) / 2 * (9 * 2 ^ (-53 : ℤ) * M + 5 * 2 ^ (-1075 : ℤ)) := by
  refine C134_mean binary64_near (two_zpow_pos _).le ?_ (two_zpow_pos _).le xs hx hf ?_ M hM
  · have : (2 : K) ^ (-53 : ℤ) ≤ 2 ^ (-1 : ℤ) := zpow_mono2 (by norm_num)
    rwa [zpow_neg_one, inv_eq_one_div] at this
  · intro n hn
    have := binary64_int (K := K) (k := n) (by
      rw [abs_of_nonneg (by positivity)]
      have : n ≤ 2 ^ 53 := hn.trans hl
      exact_mod_cast this)
    exact_mod_cast this

/-- Three doubles. -/
example : |(run binary64 [1, 2, (4 : ℚ)]).mean - 7 / 3| ≤ 2 * (9 * 2 ^ (-53 : ℤ) * 4 + 5 * 2 ^ (-1075 : ℤ)) := by
  have := C134_double [1, 2, (4 : ℚ)] (by simp) (by simp) (by
    intro x hx
    simp only [List.mem_cons, List.not_mem_nil, or_false] at hx
    rcases hx with rfl | rfl | rfl <;> decide +kernel) 4 (by
    intro x hx
    simp only [List.mem_cons, List.not_mem_nil, or_false] at hx
    rcases hx with rfl | rfl | rfl <;> norm_num)
  have e : ([1, 2, (4 : ℚ)].sum / ([1, 2, (4 : ℚ)].length : ℚ)) = 7 / 3 := by simp; norm_num
  have e2 : ((([1, 2, (4 : ℚ)].length : ℚ) + 1) / 2) = 2 := by simp; norm_num
  rw [e, e2] at this
  exact this

end Verif.FltMom
