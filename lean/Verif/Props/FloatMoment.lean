import Verif.Model.FloatMoment
import Verif.Props.Float
import Verif.Props.Moment
/-!
# C130: moment statistics in floating point
-/
namespace Verif.FltMom

open Verif.Flt Verif.Mom

variable {K : Type} [Field K] [LinearOrder K] [IsStrictOrderedRing K]

/-- Count, minimum and maximum are those of the model with exact arithmetic: rounding does not touch them. -/
theorem run_extremes (R : Rounding K) (xs : List K) :
    (run R xs).count = (Mom.run xs).count ∧ (run R xs).min = (Mom.run xs).min ∧ (run R xs).max = (Mom.run xs).max := by
  suffices h : ∀ (a b : Acc K), a.count = b.count ∧ a.min = b.min ∧ a.max = b.max →
      (xs.foldl (add R) a).count = (xs.foldl Mom.add b).count ∧ (xs.foldl (add R) a).min = (xs.foldl Mom.add b).min ∧
        (xs.foldl (add R) a).max = (xs.foldl Mom.add b).max from h init init ⟨rfl, rfl, rfl⟩
  induction xs with
  | nil => intro a b h; exact h
  | cons x xs ih =>
    rintro a b ⟨h1, h2, h3⟩
    apply ih
    simp only [add, Mom.add, h1, h2, h3]
    exact ⟨trivial, trivial, trivial⟩

/-- With exact arithmetic the model is `Verif.Model.Moment`. -/
theorem run_exact (xs : List K) : run exact xs = Mom.run xs := by
  have h : add (exact : Rounding K) = Mom.add := by
    funext s v
    simp only [add, Mom.add, exact, id]
    push_cast
    rfl
  unfold run Mom.run
  rw [h]

theorem int_two_le (R : Rounding K) {n : ℤ} (h : 2 ≤ n) : 2 ≤ R.rnd (n : K) := by
  rw [← R.two]; exact R.mono (by exact_mod_cast h)

/-- What holds of an accumulator of values between `lo` and `hi`. -/
structure Sane (R : Rounding K) (lo hi : K) (s : Acc K) : Prop where
  mean : R.Is s.mean
  range : s.count ≠ 0 → lo ≤ s.mean ∧ s.mean ≤ hi
  start : s.count = 0 → s.mean = 0
  m2 : 0 ≤ s.m2
  flat : lo = hi → s.m2 = 0

theorem add_sane {R : Rounding K} {lo hi : K} {s : Acc K} (h : Sane R lo hi s) {v : K} (hv : R.Is v) (hlo : lo ≤ v) (hhi : v ≤ hi) :
    Sane R lo hi (add R s v) := by
  have hn1 : (((s.count : ℤ) + 1 - 1 : ℤ) : K) = s.count := by push_cast; ring
  have hterm : 0 ≤ R.rnd (R.rnd (R.rnd (v - s.mean) * R.rnd (R.rnd (v - s.mean) / R.rnd (((s.count : ℤ) + 1 : ℤ) : K))) *
      R.rnd (((s.count : ℤ) + 1 - 1 : ℤ) : K)) := by
    have hn : 0 ≤ R.rnd (((s.count : ℤ) + 1 : ℤ) : K) := R.nonneg (by positivity)
    apply R.nonneg
    refine mul_nonneg (R.nonneg ?_) (R.nonneg (by rw [hn1]; positivity))
    rcases le_total 0 (R.rnd (v - s.mean)) with h0 | h0
    · exact mul_nonneg h0 (R.nonneg (div_nonneg h0 hn))
    · exact mul_nonneg_of_nonpos_of_nonpos h0 (R.nonpos (div_nonpos_of_nonpos_of_nonneg h0 hn))
  constructor
  · exact R.idem _
  · intro _
    by_cases hc : s.count = 0
    · have hm := h.start hc
      have : R.rnd (s.mean + R.rnd (R.rnd (v - s.mean) / R.rnd (((s.count : ℤ) + 1 : ℤ) : K))) = v := by
        rw [hm, hc, sub_zero, hv]
        simp only [Nat.cast_zero, zero_add, Int.cast_one, R.one, div_one]
        rw [hv, hv]
      show lo ≤ R.rnd _ ∧ R.rnd _ ≤ hi
      rw [this]
      exact ⟨hlo, hhi⟩
    · have h2 : (2 : K) ≤ R.rnd (((s.count : ℤ) + 1 : ℤ) : K) := int_two_le R (by omega)
      obtain ⟨r1, r2⟩ := h.range hc
      show lo ≤ R.rnd (s.mean + R.rnd (R.rnd (v - s.mean) / _)) ∧ R.rnd (s.mean + R.rnd (R.rnd (v - s.mean) / _)) ≤ hi
      rcases le_total s.mean v with hle | hle
      · obtain ⟨a, b⟩ := R.toward_up h.mean hv hle h2
        exact ⟨r1.trans a, b.trans hhi⟩
      · obtain ⟨a, b⟩ := R.toward_down h.mean hv hle h2
        exact ⟨hlo.trans a, b.trans r2⟩
  · intro hc; exact absurd hc (Nat.succ_ne_zero _)
  · exact R.nonneg (add_nonneg h.m2 hterm)
  · intro heq
    have hz : R.rnd (R.rnd (R.rnd (v - s.mean) * R.rnd (R.rnd (v - s.mean) / R.rnd (((s.count : ℤ) + 1 : ℤ) : K))) *
        R.rnd (((s.count : ℤ) + 1 - 1 : ℤ) : K)) = 0 := by
      by_cases hc : s.count = 0
      · rw [hn1, hc]; simp [R.zero]
      · obtain ⟨r1, r2⟩ := h.range hc
        have : v = s.mean := by subst heq; exact le_antisymm (hhi.trans r1) (r2.trans hlo)
        rw [this]; simp [R.zero]
    show R.rnd (s.m2 + R.rnd (R.rnd (R.rnd (v - s.mean) * R.rnd (R.rnd (v - s.mean) / R.rnd (((s.count : ℤ) + 1 : ℤ) : K))) *
        R.rnd (((s.count : ℤ) + 1 - 1 : ℤ) : K))) = 0
    rw [hz, h.flat heq, add_zero, R.zero]

theorem run_sane (R : Rounding K) {lo hi : K} (xs : List K) (hx : ∀ x ∈ xs, R.Is x ∧ lo ≤ x ∧ x ≤ hi) : Sane R lo hi (run R xs) := by
  suffices h : ∀ s : Acc K, Sane R lo hi s → Sane R lo hi (xs.foldl (add R) s) from
    h init ⟨R.zero, fun h => absurd rfl h, fun _ => rfl, le_refl _, fun _ => rfl⟩
  induction xs with
  | nil => intro s h; exact h
  | cons x xs ih =>
    intro s h
    obtain ⟨h1, h2, h3⟩ := hx x (by simp)
    exact ih (fun y hy => hx y (List.mem_cons_of_mem _ hy)) _ (add_sane h h1 h2 h3)

/-- **C130**: in floating point, whatever the precision, the mean lies between any bounds of the values added. -/
theorem C130_mean (R : Rounding K) (xs : List K) (hx : xs ≠ []) (hf : ∀ x ∈ xs, R.Is x) (lo hi : K)
    (h : ∀ x ∈ xs, lo ≤ x ∧ x ≤ hi) : lo ≤ (run R xs).mean ∧ (run R xs).mean ≤ hi := by
  have hs := run_sane R xs (fun x hxs => ⟨hf x hxs, h x hxs⟩)
  refine hs.range ?_
  rw [(run_extremes R xs).1]
  have : (Mom.run xs).count = xs.length := (run_inv xs).1
  rw [this]
  exact fun h => hx (List.length_eq_zero_iff.1 h)

/-- **C130**: count, minimum and maximum are exact. -/
theorem C130_extremes (R : Rounding K) (xs : List K) (hx : xs ≠ []) :
    (run R xs).count = xs.length ∧ (∃ a ∈ xs, (run R xs).min = some a ∧ ∀ x ∈ xs, a ≤ x) ∧
      ∃ b ∈ xs, (run R xs).max = some b ∧ ∀ x ∈ xs, x ≤ b := by
  obtain ⟨h1, h2, h3⟩ := run_extremes R xs
  rw [h1, h2, h3]
  obtain ⟨a, b, e1, e2, m1, m2, h⟩ := C46_min_max xs hx
  exact ⟨(run_inv xs).1, ⟨a, m1, e1, fun x hx => (h x hx).1⟩, b, m2, e2, fun x hx => (h x hx).2⟩

/-- **C130**: the variance is never negative, so that `std_dev` is a real number. -/
theorem C130_variance (R : Rounding K) (xs : List K) (hf : ∀ x ∈ xs, R.Is x) : 0 ≤ variance R (run R xs) := by
  have hm2 : 0 ≤ (run R xs).m2 := by
    by_cases hx : xs = []
    · subst hx; exact le_refl _
    · obtain ⟨-, ⟨a, -, -, ha⟩, b, -, -, hb⟩ := C130_extremes R xs hx
      exact (run_sane R xs fun x h => ⟨hf x h, ha x h, hb x h⟩).m2
  unfold variance
  split
  · exact le_refl _
  · apply R.nonneg
    by_cases hx : xs = []
    · subst hx; simp [run, init]
    · have hc : (run R xs).count ≠ 0 := by
        rw [(C130_extremes R xs hx).1]; exact fun h => hx (List.length_eq_zero_iff.1 h)
      refine div_nonneg hm2 (R.nonneg ?_)
      have : (0 : ℤ) ≤ (run R xs).count - 1 := by omega
      exact_mod_cast this

/-- **C130**: of equal values the mean is that value and the variance 0, without any error. -/
theorem C130_equal (R : Rounding K) (v : K) (hv : R.Is v) (n : ℕ) (hn : 0 < n) :
    (run R (List.replicate n v)).mean = v ∧ variance R (run R (List.replicate n v)) = 0 := by
  have hmem : ∀ x ∈ List.replicate n v, R.Is x ∧ v ≤ x ∧ x ≤ v := by
    intro x hx
    rw [List.mem_replicate] at hx
    rw [hx.2]; exact ⟨hv, le_refl _, le_refl _⟩
  have hne : List.replicate n v ≠ [] := by simp; omega
  obtain ⟨a, b⟩ := C130_mean R _ hne (fun x hx => (hmem x hx).1) v v (fun x hx => (hmem x hx).2)
  refine ⟨le_antisymm b a, ?_⟩
  have h0 := (run_sane R _ hmem).flat rfl
  unfold variance
  rw [h0, zero_div, R.zero]
  split <;> rfl

/-- Doubles: three values, one of them tiny. -/
example : (-1 : ℚ) ≤ (run binary64 [3, -1, 2 ^ (-1074 : ℤ)]).mean ∧ (run binary64 [3, -1, 2 ^ (-1074 : ℤ)]).mean ≤ (3 : ℚ) := by
  refine C130_mean binary64 _ (by simp) ?_ (-1) 3 ?_
  · intro x hx
    simp only [List.mem_cons, List.not_mem_nil, or_false] at hx
    rcases hx with rfl | rfl | rfl
    · exact_mod_cast binary64_int (K := ℚ) (k := 3) (by norm_num)
    · exact_mod_cast binary64_int (K := ℚ) (k := -1) (by norm_num)
    · have := binary64_is (K := ℚ) (k := 1) (e := -1074) (by norm_num) (by decide)
      rwa [Int.cast_one, one_mul] at this
  · have h1 : (0 : ℚ) < 2 ^ (-1074 : ℤ) := two_zpow_pos _
    have h2 : (2 : ℚ) ^ (-1074 : ℤ) ≤ 2 ^ (0 : ℤ) := zpow_mono2 (by decide)
    intro x hx
    simp only [List.mem_cons, List.not_mem_nil, or_false] at hx
    rcases hx with rfl | rfl | rfl
    · norm_num
    · norm_num
    · rw [zpow_zero] at h2
      constructor <;> linarith

end Verif.FltMom
