import Verif.Props.FloatMean
import Mathlib.Algebra.Order.Ring.Pow
/-!
# The variance in floating point is accurate (C150)
-/
namespace Verif.FltMom

open Verif.Flt Verif.Mom

variable {K : Type} [Field K] [LinearOrder K] [IsStrictOrderedRing K]

/-! ## One step -/

/-- The term added to the sum of squares, with an error at every operation: `d`, `q`, `p`, `t` are the rounded difference,
quotient, product and term. -/
theorem term_near {u W E δ d a n k q p t : K} (hu0 : 0 ≤ u) (hu : u ≤ 1 / 2) (hW : 0 ≤ W) (hk : 0 ≤ k) (hkn : k ≤ n) (hn : 0 < n)
    (hδ : |δ| ≤ W) (ha : |a| ≤ W) (haδ : |a - δ| ≤ E)
    (hd : |d - a| ≤ 2 * u * W) (hq : |q - d / n| ≤ u * |d / n| + u * W) (hp : |p - d * q| ≤ u * |d * q| + u * W ^ 2)
    (ht : |t - p * k| ≤ u * |p * k| + u * W ^ 2) :
    |t - δ * (δ / n) * k| ≤ u * W ^ 2 * (26 + 6 * k) + 3 * W * E := by
  have huW : 0 ≤ u * W := mul_nonneg hu0 hW
  have hWW : 0 ≤ W ^ 2 := by positivity
  have huWW : 0 ≤ u * W ^ 2 := mul_nonneg hu0 hWW
  have hE : 0 ≤ E := (abs_nonneg _).trans haδ
  have hkn1 : k / n ≤ 1 := (div_le_one hn).2 hkn
  have hkn0 : 0 ≤ k / n := div_nonneg hk hn.le
  have hd2 : |d| ≤ 2 * W := by
    have : |d| ≤ |d - a| + |a| := by simpa using abs_add_le (d - a) a
    nlinarith
  have hdd : |d - δ| ≤ E + 2 * u * W := by
    have : |d - δ| ≤ |d - a| + |a - δ| := by
      have := abs_add_le (d - a) (a - δ); rwa [sub_add_sub_cancel] at this
    linarith
  -- the quotient
  have h1 : |k * (d * q) - k * (d * (d / n))| ≤ u * W ^ 2 * (4 + 2 * k) := by
    have e : k * (d * q) - k * (d * (d / n)) = d * (k * (q - d / n)) := by ring
    have hkq : |k * (q - d / n)| ≤ u * W * (2 + k) := by
      rw [abs_mul, abs_of_nonneg hk]
      have h3 : k * |d / n| ≤ 2 * W := by
        rw [abs_div, abs_of_pos hn]
        calc k * (|d| / n) = k / n * |d| := by ring
          _ ≤ 1 * (2 * W) := mul_le_mul hkn1 hd2 (abs_nonneg _) zero_le_one
          _ = 2 * W := one_mul _
      calc k * |q - d / n| ≤ k * (u * |d / n| + u * W) := mul_le_mul_of_nonneg_left hq hk
        _ = u * (k * |d / n|) + u * W * k := by ring
        _ ≤ u * (2 * W) + u * W * k := by gcongr
        _ = u * W * (2 + k) := by ring
    rw [e, abs_mul]
    calc |d| * |k * (q - d / n)| ≤ (2 * W) * (u * W * (2 + k)) := mul_le_mul hd2 hkq (abs_nonneg _) (by positivity)
      _ = u * W ^ 2 * (4 + 2 * k) := by ring
  have h2 : |k * (d * (d / n))| ≤ 4 * W ^ 2 := by
    have e : k * (d * (d / n)) = k / n * (d * d) := by ring
    rw [e, abs_mul, abs_of_nonneg hkn0, abs_mul]
    calc k / n * (|d| * |d|) ≤ 1 * (2 * W * (2 * W)) :=
          mul_le_mul hkn1 (mul_le_mul hd2 hd2 (abs_nonneg _) (by positivity)) (by positivity) zero_le_one
      _ = 4 * W ^ 2 := by ring
  have hhalf : ∀ {c : K}, 0 ≤ c → u * W ^ 2 * c ≤ W ^ 2 * (c / 2) := by
    intro c hc
    calc u * W ^ 2 * c ≤ 1 / 2 * W ^ 2 * c := by gcongr
      _ = _ := by ring
  have h3 : |k * (d * q)| ≤ W ^ 2 * (6 + k) := by
    have : |k * (d * q)| ≤ |k * (d * q) - k * (d * (d / n))| + |k * (d * (d / n))| := by
      simpa using abs_add_le (k * (d * q) - k * (d * (d / n))) (k * (d * (d / n)))
    have h5 := hhalf (c := 4 + 2 * k) (by linarith)
    nlinarith
  -- the product
  have h4 : |p * k - k * (d * q)| ≤ u * W ^ 2 * (6 + 2 * k) := by
    have e : p * k - k * (d * q) = k * (p - d * q) := by ring
    rw [e, abs_mul, abs_of_nonneg hk]
    calc k * |p - d * q| ≤ k * (u * |d * q| + u * W ^ 2) := mul_le_mul_of_nonneg_left hp hk
      _ = u * |k * (d * q)| + u * W ^ 2 * k := by rw [abs_mul k, abs_of_nonneg hk]; ring
      _ ≤ u * (W ^ 2 * (6 + k)) + u * W ^ 2 * k := by gcongr
      _ = u * W ^ 2 * (6 + 2 * k) := by ring
  have h5 : |p * k| ≤ W ^ 2 * (9 + 2 * k) := by
    have : |p * k| ≤ |p * k - k * (d * q)| + |k * (d * q)| := by simpa using abs_add_le (p * k - k * (d * q)) (k * (d * q))
    have h6 := hhalf (c := 6 + 2 * k) (by linarith)
    nlinarith
  have h6 : |t - p * k| ≤ u * W ^ 2 * (10 + 2 * k) := by
    calc |t - p * k| ≤ u * |p * k| + u * W ^ 2 := ht
      _ ≤ u * (W ^ 2 * (9 + 2 * k)) + u * W ^ 2 := by gcongr
      _ = _ := by ring
  -- the difference
  have h7 : |k * (d * (d / n)) - δ * (δ / n) * k| ≤ 3 * W * (E + 2 * u * W) := by
    have e : k * (d * (d / n)) - δ * (δ / n) * k = k / n * ((d - δ) * (d + δ)) := by ring
    rw [e, abs_mul, abs_of_nonneg hkn0, abs_mul]
    have hs : |d + δ| ≤ 3 * W := by
      have := abs_add_le d δ
      linarith
    calc k / n * (|d - δ| * |d + δ|) ≤ 1 * ((E + 2 * u * W) * (3 * W)) :=
          mul_le_mul hkn1 (mul_le_mul hdd hs (abs_nonneg _) (by positivity)) (by positivity) zero_le_one
      _ = _ := by ring
  have e : t - δ * (δ / n) * k = (t - p * k) + (p * k - k * (d * q)) + (k * (d * q) - k * (d * (d / n))) +
      (k * (d * (d / n)) - δ * (δ / n) * k) := by ring
  rw [e]
  have a1 := abs_add_le ((t - p * k) + (p * k - k * (d * q)) + (k * (d * q) - k * (d * (d / n))))
    (k * (d * (d / n)) - δ * (δ / n) * k)
  have a2 := abs_add_le ((t - p * k) + (p * k - k * (d * q))) (k * (d * q) - k * (d * (d / n)))
  have a3 := abs_add_le (t - p * k) (p * k - k * (d * q))
  have e2 : u * W ^ 2 * (26 + 6 * k) + 3 * W * E = u * W ^ 2 * (10 + 2 * k) + u * W ^ 2 * (6 + 2 * k) + u * W ^ 2 * (4 + 2 * k) +
      3 * W * (E + 2 * u * W) := by ring
  rw [e2]
  linarith

/-! ## The values and their mean -/

theorem mean_range {lo hi : K} {xs : List K} (hx : xs ≠ []) (h : ∀ x ∈ xs, lo ≤ x ∧ x ≤ hi) : lo ≤ Mean xs ∧ Mean xs ≤ hi := by
  have hl : (0 : K) < xs.length := by exact_mod_cast List.length_pos_iff.2 hx
  have key : ∀ xs : List K, (∀ x ∈ xs, lo ≤ x ∧ x ≤ hi) → lo * xs.length ≤ xs.sum ∧ xs.sum ≤ hi * xs.length := by
    intro xs
    induction xs with
    | nil => intro _; simp
    | cons x xs ih =>
      intro h
      have h1 := ih fun y hy => h y (by simp [hy])
      have h2 := h x (by simp)
      simp only [List.sum_cons, List.length_cons, Nat.cast_add, Nat.cast_one]
      constructor <;> nlinarith
  unfold Mean
  rw [le_div_iff₀ hl, div_le_iff₀ hl]
  exact key xs h

theorem central2_le {lo hi : K} {xs : List K} (h : ∀ x ∈ xs, lo ≤ x ∧ x ≤ hi) : Central 2 xs ≤ xs.length * (hi - lo) ^ 2 := by
  by_cases hx : xs = []
  · subst hx; simp [Central]
  obtain ⟨m1, m2⟩ := mean_range hx h
  have := List.sum_le_card_nsmul (xs.map fun x => (x - Mean xs) ^ 2) ((hi - lo) ^ 2) (by
    intro y hy
    obtain ⟨x, hx, rfl⟩ := List.mem_map.1 hy
    obtain ⟨h1, h2⟩ := h x hx
    have : |x - Mean xs| ≤ hi - lo := abs_le.2 ⟨by linarith, by linarith⟩
    exact sq_le_sq.2 (this.trans (le_abs_self _)))
  simpa [Central] using this

theorem central2_append {xs : List K} (hx : xs ≠ []) (v : K) : Central 2 (xs ++ [v]) =
    Central 2 xs + (v - Mean xs) * ((v - Mean xs) / ((xs.length + 1 : ℕ) : K)) * (xs.length : K) := by
  obtain ⟨hc, hm, h2, -⟩ := C45_moments xs hx
  obtain ⟨-, -, h2', -⟩ := C45_moments (xs ++ [v]) (by simp)
  have e : Mom.run (xs ++ [v]) = Mom.add (Mom.run xs) v := by simp [Mom.run]
  have e2 : (Mom.add (Mom.run xs) v).m2 = (Mom.run xs).m2 + (v - (Mom.run xs).mean) *
      ((v - (Mom.run xs).mean) / (((Mom.run xs).count + 1 : ℕ) : K)) * ((((Mom.run xs).count + 1 : ℕ) : K) - 1) := rfl
  rw [← h2', e, e2, h2, hm, hc]
  push_cast
  ring

theorem m2_add (R : Rounding K) (s : Acc K) (v : K) (hn : R.Is ((s.count + 1 : ℕ) : K)) (hc : R.Is (s.count : K)) :
    (add R s v).m2 = R.rnd (s.m2 + R.rnd (R.rnd (R.rnd (v - s.mean) * R.rnd (R.rnd (v - s.mean) / ((s.count + 1 : ℕ) : K))) *
      (s.count : K))) := by
  have e1 : R.rnd (((s.count : ℤ) + 1 : ℤ) : K) = ((s.count + 1 : ℕ) : K) := by
    have : (((s.count : ℤ) + 1 : ℤ) : K) = ((s.count + 1 : ℕ) : K) := by push_cast; rfl
    rw [this]; exact hn
  have e2 : R.rnd (((s.count : ℤ) + 1 - 1 : ℤ) : K) = (s.count : K) := by
    have : (((s.count : ℤ) + 1 - 1 : ℤ) : K) = (s.count : K) := by push_cast; ring
    rw [this]; exact hc
  show R.rnd (s.m2 + R.rnd (R.rnd (R.rnd (v - s.mean) * R.rnd (R.rnd (v - s.mean) / R.rnd (((s.count : ℤ) + 1 : ℤ) : K))) *
    R.rnd (((s.count : ℤ) + 1 - 1 : ℤ) : K))) = _
  rw [e1, e2]

/-! ## All steps -/

theorem m2_near {R : Rounding K} {u η : K} (hn : R.Near u η) (hu0 : 0 ≤ u) (hu : u ≤ 1 / 2) (he : 0 ≤ η) (N : ℕ)
    (hi' : ∀ n : ℕ, n ≤ N → R.Is (n : K)) {lo hi M : K} (hη : η ≤ u * (hi - lo)) (hη2 : η ≤ u * (hi - lo) ^ 2) (xs : List K) :
    xs.length ≤ N → (∀ x ∈ xs, R.Is x) → (∀ x ∈ xs, lo ≤ x ∧ x ≤ hi) → (∀ x ∈ xs, |x| ≤ M) →
    |(run R xs).m2 - Central 2 xs| ≤ (1 + u) ^ xs.length * xs.length * (u * (hi - lo) ^ 2 * (27 + 7 * N) +
      3 * (hi - lo) * ((N + 1) / 2 * (9 * u * M + 5 * η))) := by
  induction xs using List.reverseRecOn with
  | nil => intros; simp [run, init, Central]
  | append_singleton xs v ih =>
    intro hl hf hr hM
    simp only [List.length_append, List.length_singleton] at hl
    have hf' : ∀ x ∈ xs, R.Is x := fun x h => hf x (by simp [h])
    have hr' : ∀ x ∈ xs, lo ≤ x ∧ x ≤ hi := fun x h => hr x (by simp [h])
    have hM' : ∀ x ∈ xs, |x| ≤ M := fun x h => hM x (by simp [h])
    have hv := hr v (by simp)
    have hM0 : 0 ≤ M := (abs_nonneg v).trans (hM v (by simp))
    have hW : 0 ≤ hi - lo := by linarith
    have hN0 : (0 : K) ≤ N := by positivity
    have hE0 : 0 ≤ (N + 1) / 2 * (9 * u * M + 5 * η) := by positivity
    have hc : (run R xs).count = xs.length := by
      rw [(run_extremes R xs).1]; exact (run_inv xs).1
    have er : run R (xs ++ [v]) = add R (run R xs) v := by simp [run]
    have em := m2_add R (run R xs) v (by rw [hc]; exact hi' _ hl) (by rw [hc]; exact hi' _ (by omega))
    rw [hc] at em
    by_cases hx : xs = []
    · subst hx
      have : (run R ([] ++ [v])).m2 - Central 2 ([] ++ [v]) = 0 := by
        rw [er, em]
        simp [run, init, Central, Mean, R.zero]
      rw [this, abs_zero]
      positivity
    have ih := ih (by omega) hf' hr' hM'
    obtain ⟨hm1, hm2⟩ := C130_mean R xs hx hf' lo hi hr'
    obtain ⟨he1, he2⟩ := mean_range hx hr'
    have hmean := C134_mean hn hu0 hu he xs hx hf' (fun n h => hi' n (by omega)) M hM'
    have hlN : (xs.length : K) ≤ N := by exact_mod_cast (by omega : xs.length ≤ N)
    have hE : |(v - (run R xs).mean) - (v - Mean xs)| ≤ (N + 1) / 2 * (9 * u * M + 5 * η) := by
      have e : (v - (run R xs).mean) - (v - Mean xs) = -((run R xs).mean - xs.sum / xs.length) := by unfold Mean; ring
      rw [e, abs_neg]
      refine hmean.trans ?_
      gcongr
    have hterm := term_near (u := u) (W := hi - lo) (E := (N + 1) / 2 * (9 * u * M + 5 * η)) (δ := v - Mean xs)
      (d := R.rnd (v - (run R xs).mean)) (a := v - (run R xs).mean) (n := ((xs.length + 1 : ℕ) : K)) (k := (xs.length : K))
      (q := R.rnd (R.rnd (v - (run R xs).mean) / ((xs.length + 1 : ℕ) : K)))
      (p := R.rnd (R.rnd (v - (run R xs).mean) * R.rnd (R.rnd (v - (run R xs).mean) / ((xs.length + 1 : ℕ) : K))))
      (t := R.rnd (R.rnd (R.rnd (v - (run R xs).mean) * R.rnd (R.rnd (v - (run R xs).mean) / ((xs.length + 1 : ℕ) : K))) *
        (xs.length : K)))
      hu0 hu hW (by positivity) (by push_cast; linarith) (by positivity)
      (abs_le.2 ⟨by linarith, by linarith⟩) (abs_le.2 ⟨by linarith, by linarith⟩) hE
      (by
        have ha : |v - (run R xs).mean| ≤ hi - lo := abs_le.2 ⟨by linarith, by linarith⟩
        have := hn (v - (run R xs).mean)
        have := mul_le_mul_of_nonneg_left ha hu0
        linarith)
      ((hn _).trans (by gcongr)) ((hn _).trans (by gcongr)) ((hn _).trans (by gcongr))
    set t := R.rnd (R.rnd (R.rnd (v - (run R xs).mean) * R.rnd (R.rnd (v - (run R xs).mean) / ((xs.length + 1 : ℕ) : K))) *
        (xs.length : K))
    set δt := (v - Mean xs) * ((v - Mean xs) / ((xs.length + 1 : ℕ) : K)) * (xs.length : K) with hδt
    have hC : Central 2 (xs ++ [v]) = Central 2 xs + δt := central2_append hx v
    have hC0 : 0 ≤ Central 2 (xs ++ [v]) := central2_nonneg _
    have hCle : Central 2 (xs ++ [v]) ≤ N * (hi - lo) ^ 2 := by
      refine (central2_le hr).trans ?_
      have : ((xs ++ [v]).length : K) ≤ N := by exact_mod_cast (by simpa using hl)
      gcongr
    rw [er, em, hC]
    set W := hi - lo
    set E := (N + 1) / 2 * (9 * u * M + 5 * η)
    set m := (run R xs).m2
    set C := Central 2 xs
    set G := (1 + u) ^ xs.length * xs.length * (u * W ^ 2 * (27 + 7 * N) + 3 * W * E) with hG
    have hT : |t - δt| ≤ u * W ^ 2 * (26 + 6 * N) + 3 * W * E := by
      refine hterm.trans ?_
      gcongr
    have hsum : |(m + t) - (C + δt)| ≤ G + (u * W ^ 2 * (26 + 6 * N) + 3 * W * E) := by
      have e : (m + t) - (C + δt) = (m - C) + (t - δt) := by ring
      rw [e]
      exact (abs_add_le _ _).trans (add_le_add ih hT)
    have habs : |m + t| ≤ G + (u * W ^ 2 * (26 + 6 * N) + 3 * W * E) + N * W ^ 2 := by
      have h1 : |m + t| ≤ |(m + t) - (C + δt)| + |C + δt| := by simpa using abs_add_le ((m + t) - (C + δt)) (C + δt)
      have h2 : |C + δt| ≤ N * W ^ 2 := by
        rw [← hC, abs_of_nonneg hC0]; exact hCle
      linarith
    have hrnd := hn (m + t)
    have htot : |R.rnd (m + t) - (C + δt)| ≤ |R.rnd (m + t) - (m + t)| + |(m + t) - (C + δt)| := by
      have := abs_add_le (R.rnd (m + t) - (m + t)) ((m + t) - (C + δt)); rwa [sub_add_sub_cancel] at this
    have hpow : (1 : K) ≤ (1 + u) ^ xs.length := one_le_pow₀ (by linarith)
    have hfin : (1 + u) * (G + (u * W ^ 2 * (26 + 6 * N) + 3 * W * E)) + u * (N * W ^ 2) + u * W ^ 2 ≤
        (1 + u) * (G + (u * W ^ 2 * (27 + 7 * N) + 3 * W * E)) := by
      have : u * (N * W ^ 2) + u * W ^ 2 ≤ (1 + u) * (u * (N * W ^ 2) + u * W ^ 2) :=
        le_mul_of_one_le_left (by positivity) (by linarith)
      have e : (1 + u) * (G + (u * W ^ 2 * (27 + 7 * N) + 3 * W * E)) =
          (1 + u) * (G + (u * W ^ 2 * (26 + 6 * N) + 3 * W * E)) + (1 + u) * (u * (N * W ^ 2) + u * W ^ 2) := by ring
      rw [e, add_assoc]
      exact add_le_add le_rfl this
    have hgrow : (1 + u) * (G + (u * W ^ 2 * (27 + 7 * N) + 3 * W * E)) ≤
        (1 + u) ^ (xs ++ [v]).length * (xs ++ [v]).length * (u * W ^ 2 * (27 + 7 * N) + 3 * W * E) := by
      have hS : 0 ≤ u * W ^ 2 * (27 + 7 * N) + 3 * W * E := by positivity
      simp only [List.length_append, List.length_singleton, pow_succ, Nat.cast_add, Nat.cast_one, hG]
      have h3 : (u * W ^ 2 * (27 + 7 * N) + 3 * W * E) ≤ (1 + u) ^ xs.length * (u * W ^ 2 * (27 + 7 * N) + 3 * W * E) :=
        le_mul_of_one_le_left hS hpow
      have h4 := mul_le_mul_of_nonneg_left h3 (by linarith : (0 : K) ≤ 1 + u)
      linarith
    have hmul := mul_le_mul_of_nonneg_left habs hu0
    refine htot.trans (le_trans ?_ (hfin.trans hgrow))
    clear_value G E W m C t δt
    calc _ ≤ (u * (G + (u * W ^ 2 * (26 + 6 * N) + 3 * W * E) + N * W ^ 2) + u * W ^ 2) +
          (G + (u * W ^ 2 * (26 + 6 * N) + 3 * W * E)) :=
          add_le_add (hrnd.trans (add_le_add hmul hη2)) hsum
      _ = _ := by ring

/-- **C150**: the variance computed in floating point differs from the sample variance of the values by a small part of the
square of their spread and of the product of spread and size, growing with their number.  (`u` and `η` bound the error of one
operation, the spread is not tiny, and as many numbers as there are values are floats.) -/
theorem C150_variance {R : Rounding K} {u η : K} (hn : R.Near u η) (hu0 : 0 ≤ u) (hu : u ≤ 1 / 2) (he : 0 ≤ η) (xs : List K)
    (hx : 2 ≤ xs.length) (hf : ∀ x ∈ xs, R.Is x) (hi' : ∀ n : ℕ, n ≤ xs.length → R.Is (n : K)) (lo hi M : K)
    (hr : ∀ x ∈ xs, lo ≤ x ∧ x ≤ hi) (hM : ∀ x ∈ xs, |x| ≤ M) (hη : η ≤ u * (hi - lo)) (hη2 : η ≤ u * (hi - lo) ^ 2)
    (hηM : η ≤ u * M) :
    |variance R (run R xs) - SampleVariance xs| ≤
      (1 + u) ^ (xs.length + 1) * (xs.length * u) * ((hi - lo) ^ 2 * 44 + (hi - lo) * M * 63) := by
  have h := m2_near hn hu0 hu he xs.length hi' hη hη2 xs le_rfl hf hr hM
  have hc : (run R xs).count = xs.length := by
    rw [(run_extremes R xs).1]; exact (run_inv xs).1
  have hne : xs ≠ [] := by intro e; subst e; simp at hx
  obtain ⟨x0, hx0⟩ := List.exists_mem_of_ne_nil _ hne
  have hM0 : 0 ≤ M := (abs_nonneg x0).trans (hM x0 hx0)
  have hW : 0 ≤ hi - lo := by have := hr x0 hx0; linarith
  have hN : (2 : K) ≤ xs.length := by exact_mod_cast hx
  have hN1 : (0 : K) < (xs.length : K) - 1 := by linarith
  have ev : variance R (run R xs) = R.rnd ((run R xs).m2 / ((xs.length : K) - 1)) := by
    unfold variance
    rw [hc, if_neg (by omega)]
    have e : (((xs.length : ℤ) - 1 : ℤ) : K) = ((xs.length - 1 : ℕ) : K) := by
      rw [Nat.cast_sub (by omega)]; push_cast; rfl
    have e2 : ((xs.length - 1 : ℕ) : K) = (xs.length : K) - 1 := by
      rw [Nat.cast_sub (by omega)]; push_cast; rfl
    rw [e, hi' _ (by omega), e2]
  rw [ev]
  set N : K := (xs.length : K)
  set W := hi - lo
  set m := (run R xs).m2
  set P := (1 + u) ^ xs.length
  have hP : 1 ≤ P := one_le_pow₀ (by linarith)
  set S := u * W ^ 2 * (27 + 7 * N) + 3 * W * ((N + 1) / 2 * (9 * u * M + 5 * η)) with hS
  have hSle : S ≤ u * W ^ 2 * (27 + 7 * N) + 3 * W * ((N + 1) / 2 * (14 * (u * M))) := by
    rw [hS]
    have : 9 * u * M + 5 * η ≤ 14 * (u * M) := by linarith
    gcongr
  have hS0 : 0 ≤ S := by rw [hS]; positivity
  have hNN : N / (N - 1) ≤ 2 := by rw [div_le_iff₀ hN1]; linarith
  have hd : |m / (N - 1) - SampleVariance xs| ≤ P * 2 * S := by
    unfold SampleVariance
    rw [← sub_div, abs_div, abs_of_pos hN1]
    calc |m - Central 2 xs| / (N - 1) ≤ (P * N * S) / (N - 1) := by gcongr
      _ = P * (N / (N - 1)) * S := by ring
      _ ≤ P * 2 * S := by gcongr
  have hsv : |SampleVariance xs| ≤ 2 * W ^ 2 := by
    unfold SampleVariance
    rw [abs_div, abs_of_pos hN1, abs_of_nonneg (central2_nonneg xs)]
    calc Central 2 xs / (N - 1) ≤ (N * W ^ 2) / (N - 1) := by gcongr; exact central2_le hr
      _ = N / (N - 1) * W ^ 2 := by ring
      _ ≤ _ := by gcongr
  have hab : |m / (N - 1)| ≤ P * 2 * S + 2 * W ^ 2 := by
    have : |m / (N - 1)| ≤ |m / (N - 1) - SampleVariance xs| + |SampleVariance xs| := by
      simpa using abs_add_le (m / (N - 1) - SampleVariance xs) (SampleVariance xs)
    linarith
  have htot : |R.rnd (m / (N - 1)) - SampleVariance xs| ≤ |R.rnd (m / (N - 1)) - m / (N - 1)| + |m / (N - 1) - SampleVariance xs| := by
    have := abs_add_le (R.rnd (m / (N - 1)) - m / (N - 1)) (m / (N - 1) - SampleVariance xs); rwa [sub_add_sub_cancel] at this
  have hrnd := hn (m / (N - 1))
  have hmul := mul_le_mul_of_nonneg_left hab hu0
  have h1 : |R.rnd (m / (N - 1)) - SampleVariance xs| ≤ (1 + u) * (P * 2 * S) + 3 * (u * W ^ 2) := by linarith
  have hP2 : 1 ≤ P * (1 + u) := by nlinarith
  have h2 : 3 * (u * W ^ 2) ≤ (P * (1 + u)) * (3 * (u * W ^ 2)) := le_mul_of_one_le_left (by positivity) hP2
  have h3 : 2 * S + 3 * (u * W ^ 2) ≤ N * u * (W ^ 2 * 44 + W * M * 63) := by
    have a1 : 0 ≤ u * W ^ 2 * (N - 2) := mul_nonneg (by positivity) (by linarith)
    have a2 : 0 ≤ u * (W * M) * (N - 2) := mul_nonneg (by positivity) (by linarith)
    have a3 : 0 ≤ u * W ^ 2 := by positivity
    refine (add_le_add (mul_le_mul_of_nonneg_left hSle zero_le_two) le_rfl).trans ?_
    have e : N * u * (W ^ 2 * 44 + W * M * 63) =
        2 * (u * W ^ 2 * (27 + 7 * N) + 3 * W * ((N + 1) / 2 * (14 * (u * M)))) + 3 * (u * W ^ 2) +
          (30 * (u * W ^ 2 * (N - 2)) + 3 * (u * W ^ 2) + 21 * (u * (W * M) * (N - 2))) := by ring
    rw [e]
    exact le_add_of_nonneg_right (by positivity)
  have h4 := mul_le_mul_of_nonneg_left h3 (by linarith : 0 ≤ P * (1 + u))
  have e : (1 + u) ^ (xs.length + 1) = P * (1 + u) := pow_succ _ _
  rw [e]
  calc _ ≤ (1 + u) * (P * 2 * S) + 3 * (u * W ^ 2) := h1
    _ ≤ (1 + u) * (P * 2 * S) + (P * (1 + u)) * (3 * (u * W ^ 2)) := add_le_add le_rfl h2
    _ = (P * (1 + u)) * (2 * S + 3 * (u * W ^ 2)) := by ring
    _ ≤ _ := h4
    _ = _ := by ring

theorem one_add_pow_le_two {u : K} (hu0 : 0 ≤ u) (hu : u ≤ 1 / 2) (k : ℕ) (h : k * u ≤ 1 / 2) : (1 + u) ^ k ≤ 2 := by
  have h1 : 1 - k * u ≤ (1 - u) ^ k := by
    have := one_add_mul_le_pow (a := -u) (by linarith) k
    simpa [sub_eq_add_neg] using this
  have h2 : (1 + u) ^ k * (1 - u) ^ k ≤ 1 := by
    rw [← mul_pow]
    exact pow_le_one₀ (by nlinarith) (by nlinarith)
  have h3 : 1 / 2 ≤ (1 - u) ^ k := by linarith
  have h4 : 0 ≤ (1 + u) ^ k := by positivity
  nlinarith

/-- **C150** for doubles: with fewer than `2 ^ 52` values, spread over at least `2 ^ -511`. -/
theorem C150_double [FloorRing K] (xs : List K) (hx : 2 ≤ xs.length) (hl : xs.length < 2 ^ 52) (hf : ∀ x ∈ xs, binary64.Is x)
    (lo hi M : K) (hr : ∀ x ∈ xs, lo ≤ x ∧ x ≤ hi) (hM : ∀ x ∈ xs, |x| ≤ M) (hW : 2 ^ (-511 : ℤ) ≤ hi - lo)
    (hWM : hi - lo ≤ 2 * M) :
    |variance binary64 (run binary64 xs) - SampleVariance xs| ≤
      xs.length * 2 ^ (-53 : ℤ) * ((hi - lo) ^ 2 * 88 + (hi - lo) * M * 126) := by
  have hu : (2 : K) ^ (-53 : ℤ) ≤ 1 / 2 := by
    have : (2 : K) ^ (-53 : ℤ) ≤ 2 ^ (-1 : ℤ) := zpow_mono2 (by norm_num)
    rwa [zpow_neg_one, inv_eq_one_div] at this
  have hu0 : (0 : K) < 2 ^ (-53 : ℤ) := two_zpow_pos _
  have hW0 : (0 : K) < 2 ^ (-511 : ℤ) := two_zpow_pos _
  have hW' : 0 ≤ hi - lo := hW0.le.trans hW
  have hM0 : 0 ≤ M := by linarith
  have e1 : (2 : K) ^ (-1075 : ℤ) = 2 ^ (-53 : ℤ) * (2 ^ (-511 : ℤ)) ^ 2 := by
    rw [pow_two, ← zpow_add₀ two_ne_zero, ← zpow_add₀ two_ne_zero]; norm_num
  have e2 : (2 : K) ^ (-1075 : ℤ) ≤ 2 ^ (-53 : ℤ) * 2 ^ (-512 : ℤ) := by
    rw [← zpow_add₀ two_ne_zero]; exact zpow_mono2 (by norm_num)
  have e3 : (2 : K) ^ (-511 : ℤ) = 2 * 2 ^ (-512 : ℤ) := by
    rw [← zpow_one_add₀ two_ne_zero]; norm_num
  have h := C150_variance binary64_near hu0.le hu (two_zpow_pos _).le xs hx hf
    (fun n hn => by
      have := binary64_int (K := K) (k := n) (by
        rw [abs_of_nonneg (by positivity)]
        have : n ≤ 2 ^ 53 := by omega
        exact_mod_cast this)
      exact_mod_cast this)
    lo hi M hr hM
    (e2.trans (mul_le_mul_of_nonneg_left (by linarith [two_zpow_pos (K := K) (-512)]) hu0.le))
    (by rw [e1]; gcongr)
    (e2.trans (mul_le_mul_of_nonneg_left (by linarith) hu0.le))
  have hp := one_add_pow_le_two hu0.le hu (xs.length + 1) (by
    have h1 : ((xs.length + 1 : ℕ) : K) ≤ 2 ^ (52 : ℤ) := by
      have : xs.length + 1 ≤ 2 ^ 52 := by omega
      exact_mod_cast this
    calc ((xs.length + 1 : ℕ) : K) * 2 ^ (-53 : ℤ) ≤ 2 ^ (52 : ℤ) * 2 ^ (-53 : ℤ) := by gcongr
      _ = 1 / 2 := by rw [← zpow_add₀ two_ne_zero]; norm_num)
  refine h.trans ?_
  have h0 : 0 ≤ xs.length * (2 : K) ^ (-53 : ℤ) * ((hi - lo) ^ 2 * 44 + (hi - lo) * M * 63) := by positivity
  calc _ = (1 + 2 ^ (-53 : ℤ)) ^ (xs.length + 1) * (xs.length * (2 : K) ^ (-53 : ℤ) * ((hi - lo) ^ 2 * 44 + (hi - lo) * M * 63)) := by
        ring
    _ ≤ 2 * (xs.length * (2 : K) ^ (-53 : ℤ) * ((hi - lo) ^ 2 * 44 + (hi - lo) * M * 63)) := by gcongr
    _ = _ := by ring

/-- Three doubles far from zero and close to one another, whose sample variance is 7/3. -/
example : |variance binary64 (run binary64 [1000001, 1000002, (1000004 : ℚ)]) - 7 / 3| ≤
    3 * 2 ^ (-53 : ℤ) * (3 ^ 2 * 88 + 3 * 1000004 * 126) := by
  have := C150_double [1000001, 1000002, (1000004 : ℚ)] (by simp) (by simp) (by
    intro x hx
    simp only [List.mem_cons, List.not_mem_nil, or_false] at hx
    rcases hx with rfl | rfl | rfl <;> decide +kernel) 1000001 1000004 1000004 (by
    intro x hx
    simp only [List.mem_cons, List.not_mem_nil, or_false] at hx
    rcases hx with rfl | rfl | rfl <;> norm_num) (by
    intro x hx
    simp only [List.mem_cons, List.not_mem_nil, or_false] at hx
    rcases hx with rfl | rfl | rfl <;> norm_num [abs_of_pos]) (by
    have : (2 : ℚ) ^ (-511 : ℤ) ≤ 2 ^ (0 : ℤ) := zpow_mono2 (by norm_num)
    rw [zpow_zero] at this
    linarith) (by norm_num)
  have e : SampleVariance [1000001, 1000002, (1000004 : ℚ)] = 7 / 3 := by
    simp [SampleVariance, Central, Mean]; norm_num
  rw [e] at this
  refine this.trans (le_of_eq ?_)
  simp only [List.length_cons, List.length_nil]
  norm_num

end Verif.FltMom
