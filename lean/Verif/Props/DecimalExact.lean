import Verif.Props.Decimal
/-!
# C97: exactly which durations take nine columns
-/
namespace Verif.Dec

variable {K : Type*} [Field K] [LinearOrder K] [IsStrictOrderedRing K] [FloorRing K]

theorem rnd_lt_even {N : Int} (hN : N % 2 = 0) (y : K) : rnd y < N ↔ y < (N : K) - 1 / 2 := by
  constructor
  · intro h
    by_contra hc
    have hc : (N : K) - 1 / 2 ≤ y := not_lt.1 hc
    have h1 := rnd_mono hc
    have hf : ⌊(N : K) - 1 / 2⌋ = N - 1 := by
      rw [Int.floor_eq_iff]
      push_cast
      constructor <;> linarith
    have h2 : rnd ((N : K) - 1 / 2) = N := by
      unfold rnd
      simp only [hf]
      rw [if_neg (by push_cast; linarith), if_neg (by push_cast; linarith), if_neg (by omega)]
      omega
    omega
  · intro h
    have := (rnd_bounds y).1
    have h3 : (rnd y : K) < (N : K) := by linarith
    exact_mod_cast h3

theorem dec_length_iff (m : Nat) : ∀ n, (dec n).length ≤ m + 1 ↔ n < 10 ^ (m + 1) := by
  induction m with
  | zero =>
    intro n
    rw [dec]
    split
    · simp; omega
    · obtain ⟨c, s, h⟩ := dec_ne_nil (n / 10)
      rw [h]; simp; omega
  | succ m ih =>
    intro n
    rw [dec]
    split
    · have : 10 ≤ 10 ^ (m + 1 + 1) := by
        rw [Nat.pow_succ]; have : 0 < 10 ^ (m + 1) := Nat.pow_pos (by omega); omega
      simp; omega
    · have := ih (n / 10)
      rw [List.length_append, List.length_singleton, Nat.pow_succ]
      have e : n / 10 < 10 ^ (m + 1) ↔ n < 10 ^ (m + 1) * 10 := Nat.div_lt_iff_lt_mul (by omega)
      omega

theorem fixed_length_iff (k m : Nat) (x : K) :
    (fixed k x).length ≤ (if x < 0 then 1 else 0) + (m + 1) + 1 + k ↔ |x| < 10 ^ (m + 1) - 1 / 2 / 10 ^ k := by
  have hp := pow10_pos (K := K) k
  have hn := rnd_nonneg (x := |x| * 10 ^ k) (by positivity)
  have hl : (fixed k x).length = (if x < 0 then 1 else 0) + (dec ((rnd (|x| * 10 ^ k)).toNat / 10 ^ k)).length + 1 + k := by
    simp only [fixed, List.length_append, List.length_cons, Iso.pad_length]
    split <;> simp <;> omega
  have e1 : (fixed k x).length ≤ (if x < 0 then 1 else 0) + (m + 1) + 1 + k ↔
      (dec ((rnd (|x| * 10 ^ k)).toNat / 10 ^ k)).length ≤ m + 1 := by rw [hl]; omega
  rw [e1, dec_length_iff, Nat.div_lt_iff_lt_mul (Nat.pow_pos (by omega))]
  have e2 : (rnd (|x| * 10 ^ k)).toNat < 10 ^ (m + 1) * 10 ^ k ↔ rnd (|x| * 10 ^ k) < ((10 ^ (m + 1) * 10 ^ k : Nat) : Int) := by omega
  rw [e2, rnd_lt_even (K := K) (by
    have : (10 ^ (m + 1) * 10 ^ k) % 2 = 0 := by rw [Nat.pow_succ, Nat.mul_right_comm]; omega
    omega)]
  have e3 : (((10 ^ (m + 1) * 10 ^ k : Nat) : Int) : K) - 1 / 2 = (10 ^ (m + 1) - 1 / 2 / 10 ^ k) * 10 ^ k := by
    push_cast; field_simp
  rw [e3, mul_lt_mul_iff_left₀ hp]

/-- **C97**, the columns, exactly: `duration_auto` takes nine columns or more, and exactly nine for the durations that are not
rounded up to a thousand of their unit (from a thousand seconds on they are longer, too); for those below zero, that are not rounded
to a hundred microseconds or more. -/
theorem C97_width_exact (d : K) : 9 ≤ (showAuto d).length ∧ ((showAuto d).length = 9 ↔
    if d < 0 then |d| * 10 ^ 6 < 100 - 1 / 2 / 10 ^ 3
    else if d < 1 / 10 ^ 3 then d * 10 ^ 6 < 1000 - 1 / 2 / 10 ^ 3
    else if d < 1 then d * 10 ^ 3 < 1000 - 1 / 2 / 10 ^ 3
    else d < 1000 - 1 / 2 / 10 ^ 4) := by
  have key : ∀ s : List Nat, 9 ≤ (right9 s).length ∧ ((right9 s).length = 9 ↔ s.length ≤ 9) := by
    intro s; simp only [right9, List.length_append, List.length_replicate]; omega
  refine ⟨(key _).1, ?_⟩
  rw [showAuto, (key _).2]
  unfold durationAuto
  by_cases h0 : d < 0
  · have hd : d < 1 / 10 ^ 3 := h0.trans (by positivity)
    have h0' : d * 10 ^ 6 < 0 := mul_neg_of_neg_of_pos h0 (by positivity)
    have := fixed_length_iff 3 1 (d * 10 ^ 6)
    rw [if_pos h0', abs_mul, abs_of_pos (show (0 : K) < 10 ^ 6 by positivity)] at this
    rw [if_pos h0, if_pos hd, List.length_append]
    have e : (100 : K) = 10 ^ (1 + 1) := by norm_num
    rw [e, ← this]
    simp only [List.length_cons, List.length_nil]
    omega
  · rw [if_neg h0]
    have h0 : 0 ≤ d := not_lt.1 h0
    have e : (1000 : K) = 10 ^ (2 + 1) := by norm_num
    have g : ∀ (k j : Nat), (fixed k (d * 10 ^ j)).length ≤ 4 + k ↔ d * 10 ^ j < 1000 - 1 / 2 / 10 ^ k := by
      intro k j
      have hj : 0 ≤ d * 10 ^ j := by positivity
      have := fixed_length_iff k 2 (d * 10 ^ j)
      rw [if_neg (not_lt.2 hj), abs_of_nonneg hj, ← e] at this
      rw [← this]
    split
    · rw [← g 3 6, List.length_append]; simp only [List.length_cons, List.length_nil]; omega
    · split
      · rw [← g 3 3, List.length_append]; simp only [List.length_cons, List.length_nil]; omega
      · have := g 4 0
        rw [pow_zero, mul_one] at this
        rw [← this, List.length_append]; simp only [List.length_cons, List.length_nil]; omega

example : (showAuto (999 / 10 : ℚ)).length = 9 := (C97_width_exact _).2.2 (by norm_num)
example : (showAuto (-1 / 20000 : ℚ)).length = 9 := (C97_width_exact _).2.2 (by norm_num [abs_of_neg])
example : (showAuto (9999999 / 10000000 : ℚ)).length ≠ 9 := fun h => by
  have := (C97_width_exact _).2.1 h
  norm_num at this

end Verif.Dec
