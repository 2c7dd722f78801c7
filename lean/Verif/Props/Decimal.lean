import Verif.Model.Decimal
import Verif.Props.Iso
import Verif.Spec.Decimal
import Mathlib.Tactic.Linarith
import Mathlib.Tactic.NormNum
import Mathlib.Tactic.FieldSimp
import Mathlib.Tactic.Ring
import Mathlib.Tactic.SplitIfs
import Mathlib.Algebra.Order.Ring.Rat
import Mathlib.Data.Rat.Floor
/-!
# C97: durations are shown right to the last digit
-/
namespace Verif.Dec

open Verif.Spec.Dec
open Verif.Iso (pad)

variable {K : Type*} [Field K] [LinearOrder K] [IsStrictOrderedRing K] [FloorRing K]

theorem rnd_bounds (x : K) : (rnd x : K) ≤ x + 1 / 2 ∧ x ≤ (rnd x : K) + 1 / 2 := by
  have h1 := Int.floor_le x
  have h2 := Int.lt_floor_add_one x
  unfold rnd
  dsimp only
  split
  · constructor <;> linarith
  · split
    · push_cast; constructor <;> linarith
    · split
      · constructor <;> linarith
      · push_cast; constructor <;> linarith

theorem rnd_floor (x : K) : ⌊x⌋ ≤ rnd x ∧ rnd x ≤ ⌊x⌋ + 1 := by
  unfold rnd; dsimp only; split
  · omega
  · split
    · omega
    · split <;> omega

theorem rnd_mono {x y : K} (h : x ≤ y) : rnd x ≤ rnd y := by
  have hf : ⌊x⌋ ≤ ⌊y⌋ := Int.floor_le_floor h
  rcases lt_or_eq_of_le hf with h1 | h1
  · have := rnd_floor x; have := rnd_floor y; omega
  · unfold rnd
    dsimp only
    rw [h1]
    have h2 : x - ⌊y⌋ ≤ y - ⌊y⌋ := by linarith
    generalize x - (⌊y⌋ : K) = a at *
    generalize y - (⌊y⌋ : K) = b at *
    split_ifs <;> first | omega | (exfalso; linarith)

theorem rnd_int (n : Int) : rnd (n : K) = n := by
  unfold rnd
  simp

theorem rnd_nonneg {x : K} (h : 0 ≤ x) : 0 ≤ rnd x := by
  have := rnd_mono h
  have e := rnd_int (K := K) 0
  rw [Int.cast_zero] at e
  omega

/-! ## Digits -/

theorem foldl_pad (k : Nat) : ∀ (n v : Nat), (pad k n).foldl (fun v c => 10 * v + (c - 48)) v = v * 10 ^ k + n % 10 ^ k := by
  induction k with
  | zero => intro n v; simp [pad, Nat.mod_one]
  | succ k ih =>
    intro n v
    simp only [pad, List.foldl_append, ih, List.foldl_cons, List.foldl_nil]
    have : n % 10 ^ (k + 1) = 10 * (n / 10 % 10 ^ k) + n % 10 := by
      rw [Nat.pow_succ, Nat.mul_comm (10 ^ k) 10, Nat.mod_mul]; omega
    rw [this, Nat.pow_succ]
    have : v * (10 ^ k * 10) = 10 * (v * 10 ^ k) := by ring
    omega

theorem digits_dec (n : Nat) : digits (dec n) = n := by
  induction n using Nat.strongRecOn with
  | ind n ih =>
    rw [dec]
    split
    · simp [digits]
    · have := ih (n / 10) (by omega)
      simp only [digits, List.foldl_append, List.foldl_cons, List.foldl_nil] at this ⊢
      rw [this]; omega

theorem digits_dec_pad (k n : Nat) : digits (dec (n / 10 ^ k) ++ pad k (n % 10 ^ k)) = n := by
  have := digits_dec (n / 10 ^ k)
  unfold digits at this ⊢
  rw [List.foldl_append, this, foldl_pad, Nat.mod_mod, Nat.mul_comm]
  exact Nat.div_add_mod n (10 ^ k)

/-- The characters of digits. -/
def IsDigit (c : Nat) : Prop := 48 ≤ c ∧ c ≤ 57

theorem pad_digits (k : Nat) : ∀ n, ∀ c ∈ pad k n, IsDigit c := by
  induction k with
  | zero => intro n c h; simp [pad] at h
  | succ k ih =>
    intro n c h
    simp only [pad, List.mem_append, List.mem_singleton] at h
    rcases h with h | rfl
    · exact ih _ _ h
    · unfold IsDigit; omega

theorem dec_digits (n : Nat) : ∀ c ∈ dec n, IsDigit c := by
  induction n using Nat.strongRecOn with
  | ind n ih =>
    intro c h
    rw [dec] at h
    split at h
    · simp only [List.mem_singleton] at h; subst h; unfold IsDigit; omega
    · simp only [List.mem_append, List.mem_singleton] at h
      rcases h with h | rfl
      · exact ih _ (by omega) c h
      · unfold IsDigit; omega

theorem dec_ne_nil (n : Nat) : ∃ c s, dec n = c :: s := by
  rw [dec]; split
  · exact ⟨_, _, rfl⟩
  · cases h : dec (n / 10) with
    | nil => exact ⟨_, [], rfl⟩
    | cons c s => exact ⟨c, s ++ [48 + n % 10], rfl⟩

theorem unsigned_text (k n : Nat) : unsigned (K := K) (dec (n / 10 ^ k) ++ 46 :: pad k (n % 10 ^ k)) = (n : K) / 10 ^ k := by
  have hd : ∀ c ∈ dec (n / 10 ^ k), decide (c ≠ 46) = true := by
    intro c h; have := dec_digits _ c h; unfold IsDigit at this; simp; omega
  unfold unsigned
  simp only [List.takeWhile_append_of_pos hd, List.dropWhile_append_of_pos hd]
  simp only [ne_eq, not_true_eq_false, decide_false, List.takeWhile_cons, List.dropWhile_cons, Bool.false_eq_true, if_false,
    List.append_nil, List.drop_succ_cons, List.drop_zero, digits_dec_pad, Iso.pad_length]

theorem number_fixed (k : Nat) (x : K) : number (fixed k x) =
    if x < 0 then -(((rnd (|x| * 10 ^ k)).toNat : K) / 10 ^ k) else ((rnd (|x| * 10 ^ k)).toNat : K) / 10 ^ k := by
  unfold fixed
  dsimp only
  by_cases h : x < 0
  · rw [if_pos h, if_pos h]
    simp only [List.cons_append, List.nil_append, number, unsigned_text]
  · rw [if_neg h, if_neg h, List.nil_append]
    obtain ⟨c, s, e⟩ := dec_ne_nil ((rnd (|x| * 10 ^ k)).toNat / 10 ^ k)
    have hc := dec_digits _ c (by rw [e]; simp)
    rw [← unsigned_text, e, List.cons_append]
    unfold number
    split
    · rename_i heq
      simp only [List.cons.injEq] at heq
      unfold IsDigit at hc; omega
    · rfl

theorem cast_toNat {n : Int} (h : 0 ≤ n) : ((n.toNat : Nat) : K) = (n : K) := by
  rw [← Int.cast_natCast, Int.toNat_of_nonneg h]

theorem pow10_pos (k : Nat) : (0 : K) < 10 ^ k := by positivity

/-- **C97.**  A number shown with `k` decimals is off by at most half a unit of the last one. -/
theorem C97_fixed (k : Nat) (x : K) : |number (fixed k x) - x| ≤ 1 / 2 / 10 ^ k := by
  have hp := pow10_pos (K := K) k
  have hx : 0 ≤ |x| * 10 ^ k := by positivity
  have hn := rnd_nonneg hx
  obtain ⟨h1, h2⟩ := rnd_bounds (|x| * 10 ^ k)
  rw [number_fixed, cast_toNat hn]
  generalize (rnd (|x| * 10 ^ k) : K) = r at *
  have key : |r / 10 ^ k - (|x|)| ≤ 1 / 2 / 10 ^ k := by
    rw [show r / 10 ^ k - (|x|) = (r - |x| * 10 ^ k) / 10 ^ k by field_simp, abs_div, abs_of_pos hp]
    apply div_le_div_of_nonneg_right _ hp.le
    rw [abs_le]; constructor <;> linarith
  by_cases h : x < 0
  · rw [if_pos h]
    rw [abs_of_neg h] at key
    rw [← abs_neg]
    convert key using 2
    ring
  · rw [if_neg h]
    rwa [abs_of_nonneg (not_lt.1 h)] at key

/-- C97: a number half-way between two that can be shown is shown as the one with the even last digit. -/
theorem C97_tie (k m : Nat) (x : K) (hx : |x| * 10 ^ k = m + 1 / 2) :
    ∃ j : Nat, |number (K := K) (fixed k x)| * 10 ^ k = 2 * j := by
  have hp := pow10_pos (K := K) k
  have hf : ⌊|x| * 10 ^ k⌋ = (m : Int) := by
    rw [hx, Int.floor_eq_iff]
    constructor <;> push_cast <;> norm_num
  have hr : ∃ j : Nat, rnd (|x| * 10 ^ k) = ((2 * j : Nat) : Int) := by
    unfold rnd
    simp only [hf]
    rw [if_neg (by rw [hx]; push_cast; norm_num), if_neg (by rw [hx]; push_cast; norm_num)]
    by_cases he : (m : Int) % 2 = 0
    · rw [if_pos he]; exact ⟨m / 2, by omega⟩
    · rw [if_neg he]; exact ⟨(m + 1) / 2, by omega⟩
  obtain ⟨j, hj⟩ := hr
  refine ⟨j, ?_⟩
  rw [number_fixed, hj]
  have : |(((2 * j : Nat) : Int).toNat : K) / 10 ^ k| * 10 ^ k = 2 * j := by
    rw [Int.toNat_natCast, abs_of_nonneg (by positivity), div_mul_cancel₀ _ (ne_of_gt hp)]
    push_cast; ring
  split
  · rw [abs_neg]; exact this
  · exact this

/-- An eighth with two decimals: 0.12. -/
example : |(1 / 8 : ℚ)| * 10 ^ 2 = (12 : Nat) + 1 / 2 ∧ fixed 2 (1 / 8 : ℚ) = [48, 46, 49, 50] := by
  constructor
  · norm_num
  · have h : rnd (|(1 / 8 : ℚ)| * 10 ^ 2) = 12 := by
      have : ⌊|(1 / 8 : ℚ)| * 10 ^ 2⌋ = 12 := by rw [Int.floor_eq_iff]; norm_num
      unfold rnd; simp only [this]; norm_num
    unfold fixed
    simp only [h]
    norm_num
    decide +kernel

/-- C97: `duration_s`, `duration_ms` and `duration_us` are off by at most half a thousandth of their unit, `import_delta_s` and
`import_delta_ms` by at most half a millionth of a second and half a ten-thousandth of a millisecond. -/
theorem C97_fields (d : K) :
    |number (showS d) - d| ≤ 1 / 2000 ∧ |number (showMs d) - d * 1000| ≤ 1 / 2000 ∧
    |number (showUs d) - d * 1000000| ≤ 1 / 2000 ∧
    |number (importS d) - d| ≤ 1 / 2000000 ∧ |number (importMs d) - d * 1000| ≤ 1 / 20000 := by
  have h1 := C97_fixed 3 d
  have h2 := C97_fixed 3 (d * 10 ^ 3)
  have h3 := C97_fixed 3 (d * 10 ^ 6)
  have h4 := C97_fixed 6 d
  have h5 := C97_fixed 4 (d * 1000)
  unfold showS showMs showUs importS importMs
  norm_num at *
  exact ⟨h1, h2, h3, h4, h5⟩

theorem number_mono (k : Nat) {x y : K} (h : x ≤ y) : number (K := K) (fixed k x) ≤ number (fixed k y) := by
  have hp := pow10_pos (K := K) k
  have nx := rnd_nonneg (x := |x| * 10 ^ k) (by positivity)
  have ny := rnd_nonneg (x := |y| * 10 ^ k) (by positivity)
  rw [number_fixed, number_fixed, cast_toNat nx, cast_toNat ny]
  have px : (0 : K) ≤ (rnd (|x| * 10 ^ k) : K) / 10 ^ k := div_nonneg (by exact_mod_cast nx) hp.le
  have py : (0 : K) ≤ (rnd (|y| * 10 ^ k) : K) / 10 ^ k := div_nonneg (by exact_mod_cast ny) hp.le
  by_cases hx : x < 0
  · rw [if_pos hx]
    by_cases hy : y < 0
    · rw [if_pos hy, neg_le_neg_iff]
      apply div_le_div_of_nonneg_right _ hp.le
      rw [abs_of_neg hx, abs_of_neg hy]
      exact_mod_cast rnd_mono (mul_le_mul_of_nonneg_right (by linarith) hp.le)
    · rw [if_neg hy]; linarith
  · have hy : ¬y < 0 := by linarith
    rw [if_neg hx, if_neg hy]
    apply div_le_div_of_nonneg_right _ hp.le
    rw [abs_of_nonneg (not_lt.1 hx), abs_of_nonneg (not_lt.1 hy)]
    exact_mod_cast rnd_mono (mul_le_mul_of_nonneg_right h hp.le)

/-- A whole number is shown as it is. -/
theorem number_nat (k n : Nat) : number (K := K) (fixed k (n : K)) = n := by
  have hp := pow10_pos (K := K) k
  have h0 : ¬((n : K) < 0) := not_lt.2 (Nat.cast_nonneg n)
  rw [number_fixed, if_neg h0, abs_of_nonneg (not_lt.1 h0)]
  have : (n : K) * 10 ^ k = (((n * 10 ^ k : Nat) : Int) : K) := by push_cast; ring
  rw [this, rnd_int, Int.toNat_natCast]
  push_cast
  field_simp

/-! ## Units -/

theorem fixed_chars (k : Nat) (x : K) : ∀ c ∈ fixed k x, c < 97 ∧ c ≠ 32 := by
  intro c h
  simp only [fixed, List.mem_append, List.mem_cons] at h
  rcases h with h | h | rfl | h
  · split at h
    · simp at h; omega
    · simp at h
  · have := dec_digits _ c h; unfold IsDigit at this; omega
  · omega
  · have := pad_digits _ _ c h; unfold IsDigit at this; omega

theorem fixed_ne_nil (k : Nat) (x : K) : fixed k x ≠ [] := by simp [fixed]

theorem span_right9 (k : Nat) (x : K) (c : Nat) (hc : 97 ≤ c) (u : List Nat) :
    span (right9 (fixed k x ++ c :: u)) = (unit (c :: u)).map (number (K := K) (fixed k x) * ·) := by
  have hf := fixed_chars k x
  have hne := fixed_ne_nil k x
  unfold right9 span
  have h1 : (List.replicate (9 - (fixed k x ++ c :: u).length) 32 ++ (fixed k x ++ c :: u)).dropWhile (fun a => decide (a = 32)) =
      fixed k x ++ c :: u := by
    rw [List.dropWhile_append_of_pos (by intro a ha; simp [List.eq_of_mem_replicate ha])]
    generalize fixed k x = s at *
    cases s with
    | nil => exact absurd rfl hne
    | cons a s =>
      rw [List.cons_append, List.dropWhile_cons, if_neg]
      have := (hf a (by simp)).2
      simpa using this
  dsimp only
  rw [h1]
  have h2 : ∀ a ∈ fixed k x, decide (a < 97) = true := by intro a ha; simpa using (hf a ha).1
  rw [List.dropWhile_append_of_pos h2, List.takeWhile_append_of_pos h2, List.dropWhile_cons, List.takeWhile_cons]
  simp only [show ¬c < 97 by omega, decide_false, Bool.false_eq_true, if_false, List.append_nil]

/-- What `duration_auto` shows, read back. -/
theorem span_showAuto (d : K) : span (K := K) (showAuto d) = some
    (if d < 1 / 10 ^ 3 then number (fixed 3 (d * 10 ^ 6)) * (1 / 10 ^ 6)
     else if d < 1 then number (fixed 3 (d * 10 ^ 3)) * (1 / 10 ^ 3) else number (fixed 4 d)) := by
  unfold showAuto durationAuto
  by_cases h1 : d < 1 / 10 ^ 3
  · rw [if_pos h1, if_pos h1, span_right9 _ _ _ (by omega)]; rfl
  · rw [if_neg h1, if_neg h1]
    by_cases h2 : d < 1
    · rw [if_pos h2, if_pos h2, span_right9 _ _ _ (by omega)]; rfl
    · rw [if_neg h2, if_neg h2, span_right9 _ _ _ (by omega)]
      simp [unit]

/-- **C97.**  `duration_auto` can be read back, unit and all, and is off by at most half a nanosecond below a millisecond, half
a microsecond below a second, and 50 microseconds above. -/
theorem C97_auto (d : K) : ∃ v : K, span (showAuto d) = some v ∧
    |v - d| ≤ 1 / 2 / 10 ^ (if d < 1 / 10 ^ 3 then 9 else if d < 1 then 6 else 4) := by
  refine ⟨_, span_showAuto d, ?_⟩
  by_cases h1 : d < 1 / 10 ^ 3
  · rw [if_pos h1, if_pos h1]
    have := C97_fixed 3 (d * 10 ^ 6)
    rw [abs_le] at this ⊢
    norm_num at this ⊢
    constructor <;> linarith
  · rw [if_neg h1, if_neg h1]
    by_cases h2 : d < 1
    · rw [if_pos h2, if_pos h2]
      have := C97_fixed 3 (d * 10 ^ 3)
      rw [abs_le] at this ⊢
      norm_num at this ⊢
      constructor <;> linarith
    · rw [if_neg h2, if_neg h2]
      exact C97_fixed 4 d

/-- C97: of two durations the longer one is never shown as the shorter one, even in different units. -/
theorem C97_mono {d e : K} (h : d ≤ e) : ∃ v w : K, span (showAuto d) = some v ∧ span (showAuto e) = some w ∧ v ≤ w := by
  refine ⟨_, _, span_showAuto d, span_showAuto e, ?_⟩
  have us : ∀ x : K, x < 1 / 10 ^ 3 → number (fixed 3 (x * 10 ^ 6)) * (1 / 10 ^ 6) ≤ (1 / 10 ^ 3 : K) := by
    intro x hx
    have := number_mono 3 (x := x * 10 ^ 6) (y := ((1000 : Nat) : K)) (by push_cast; linarith)
    rw [number_nat] at this
    push_cast at this; norm_num at this hx ⊢; linarith
  have ms : ∀ x : K, x < 1 → number (fixed 3 (x * 10 ^ 3)) * (1 / 10 ^ 3) ≤ (1 : K) := by
    intro x hx
    have := number_mono 3 (x := x * 10 ^ 3) (y := ((1000 : Nat) : K)) (by push_cast; linarith)
    rw [number_nat] at this
    push_cast at this; norm_num at this hx ⊢; linarith
  have ms' : ∀ x : K, ¬x < 1 / 10 ^ 3 → (1 / 10 ^ 3 : K) ≤ number (fixed 3 (x * 10 ^ 3)) * (1 / 10 ^ 3) := by
    intro x hx
    have := number_mono 3 (x := ((1 : Nat) : K)) (y := x * 10 ^ 3) (by push_cast; linarith)
    rw [number_nat] at this
    push_cast at this; norm_num at this hx ⊢; linarith
  have s' : ∀ x : K, ¬x < 1 → (1 : K) ≤ number (fixed 4 x) := by
    intro x hx
    have := number_mono 4 (x := ((1 : Nat) : K)) (y := x) (by push_cast; linarith)
    rw [number_nat] at this
    push_cast at this; norm_num at this hx ⊢; linarith
  by_cases d1 : d < 1 / 10 ^ 3
  · rw [if_pos d1]
    by_cases e1 : e < 1 / 10 ^ 3
    · rw [if_pos e1]
      have := number_mono 3 (x := d * 10 ^ 6) (y := e * 10 ^ 6) (by linarith)
      exact mul_le_mul_of_nonneg_right this (by positivity)
    · rw [if_neg e1]
      have := us d d1
      by_cases e2 : e < 1
      · rw [if_pos e2]; exact this.trans (ms' e e1)
      · rw [if_neg e2]; have := s' e e2; linarith
  · rw [if_neg d1, if_neg (show ¬e < 1 / 10 ^ 3 by intro hc; exact d1 (by linarith))]
    by_cases d2 : d < 1
    · rw [if_pos d2]
      by_cases e2 : e < 1
      · rw [if_pos e2]
        have := number_mono 3 (x := d * 10 ^ 3) (y := e * 10 ^ 3) (by linarith)
        exact mul_le_mul_of_nonneg_right this (by positivity)
      · rw [if_neg e2]; exact (ms d d2).trans (s' e e2)
    · rw [if_neg d2, if_neg (show ¬e < 1 by intro hc; exact d2 (by linarith))]
      exact number_mono 4 h

/-! ## Columns -/

theorem dec_length {n : Nat} (h : n < 1000) : (dec n).length ≤ 3 := by
  rw [dec]; split
  · simp
  · rw [dec]; split
    · simp
    · rw [dec, if_pos (by omega)]; simp

theorem fixed_length (k : Nat) {x : K} (h0 : 0 ≤ x) (h : x < 1000 - 1 / 2 / 10 ^ k) : (fixed k x).length ≤ 4 + k := by
  have hp := pow10_pos (K := K) k
  have hn := rnd_nonneg (x := |x| * 10 ^ k) (by positivity)
  have hb := (rnd_bounds (|x| * 10 ^ k)).1
  rw [abs_of_nonneg h0] at hb hn
  have h1 : x * 10 ^ k < (1000 - 1 / 2 / 10 ^ k) * 10 ^ k := mul_lt_mul_of_pos_right h hp
  have h2 : (1000 - 1 / 2 / 10 ^ k) * 10 ^ k = (1000 * 10 ^ k - 1 / 2 : K) := by field_simp
  rw [h2] at h1
  have h3 : (rnd (x * 10 ^ k) : K) < ((1000 * 10 ^ k : Nat) : Int) := by push_cast; linarith
  have h3 := Int.cast_lt.1 h3
  have h4 : (rnd (x * 10 ^ k)).toNat < 1000 * 10 ^ k := by omega
  have h5 : (rnd (x * 10 ^ k)).toNat / 10 ^ k < 1000 := Nat.div_lt_of_lt_mul (by rw [Nat.mul_comm]; exact h4)
  have := dec_length h5
  simp only [fixed, abs_of_nonneg h0, if_neg (not_lt.2 h0), List.nil_append, List.length_append, List.length_cons, Iso.pad_length]
  omega

/-- C97: `duration_auto` takes nine columns, from zero to a thousand seconds, for all but those durations that are rounded up
to a thousand of their unit. -/
theorem C97_width_partial {d : K} (h0 : 0 ≤ d) (h1 : d < 1 / 10 ^ 3 → d * 10 ^ 6 < 1000 - 1 / 2 / 10 ^ 3)
    (h2 : d < 1 → d * 10 ^ 3 < 1000 - 1 / 2 / 10 ^ 3) (h3 : d < 1000 - 1 / 2 / 10 ^ 4) : (showAuto d).length = 9 := by
  have key : ∀ s : List Nat, s.length ≤ 9 → (right9 s).length = 9 := by intro s h; simp [right9]; omega
  unfold showAuto durationAuto
  split
  · rename_i h
    have := fixed_length 3 (x := d * 10 ^ 6) (by positivity) (h1 h)
    exact key _ (by simp; omega)
  · split
    · rename_i h
      have := fixed_length 3 (x := d * 10 ^ 3) (by positivity) (h2 h)
      exact key _ (by simp; omega)
    · have := fixed_length 4 h0 h3
      exact key _ (by simp; omega)

/-- C97 fails of the columns: a duration just below a millisecond is shown as a thousand microseconds, in ten columns. -/
theorem C97_width_violated :
    showAuto (9999996 / 10000000000 : ℚ) = "1000.000us".toList.map Char.toNat ∧
    (showAuto (9999996 / 10000000000 : ℚ)).length = 10 := by decide +kernel

example : showAuto (123456 / 1000000000 : ℚ) = "123.456us".toList.map Char.toNat := by decide +kernel
example : showAuto (1 / 3 : ℚ) = "333.333ms".toList.map Char.toNat := by decide +kernel
example : showAuto (25 / 2 : ℚ) = " 12.5000s".toList.map Char.toNat := by decide +kernel
example : showAuto (-1 : ℚ) = "-1000000.000us".toList.map Char.toNat := by decide +kernel
example : showMs (1 / 3 : ℚ) = "333.333".toList.map Char.toNat ∧ showS (2 / 3 : ℚ) = "0.667".toList.map Char.toNat := by
  decide +kernel
example : (showAuto (1 / 3 : ℚ)).length = 9 :=
  C97_width_partial (by norm_num) (by norm_num) (by norm_num) (by norm_num)

example := C97_mono (d := (1 / 3 : ℚ)) (e := 25 / 2) (by norm_num)

end Verif.Dec
