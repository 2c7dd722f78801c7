import Verif.Model.Float
import Mathlib.Tactic.Linarith
import Mathlib.Tactic.Ring
import Mathlib.Tactic.Positivity
import Mathlib.Tactic.NormNum
import Mathlib.Tactic.FieldSimp
/-!
# Rounding to binary floating point is a `Rounding`
-/
namespace Verif.Flt

variable {K : Type} [Field K] [LinearOrder K] [IsStrictOrderedRing K]

theorem Rounding.zero (R : Rounding K) : R.rnd 0 = 0 := by
  have h := R.neg 0
  rw [neg_zero] at h
  linarith

theorem Rounding.nonneg (R : Rounding K) {x : K} (h : 0 ≤ x) : 0 ≤ R.rnd x := by
  rw [← R.zero]; exact R.mono h

theorem Rounding.nonpos (R : Rounding K) {x : K} (h : x ≤ 0) : R.rnd x ≤ 0 := by
  rw [← R.zero]; exact R.mono h

/-- Rounding moves numbers by at most a part `u` of them, and `η`. -/
def Rounding.Near (R : Rounding K) (u η : K) : Prop := ∀ x, |R.rnd x - x| ≤ u * |x| + η

theorem Rounding.is_rnd (R : Rounding K) (x : K) : R.Is (R.rnd x) := R.idem x

/-- From one float part of the way to another, by at most half: the result is between them. -/
theorem Rounding.toward_up (R : Rounding K) {a b m : K} (ha : R.Is a) (hb : R.Is b) (hab : a ≤ b) (hm : 2 ≤ m) :
    a ≤ R.rnd (a + R.rnd (R.rnd (b - a) / m)) ∧ R.rnd (a + R.rnd (R.rnd (b - a) / m)) ≤ b := by
  have h0 : 0 ≤ R.rnd (b - a) := R.nonneg (by linarith)
  have h1 : 0 ≤ R.rnd (R.rnd (b - a) / m) := R.nonneg (div_nonneg h0 (by linarith))
  have h2 : R.rnd (R.rnd (b - a) / m) ≤ b - a := by
    refine le_trans (R.mono ?_) (R.half (by linarith : 0 ≤ b - a))
    exact div_le_div_of_nonneg_left h0 (by norm_num) hm
  constructor
  · calc a = R.rnd a := ha.symm
      _ ≤ _ := R.mono (by linarith)
  · calc R.rnd (a + R.rnd (R.rnd (b - a) / m)) ≤ R.rnd b := R.mono (by linarith)
      _ = b := hb

theorem Rounding.toward_down (R : Rounding K) {a b m : K} (ha : R.Is a) (hb : R.Is b) (hab : b ≤ a) (hm : 2 ≤ m) :
    b ≤ R.rnd (a + R.rnd (R.rnd (b - a) / m)) ∧ R.rnd (a + R.rnd (R.rnd (b - a) / m)) ≤ a := by
  have h := R.toward_up (a := -a) (b := -b) (m := m) (by rw [Rounding.Is, R.neg, ha]) (by rw [Rounding.Is, R.neg, hb])
    (by linarith) hm
  have e : R.rnd (-a + R.rnd (R.rnd (-b - -a) / m)) = -R.rnd (a + R.rnd (R.rnd (b - a) / m)) := by
    rw [← R.neg, show -b - -a = -(b - a) by ring, R.neg, neg_div, R.neg, neg_add]
  rw [e] at h
  exact ⟨by linarith [h.2], by linarith [h.1]⟩

section
variable [FloorRing K]

theorem rne_int (k : ℤ) : rne (k : K) = k := by
  simp [rne]

theorem rne_le (x : K) : (rne x : K) ≤ x + 1 / 2 := by
  have h1 := Int.floor_add_fract x
  have h2 := Int.fract_nonneg x
  unfold rne
  split
  · linarith
  · split
    · push_cast; linarith
    · split
      · linarith
      · push_cast; linarith

theorem le_rne (x : K) : x - 1 / 2 ≤ (rne x : K) := by
  have h1 := Int.floor_add_fract x
  have h2 := Int.fract_lt_one x
  unfold rne
  split
  · linarith
  · split
    · push_cast; linarith
    · split
      · linarith
      · push_cast; linarith

theorem floor_le_rne (x : K) : ⌊x⌋ ≤ rne x := by
  unfold rne; split <;> [skip; (split <;> [skip; split])] <;> omega

theorem rne_le_floor (x : K) : rne x ≤ ⌊x⌋ + 1 := by
  unfold rne; split <;> [skip; (split <;> [skip; split])] <;> omega

theorem rne_mono {x y : K} (h : x ≤ y) : rne x ≤ rne y := by
  have hf : ⌊x⌋ ≤ ⌊y⌋ := Int.floor_le_floor h
  rcases lt_or_eq_of_le hf with hlt | heq
  · exact (rne_le_floor x).trans (le_trans hlt (floor_le_rne y))
  · have hfr : Int.fract x ≤ Int.fract y := by
      unfold Int.fract; rw [heq]; linarith
    by_cases h1 : Int.fract x < 1 / 2
    · have : rne x = ⌊x⌋ := by unfold rne; rw [if_pos h1]
      rw [this, heq]; exact floor_le_rne y
    · by_cases h2 : 1 / 2 < Int.fract y
      · have : rne y = ⌊y⌋ + 1 := by unfold rne; rw [if_neg (by linarith), if_pos h2]
        rw [this, ← heq]; exact rne_le_floor x
      · have hx : ¬ 1 / 2 < Int.fract x := by intro h3; exact h2 (lt_of_lt_of_le h3 hfr)
        have hy : ¬ Int.fract y < 1 / 2 := by intro h3; exact h1 (lt_of_le_of_lt hfr h3)
        unfold rne
        rw [if_neg h1, if_neg hx, if_neg hy, if_neg h2, heq]

theorem fract_neg' (x : K) (h : Int.fract x ≠ 0) : Int.fract (-x) = 1 - Int.fract x ∧ ⌊-x⌋ = -⌊x⌋ - 1 := by
  have h1 := Int.fract_neg h
  refine ⟨h1, ?_⟩
  have a := Int.floor_add_fract x
  have b := Int.floor_add_fract (-x)
  rw [h1] at b
  have : ((⌊-x⌋ : ℤ) : K) = ((-⌊x⌋ - 1 : ℤ) : K) := by push_cast; linarith
  exact_mod_cast this

theorem rne_neg (x : K) : rne (-x) = -rne x := by
  by_cases h0 : Int.fract x = 0
  · have : x = ((⌊x⌋ : ℤ) : K) := by have := Int.floor_add_fract x; rw [h0] at this; linarith
    rw [this, ← Int.cast_neg, rne_int, rne_int]
  · obtain ⟨h1, h2⟩ := fract_neg' x h0
    unfold rne
    rw [h1, h2]
    by_cases a : Int.fract x < 1 / 2
    · rw [if_neg (by linarith), if_pos (by linarith), if_pos a]; ring
    · by_cases b : 1 / 2 < Int.fract x
      · rw [if_pos (by linarith), if_neg a, if_pos b]; ring
      · rw [if_neg (by linarith), if_neg (by linarith), if_neg a, if_neg b]
        by_cases e : Even ⌊x⌋
        · have : ¬ Even (-⌊x⌋ - 1) := by
            rw [Int.even_sub_one, even_neg]; simpa using e
          rw [if_neg this, if_pos e]; ring
        · have : Even (-⌊x⌋ - 1) := by
            rw [Int.even_sub_one, even_neg]; exact e
          rw [if_pos this, if_neg e]; ring

theorem rne_twice {x : K} (h : 0 ≤ x) : (rne x : K) ≤ 2 * x := by
  by_cases a : x ≤ 1 / 2
  · have hfl : ⌊x⌋ = 0 := by rw [Int.floor_eq_zero_iff]; exact ⟨h, by linarith⟩
    have hfr : Int.fract x = x := by have := Int.floor_add_fract x; rw [hfl] at this; push_cast at this; linarith
    have : rne x = 0 := by
      unfold rne
      rw [hfl, hfr]
      by_cases b : x < 1 / 2
      · rw [if_pos b]
      · rw [if_neg b, if_neg (by linarith), if_pos (by decide)]
    rw [this]; push_cast; linarith
  · have := rne_le x
    linarith

/-! ## The last place -/

omit [IsStrictOrderedRing K] in
theorem lastPlace_neg (p : ℕ) (emin : ℤ) (x : K) : lastPlace p emin (-x) = lastPlace p emin x := by
  simp [lastPlace]

theorem lastPlace_mono {p : ℕ} {emin : ℤ} {x y : K} (h0 : 0 < x) (h : x ≤ y) : lastPlace p emin x ≤ lastPlace p emin y := by
  unfold lastPlace
  rw [abs_of_pos h0, abs_of_pos (lt_of_lt_of_le h0 h)]
  have := Int.log_mono_right (b := 2) h0 h
  omega

theorem two_zpow_pos (e : ℤ) : (0 : K) < 2 ^ e := zpow_pos (by norm_num) e

theorem pow_le_self {x : K} (h : 0 < x) : (2 : K) ^ (Int.log 2 x) ≤ x := by
  have := Int.zpow_log_le_self (b := 2) (by norm_num) h
  exact_mod_cast this

theorem self_lt_pow (x : K) : x < (2 : K) ^ (Int.log 2 x + 1) := by
  have := Int.lt_zpow_succ_log_self (b := 2) (by norm_num) x
  exact_mod_cast this

theorem zpow_mono2 {a b : ℤ} (h : a ≤ b) : (2 : K) ^ a ≤ 2 ^ b := zpow_le_zpow_right₀ (by norm_num) h

omit [FloorRing K] in
/-- `2 ^ a` in units of `2 ^ b`. -/
theorem pow_div (a b : ℤ) (h : b ≤ a) : (2 : K) ^ a / 2 ^ b = (((2 : ℤ) ^ (a - b).toNat : ℤ) : K) := by
  have : (2 : K) ^ a / 2 ^ b = 2 ^ (a - b) := (zpow_sub₀ (by norm_num) a b).symm
  rw [this]
  push_cast
  rw [← zpow_natCast, Int.toNat_of_nonneg (by omega)]

/-- A multiple of the last place, of at most `p` bits, is not changed. -/
theorem ieee_fixed {p : ℕ} (hp : 1 ≤ p) {emin e : ℤ} (he : emin ≤ e) (k : ℤ) (hk : |k| ≤ 2 ^ p) :
    ieee p emin ((k : K) * 2 ^ e) = (k : K) * 2 ^ e := by
  by_cases hk0 : k = 0
  · subst hk0; simp [ieee, rne]
  set z : K := (k : K) * 2 ^ e with hz
  set b := lastPlace p emin z with hb
  have key : ∃ j : ℤ, z / 2 ^ b = (j : K) := by
    by_cases hbe : b ≤ e
    · refine ⟨k * 2 ^ (e - b).toNat, ?_⟩
      rw [hz, mul_div_assoc, pow_div e b hbe]; push_cast; ring
    · have hzpos : 0 < |z| := by
        have h2 : |(2 : K) ^ e| = 2 ^ e := abs_of_pos (two_zpow_pos e)
        rw [hz, abs_mul, h2]
        have h3 := two_zpow_pos (K := K) e
        have : (0 : K) < |(k : K)| := by rw [abs_pos]; exact_mod_cast hk0
        positivity
      have hle : |z| ≤ (2 : K) ^ (e + p) := by
        have h2 : |(2 : K) ^ e| = 2 ^ e := abs_of_pos (two_zpow_pos e)
        rw [hz, abs_mul, h2, zpow_add₀ (by norm_num), mul_comm]
        refine mul_le_mul_of_nonneg_left ?_ (two_zpow_pos e).le
        have : ((|k| : ℤ) : K) ≤ ((2 ^ p : ℤ) : K) := by exact_mod_cast hk
        push_cast at this
        simpa using this
      have hlog : (2 : K) ^ (Int.log 2 |z|) ≤ 2 ^ (e + p) := (pow_le_self hzpos).trans hle
      have hlog' : Int.log 2 |z| ≤ e + p := (zpow_le_zpow_iff_right₀ (by norm_num : (1 : K) < 2)).1 hlog
      have hb1 : b = Int.log 2 |z| - (p - 1) := by
        rw [hb] at hbe ⊢
        unfold lastPlace at hbe ⊢
        omega
      have hle' : Int.log 2 |z| = e + p := by omega
      have heq : |z| = (2 : K) ^ (e + p) := le_antisymm hle (by rw [← hle']; exact pow_le_self hzpos)
      have hdiv : |z| / 2 ^ b = (((2 : ℤ) ^ (e + p - b).toNat : ℤ) : K) := by
        rw [heq]; exact pow_div _ _ (by omega)
      rcases abs_choice z with h | h
      · rw [h] at hdiv; exact ⟨_, hdiv⟩
      · rw [h] at hdiv
        refine ⟨-(2 : ℤ) ^ (e + p - b).toNat, ?_⟩
        have : z / 2 ^ b = -(-z / 2 ^ b) := by ring
        rw [this, hdiv]; push_cast; ring
  obtain ⟨j, hj⟩ := key
  show (rne (z / 2 ^ b) : K) * 2 ^ b = z
  rw [hj, rne_int, ← hj, div_mul_cancel₀ _ (two_zpow_pos b).ne']

theorem ieee_neg (p : ℕ) (emin : ℤ) (x : K) : ieee p emin (-x) = -ieee p emin x := by
  unfold ieee
  rw [lastPlace_neg, neg_div, rne_neg]
  push_cast
  ring

/-- How big a number is in units of its last place. -/
theorem div_lt {p : ℕ} (emin : ℤ) (x : K) : |x| / 2 ^ lastPlace p emin x < 2 ^ p := by
  rw [div_lt_iff₀ (two_zpow_pos _)]
  refine lt_of_lt_of_le (self_lt_pow |x|) ?_
  rw [← zpow_natCast, ← zpow_add₀ (by norm_num)]
  apply zpow_mono2
  unfold lastPlace
  omega

theorem ieee_mono_pos {p : ℕ} (hp : 1 ≤ p) {emin : ℤ} {x y : K} (h0 : 0 < x) (h : x ≤ y) :
    ieee p emin x ≤ ieee p emin y := by
  have hy : 0 < y := lt_of_lt_of_le h0 h
  rcases lt_or_eq_of_le (lastPlace_mono (p := p) (emin := emin) h0 h) with hlt | heq
  · set a := lastPlace p emin x with ha
    set b := lastPlace p emin y with hb
    have hbl : b = Int.log 2 y - (p - 1) := by
      have h1 : emin ≤ a := by rw [ha]; exact le_max_right _ _
      rw [hb] at hlt ⊢
      unfold lastPlace at hlt ⊢
      rw [abs_of_pos hy] at hlt ⊢
      omega
    have hxl : x < 2 ^ (a + p) := by
      have := div_lt (p := p) emin x
      rw [abs_of_pos h0, div_lt_iff₀ (two_zpow_pos _)] at this
      rw [zpow_add₀ (by norm_num), mul_comm, zpow_natCast]
      exact this
    have hM1 : x ≤ 2 ^ (Int.log 2 y) := hxl.le.trans (zpow_mono2 (by omega))
    have hM2 : (2 : K) ^ (Int.log 2 y) ≤ y := pow_le_self hy
    have e1 : ieee p emin x ≤ 2 ^ (Int.log 2 y) := by
      show (rne (x / 2 ^ a) : K) * 2 ^ a ≤ _
      rw [← le_div_iff₀ (two_zpow_pos a)]
      have h1 : x / 2 ^ a ≤ 2 ^ (Int.log 2 y) / 2 ^ a := div_le_div_of_nonneg_right hM1 (two_zpow_pos a).le
      rw [pow_div _ _ (by omega)] at h1 ⊢
      have := rne_mono h1
      rw [rne_int] at this
      exact_mod_cast this
    have e2 : 2 ^ (Int.log 2 y) ≤ ieee p emin y := by
      show _ ≤ (rne (y / 2 ^ b) : K) * 2 ^ b
      rw [← div_le_iff₀ (two_zpow_pos b)]
      have h1 : 2 ^ (Int.log 2 y) / 2 ^ b ≤ y / 2 ^ b := div_le_div_of_nonneg_right hM2 (two_zpow_pos b).le
      rw [pow_div _ _ (by omega)] at h1 ⊢
      have := rne_mono h1
      rw [rne_int] at this
      exact_mod_cast this
    exact e1.trans e2
  · unfold ieee
    rw [heq]
    refine mul_le_mul_of_nonneg_right ?_ (two_zpow_pos _).le
    exact_mod_cast rne_mono (div_le_div_of_nonneg_right h (two_zpow_pos _).le)

theorem ieee_nonneg {p : ℕ} {emin : ℤ} {x : K} (h : 0 ≤ x) : 0 ≤ ieee p emin x := by
  refine mul_nonneg ?_ (two_zpow_pos _).le
  have : rne ((0 : ℤ) : K) ≤ rne (x / (2 : K) ^ lastPlace p emin x) :=
    rne_mono (by push_cast; exact div_nonneg h (two_zpow_pos _).le)
  rw [rne_int] at this
  exact_mod_cast this

theorem ieee_mono {p : ℕ} (hp : 1 ≤ p) {emin : ℤ} {x y : K} (h : x ≤ y) : ieee p emin x ≤ ieee p emin y := by
  rcases lt_or_ge 0 x with hx | hx
  · exact ieee_mono_pos hp hx h
  · rcases lt_or_ge y 0 with hy | hy
    · have := ieee_mono_pos hp (emin := emin) (neg_pos.2 hy) (neg_le_neg h)
      rw [ieee_neg, ieee_neg] at this
      linarith
    · have h1 : 0 ≤ ieee p emin (-x) := ieee_nonneg (by linarith)
      rw [ieee_neg] at h1
      have h2 : 0 ≤ ieee p emin y := ieee_nonneg hy
      linarith

theorem rne_div_le {p : ℕ} (emin : ℤ) (x : K) : |rne (x / (2 : K) ^ lastPlace p emin x)| ≤ 2 ^ p := by
  have h := div_lt (p := p) emin x
  have h2 : |x / (2 : K) ^ lastPlace p emin x| ≤ ((2 ^ p : ℤ) : K) := by
    have h3 : |(2 : K) ^ lastPlace p emin x| = 2 ^ lastPlace p emin x := abs_of_pos (two_zpow_pos _)
    rw [abs_div, h3]; push_cast; exact h.le
  rw [abs_le] at h2 ⊢
  constructor
  · have := rne_mono h2.1
    rw [← Int.cast_neg, rne_int] at this
    exact this
  · have := rne_mono h2.2
    rw [rne_int] at this
    exact this

/-- How far rounding moves a number: a part of it, and half the smallest number. -/
theorem ieee_near {p : ℕ} {emin : ℤ} (x : K) : |ieee p emin x - x| ≤ 2 ^ (-(p : ℤ)) * |x| + 2 ^ (emin - 1) := by
  set a := lastPlace p emin x with ha
  have hu := two_zpow_pos (K := K) a
  have h1 : |ieee p emin x - x| ≤ 2 ^ a / 2 := by
    have hx : x = x / 2 ^ a * 2 ^ a := (div_mul_cancel₀ _ hu.ne').symm
    have e : ieee p emin x - x = ((rne (x / 2 ^ a) : K) - x / 2 ^ a) * 2 ^ a := by
      rw [sub_mul, ← hx]; rfl
    have h2 : |(2 : K) ^ a| = 2 ^ a := abs_of_pos hu
    rw [e, abs_mul, h2, show (2 : K) ^ a / 2 = 1 / 2 * 2 ^ a by ring]
    refine mul_le_mul_of_nonneg_right ?_ hu.le
    rw [abs_le]
    have := rne_le (x / (2 : K) ^ a)
    have := le_rne (x / (2 : K) ^ a)
    constructor <;> linarith
  have h3 : (0 : K) ≤ 2 ^ (emin - 1) := (two_zpow_pos _).le
  have h4 : (0 : K) ≤ 2 ^ (-(p : ℤ)) * |x| := mul_nonneg (two_zpow_pos _).le (abs_nonneg x)
  by_cases hx0 : x = 0
  · subst hx0; simp only [ieee, zero_div]
    have : rne (0 : K) = 0 := by have := rne_int (K := K) 0; rwa [Int.cast_zero] at this
    rw [this]; simp only [Int.cast_zero, zero_mul, sub_zero, abs_zero, mul_zero, zero_add]; exact h3
  rcases le_total (Int.log 2 |x| - (p - 1)) emin with h | h
  · have : a = emin := max_eq_right h
    rw [this] at h1
    have e : (2 : K) ^ emin / 2 = 2 ^ (emin - 1) := by rw [zpow_sub_one₀ (by norm_num)]; ring
    linarith
  · have : a = Int.log 2 |x| - (p - 1) := max_eq_left h
    rw [this] at h1
    have e : (2 : K) ^ (Int.log 2 |x| - (p - 1)) / 2 = 2 ^ (-(p : ℤ)) * 2 ^ (Int.log 2 |x|) := by
      rw [← zpow_add₀ (by norm_num), show -(p : ℤ) + Int.log 2 |x| = Int.log 2 |x| - (p - 1) - 1 by ring,
        zpow_sub_one₀ (by norm_num) (Int.log 2 |x| - (p - 1))]
      ring
    rw [e] at h1
    have := mul_le_mul_of_nonneg_left (pow_le_self (abs_pos.2 hx0)) (two_zpow_pos (K := K) (-(p : ℤ))).le
    linarith

theorem ieee_half {p : ℕ} (hp : 2 ≤ p) {emin : ℤ} {x : K} (h : 0 ≤ x) : ieee p emin (ieee p emin x / 2) ≤ x := by
  set a := lastPlace p emin x with ha
  set k := rne (x / (2 : K) ^ a) with hk
  have hu := two_zpow_pos (K := K) a
  have hz : ieee p emin x = (k : K) * 2 ^ a := rfl
  have hkb : |k| ≤ 2 ^ p := rne_div_le emin x
  have ht : 0 ≤ x / (2 : K) ^ a := div_nonneg h hu.le
  have htw : (k : K) ≤ 2 * (x / 2 ^ a) := rne_twice ht
  have hxa : x = x / 2 ^ a * 2 ^ a := (div_mul_cancel₀ _ hu.ne').symm
  have hea : emin ≤ a := le_max_right _ _
  have hk0 : 0 ≤ k := by
    have := rne_mono (K := K) (x := ((0 : ℤ) : K)) (y := x / 2 ^ a) (by push_cast; exact ht)
    rwa [rne_int] at this
  have hle2 : (k : K) * 2 ^ a / 2 ≤ x := by
    rw [hxa]
    have := mul_le_mul_of_nonneg_right htw hu.le
    linarith
  rw [hz]
  by_cases h1 : emin ≤ a - 1
  · have e : (k : K) * 2 ^ a / 2 = (k : K) * 2 ^ (a - 1) := by
      rw [zpow_sub_one₀ (by norm_num)]; ring
    rw [e, ieee_fixed (by omega) h1 k hkb, ← e]
    exact hle2
  · have hae : a = emin := by omega
    rcases Int.even_or_odd' k with ⟨j, hj | hj⟩
    · have e : (k : K) * 2 ^ a / 2 = (j : K) * 2 ^ a := by rw [hj]; push_cast; ring
      rw [e, ieee_fixed (by omega) hea j (by rw [abs_of_nonneg (by omega)]; rw [abs_of_nonneg hk0] at hkb; omega), ← e]
      exact hle2
    · by_cases hj0 : j = 0
      · have hz0 : ieee p emin ((k : K) * 2 ^ a / 2) = 0 := by
          have hk1 : k = 1 := by omega
          rw [hk1]
          have e : ((1 : ℤ) : K) * 2 ^ a / 2 = 2 ^ (a - 1) := by
            rw [zpow_sub_one₀ (by norm_num)]; push_cast; ring
          have hl : Int.log 2 |(2 : K) ^ (a - 1)| = a - 1 := by
            have h2 : |(2 : K) ^ (a - 1)| = 2 ^ (a - 1) := abs_of_pos (two_zpow_pos _)
            rw [h2]
            have := Int.log_zpow (R := K) (b := 2) (by norm_num) (a - 1)
            exact_mod_cast this
          have hlp : lastPlace p emin ((2 : K) ^ (a - 1)) = a := by
            unfold lastPlace; rw [hl]; omega
          have hq : (2 : K) ^ (a - 1) / 2 ^ a = 1 / 2 := by
            rw [zpow_sub_one₀ (by norm_num)]; field_simp
          have hr : rne (1 / 2 : K) = 0 := by
            have := rne_twice (K := K) (x := 1 / 2) (by norm_num)
            have hf : ⌊(1 / 2 : K)⌋ = 0 := by rw [Int.floor_eq_zero_iff]; constructor <;> norm_num
            have hfr : Int.fract (1 / 2 : K) = 1 / 2 := by
              have := Int.floor_add_fract (1 / 2 : K); rw [hf] at this; push_cast at this; linarith
            unfold rne; rw [hf, hfr]; simp
          unfold ieee
          rw [e, hlp, hq, hr]; push_cast; ring
        rw [hz0]; exact h
      · have h3 : ((j + 1 : ℤ) : K) * 2 ^ a ≤ x := by
          have := rne_le (x / (2 : K) ^ a)
          rw [← hk, hj] at this
          push_cast at this
          rw [hxa]
          refine mul_le_mul_of_nonneg_right ?_ hu.le
          have hj1 : (1 : K) ≤ (j : K) := by exact_mod_cast (by omega : (1 : ℤ) ≤ j)
          push_cast
          linarith
        have h4 : (k : K) * 2 ^ a / 2 ≤ ((j + 1 : ℤ) : K) * 2 ^ a := by
          rw [hj]; push_cast
          have : ((2 * (j : K) + 1) * 2 ^ a / 2) = ((j : K) + 1 / 2) * 2 ^ a := by ring
          rw [this]
          refine mul_le_mul_of_nonneg_right ?_ hu.le
          linarith
        refine (ieee_mono (by omega) h4).trans ?_
        rw [ieee_fixed (by omega) hea (j + 1) (by rw [abs_of_nonneg (by omega)]; rw [abs_of_nonneg hk0] at hkb; omega)]
        exact h3

/-- Rounding to `p ≥ 2` bits to nearest, ties to even, with gradual underflow at `2 ^ emin`. -/
def ieeeRounding (p : ℕ) (emin : ℤ) (hp : 2 ≤ p) (he : emin ≤ 0) : Rounding K where
  rnd := ieee p emin
  mono := ieee_mono (by omega)
  idem x := by
    exact ieee_fixed (by omega) (le_max_right _ _) _ (rne_div_le emin x)
  neg := ieee_neg p emin
  one := by
    have := ieee_fixed (K := K) (p := p) (by omega) he 1 (by rw [abs_one]; exact one_le_pow₀ (by norm_num))
    simpa using this
  two := by
    have h : |(2 : ℤ)| ≤ 2 ^ p := by
      calc |(2 : ℤ)| = 2 ^ 1 := by norm_num
        _ ≤ 2 ^ p := pow_le_pow_right₀ (by norm_num) (by omega)
    have := ieee_fixed (K := K) (p := p) (by omega) he 2 h
    simpa using this
  half h := ieee_half hp h

/-- Double precision: 53 bits, the smallest number is `2 ^ -1074`. -/
def binary64 : Rounding K := ieeeRounding 53 (-1074) (by decide) (by decide)

theorem binary64_near : (binary64 : Rounding K).Near (2 ^ (-53 : ℤ)) (2 ^ (-1075 : ℤ)) := ieee_near

theorem binary64_is {k e : ℤ} (hk : |k| ≤ 2 ^ 53) (he : -1074 ≤ e) : (binary64 : Rounding K).Is ((k : K) * 2 ^ e) :=
  ieee_fixed (by decide) he k hk

theorem binary64_int {k : ℤ} (hk : |k| ≤ 2 ^ 53) : (binary64 : Rounding K).Is (k : K) := by
  have := binary64_is (K := K) (e := 0) hk (by decide)
  rwa [zpow_zero, mul_one] at this

end

/-- Exact arithmetic is a rounding, too. -/
def exact : Rounding K where
  rnd := id
  mono h := h
  idem _ := rfl
  neg _ := rfl
  one := rfl
  two := rfl
  half h := by simp only [id]; linarith

end Verif.Flt
