import Verif.Model.FloatRates
import Verif.Lemmas.Dict
import Verif.Props.Float
import Verif.Props.SinkValues
import Mathlib.Tactic.Linarith
import Mathlib.Tactic.FieldSimp
import Mathlib.Tactic.Ring
/-!
# Rates in floating point (C153)

A rate computed with doubles is the exact one up to the last digits, it is refused only when the exact one is, and the totals
are not less than what they are the totals of.
-/
namespace Verif.FRate

open Verif.Dct Verif.Flt Verif.Sinks

/-! ## Differences of doubles -/

section Diff

variable {K : Type} [Field K] [LinearOrder K] [IsStrictOrderedRing K] [FloorRing K]

/-- A double is a multiple of the smallest one. -/
theorem is_multiple {x : K} (h : (binary64 : Rounding K).Is x) : ∃ k : ℤ, x = (k : K) * 2 ^ (-1074 : ℤ) := by
  have h1 : ieee 53 (-1074) x = x := h
  unfold ieee at h1
  set e := lastPlace 53 (-1074) x with he
  set k := rne (x / (2 : K) ^ e)
  have hle : (-1074 : ℤ) ≤ e := le_max_right _ _
  refine ⟨k * 2 ^ (e + 1074).toNat, ?_⟩
  have h3 : ((2 : K) ^ (e + 1074).toNat) * 2 ^ (-1074 : ℤ) = 2 ^ e := by
    rw [← zpow_natCast, ← zpow_add₀ (by norm_num : (2 : K) ≠ 0)]
    congr 1
    omega
  push_cast
  rw [mul_assoc, h3]
  exact h1.symm

/-- Two different doubles have a difference that is not rounded to zero: underflow is gradual. -/
theorem diff_zero {x y : K} (hx : (binary64 : Rounding K).Is x) (hy : (binary64 : Rounding K).Is y) :
    (binary64 : Rounding K).rnd (x - y) = 0 ↔ x - y = 0 := by
  have zero : (binary64 : Rounding K).rnd 0 = 0 := by
    have := binary64_int (K := K) (k := 0) (by norm_num)
    simpa [Rounding.Is] using this
  refine ⟨fun h => ?_, fun h => by rw [h, zero]⟩
  obtain ⟨a, rfl⟩ := is_multiple hx
  obtain ⟨b, rfl⟩ := is_multiple hy
  have hp : (0 : K) < 2 ^ (-1074 : ℤ) := zpow_pos (by norm_num) _
  have small := binary64_is (K := K) (k := 1) (e := -1074) (by norm_num) (by norm_num)
  rw [← sub_mul] at h ⊢
  by_contra hne
  have hab : a - b ≠ 0 := by
    intro e
    apply hne
    have : ((a - b : ℤ) : K) = 0 := by rw [e]; simp
    push_cast at this
    rw [this, zero_mul]
  rcases lt_or_gt_of_ne hab with hl | hl
  · have h1 : ((a : K) - b) * 2 ^ (-1074 : ℤ) ≤ -(((1 : ℤ) : K) * 2 ^ (-1074 : ℤ)) := by
      rw [← neg_mul]
      refine mul_le_mul_of_nonneg_right ?_ hp.le
      have : a - b ≤ -1 := by omega
      have : ((a - b : ℤ) : K) ≤ ((-1 : ℤ) : K) := Int.cast_le.2 this
      push_cast at this ⊢
      exact this
    have h2 := (binary64 : Rounding K).mono h1
    rw [h, Rounding.neg, small] at h2
    push_cast at h2
    linarith
  · have h1 : (((1 : ℤ) : K) * 2 ^ (-1074 : ℤ)) ≤ ((a : K) - b) * 2 ^ (-1074 : ℤ) := by
      refine mul_le_mul_of_nonneg_right ?_ hp.le
      have : 1 ≤ a - b := by omega
      have : ((1 : ℤ) : K) ≤ ((a - b : ℤ) : K) := Int.cast_le.2 this
      push_cast at this ⊢
      exact this
    have h2 := (binary64 : Rounding K).mono h1
    rw [h, small] at h2
    push_cast at h2
    linarith

/-- The difference of two doubles has a relative error only. -/
theorem diff_near {x y : K} (hx : (binary64 : Rounding K).Is x) (hy : (binary64 : Rounding K).Is y) :
    |(binary64 : Rounding K).rnd (x - y) - (x - y)| ≤ 2 ^ (-52 : ℤ) * |x - y| := by
  obtain ⟨a, rfl⟩ := is_multiple hx
  obtain ⟨b, rfl⟩ := is_multiple hy
  have e : (a : K) * 2 ^ (-1074 : ℤ) - b * 2 ^ (-1074 : ℤ) = ((a - b : ℤ) : K) * 2 ^ (-1074 : ℤ) := by push_cast; ring
  rw [e]
  have hp : (0 : K) < 2 ^ (-1074 : ℤ) := zpow_pos (by norm_num) _
  by_cases hk : |a - b| ≤ 2 ^ 53
  · have := binary64_is (K := K) (k := a - b) (e := -1074) hk (by norm_num)
    rw [this, sub_self, abs_zero]
    exact mul_nonneg (zpow_pos (by norm_num) _).le (abs_nonneg _)
  · have hn := binary64_near (K := K) (((a - b : ℤ) : K) * 2 ^ (-1074 : ℤ))
    refine hn.trans ?_
    have hbig : (2 : K) ^ 53 * 2 ^ (-1074 : ℤ) ≤ |((a - b : ℤ) : K) * 2 ^ (-1074 : ℤ)| := by
      rw [abs_mul, abs_of_pos hp]
      refine mul_le_mul_of_nonneg_right ?_ hp.le
      have : (2 ^ 53 : ℤ) ≤ |a - b| := by omega
      have : ((2 ^ 53 : ℤ) : K) ≤ ((|a - b| : ℤ) : K) := Int.cast_le.2 this
      rw [Int.cast_abs] at this
      refine le_trans (le_of_eq ?_) this
      push_cast
      norm_num
    have e1 : (2 : K) ^ (-52 : ℤ) = 2 * 2 ^ (-53 : ℤ) := by
      rw [show (-52 : ℤ) = 1 + -53 by norm_num, zpow_add₀ (by norm_num : (2 : K) ≠ 0), zpow_one]
    have e2 : (2 : K) ^ (-1075 : ℤ) ≤ 2 ^ (-53 : ℤ) * (2 ^ 53 * 2 ^ (-1074 : ℤ)) := by
      rw [← zpow_natCast, ← zpow_add₀ (by norm_num : (2 : K) ≠ 0), ← zpow_add₀ (by norm_num : (2 : K) ≠ 0)]
      exact zpow_le_zpow_right₀ (by norm_num) (by norm_num)
    have h53 : (0 : K) < 2 ^ (-53 : ℤ) := zpow_pos (by norm_num) _
    have := mul_le_mul_of_nonneg_left hbig h53.le
    rw [e1]
    linarith

omit [FloorRing K] in
/-- Dividing by a number with a small relative error, and rounding. -/
theorem div_near {u η c d d' z : K} (hu0 : 0 < u) (hu1 : u ≤ 1 / 16) (hne : d ≠ 0) (hd : |d' - d| ≤ 2 * u * |d|)
    (hz : |z - c / d'| ≤ u * |c / d'| + η) : |z - c / d| ≤ 4 * u * |c / d| + η := by
  have hdpos : 0 < |d| := abs_pos.2 hne
  have hd' : (1 - 2 * u) * |d| ≤ |d'| := by
    have h1 : |d| ≤ |d'| + |d' - d| := by
      have := abs_sub_abs_le_abs_sub d d'
      rw [abs_sub_comm d d'] at this
      linarith
    linarith
  have h2u : 0 < 1 - 2 * u := by
    have : 2 * u ≤ 1 / 8 := by linarith
    linarith [show (1 : K) / 8 < 1 by norm_num]
  have hd'pos : 0 < |d'| := lt_of_lt_of_le (mul_pos h2u hdpos) hd'
  have hd'ne : d' ≠ 0 := abs_pos.1 hd'pos
  have e1 : c / d' - c / d = c / d * ((d - d') / d') := by field_simp
  generalize c / d' = q at *
  generalize c / d = r at *
  have hq : |q - r| ≤ |r| * (2 * u / (1 - 2 * u)) := by
    rw [e1, abs_mul, abs_div, abs_sub_comm d d']
    refine mul_le_mul_of_nonneg_left ?_ (abs_nonneg r)
    rw [div_le_div_iff₀ hd'pos h2u]
    calc |d' - d| * (1 - 2 * u) ≤ 2 * u * |d| * (1 - 2 * u) := mul_le_mul_of_nonneg_right hd h2u.le
      _ = 2 * u * ((1 - 2 * u) * |d|) := by ring
      _ ≤ 2 * u * |d'| := mul_le_mul_of_nonneg_left hd' (by linarith)
  have hqa : |q| ≤ |r| + |q - r| := by
    have := abs_sub_abs_le_abs_sub q r
    linarith
  have htri : |z - r| ≤ |z - q| + |q - r| := by
    have := abs_add_le (z - q) (q - r)
    rwa [sub_add_sub_cancel] at this
  have hfin : u * (|r| + |r| * (2 * u / (1 - 2 * u))) + |r| * (2 * u / (1 - 2 * u)) ≤ 4 * u * |r| := by
    have hρ : 2 * u / (1 - 2 * u) ≤ 16 / 7 * u := by
      rw [div_le_iff₀ h2u]
      nlinarith
    generalize 2 * u / (1 - 2 * u) = ρ at *
    have h7 : u + u * ρ + ρ ≤ 4 * u := by nlinarith
    have := mul_le_mul_of_nonneg_right h7 (abs_nonneg r)
    linarith
  have h5 : u * |q| ≤ u * (|r| + |r| * (2 * u / (1 - 2 * u))) := mul_le_mul_of_nonneg_left (hqa.trans (by linarith)) hu0.le
  linarith

/-- A rounded quotient of a count by a rounded difference. -/
theorem quotient_near {c : ℕ} (hc : c ≤ 2 ^ 53) {x y : K} (hx : (binary64 : Rounding K).Is x)
    (hy : (binary64 : Rounding K).Is y) (hne : x - y ≠ 0) :
    |(binary64 : Rounding K).rnd ((binary64 : Rounding K).rnd (c : K) / (binary64 : Rounding K).rnd (x - y)) - c / (x - y)| ≤
      2 ^ (-51 : ℤ) * |c / (x - y)| + 2 ^ (-1075 : ℤ) := by
  have hcr : (binary64 : Rounding K).rnd (c : K) = c := by
    have := binary64_int (K := K) (k := (c : ℤ)) (by rw [Nat.abs_cast]; exact_mod_cast hc)
    simpa [Rounding.Is] using this
  rw [hcr]
  have hd := diff_near hx hy
  have e51 : (2 : K) ^ (-51 : ℤ) = 4 * 2 ^ (-53 : ℤ) := by
    rw [show (-51 : ℤ) = 2 + -53 by norm_num, zpow_add₀ (by norm_num : (2 : K) ≠ 0)]; norm_num
  have e52 : (2 : K) ^ (-52 : ℤ) = 2 * 2 ^ (-53 : ℤ) := by
    rw [show (-52 : ℤ) = 1 + -53 by norm_num, zpow_add₀ (by norm_num : (2 : K) ≠ 0), zpow_one]
  have hu1 : (2 : K) ^ (-53 : ℤ) ≤ 1 / 16 := by
    have : (2 : K) ^ (-53 : ℤ) ≤ 2 ^ (-4 : ℤ) := zpow_le_zpow_right₀ (by norm_num) (by norm_num)
    refine this.trans (le_of_eq ?_)
    rw [zpow_neg, show (4 : ℤ) = ((4 : ℕ) : ℤ) from rfl, zpow_natCast]
    norm_num
  rw [e52] at hd
  rw [e51]
  exact div_near (zpow_pos (by norm_num) _) hu1 hne hd (binary64_near _)

end Diff

/-! ## One accumulator -/

section One

variable {K : Type} [Field K] [LinearOrder K] [IsStrictOrderedRing K] [FloorRing K]

/-- An accumulator whose times are doubles and whose count is below 2^53. -/
structure Doubles (a : RateAcc K) : Prop where
  times : ∀ t ∈ a.times, (binary64 : Rounding K).Is t
  creation : (binary64 : Rounding K).Is a.creation
  total : a.total ≤ 2 ^ 53
  length : a.times.length ≤ 2 ^ 53

omit [IsStrictOrderedRing K] [FloorRing K] in
theorem is_orElse {R : Rounding K} {x : Option K} {d : K} (hx : ∀ v, x = some v → R.Is v) (hd : R.Is d) : R.Is (orElse x d) := by
  unfold orElse
  split
  · exact hd
  · rename_i v
    split
    · exact hd
    · exact hx v rfl

/-- C153: with doubles, `get_rate` raises ZeroDivisionError exactly when the exact computation does. -/
theorem C153_raises (a : RateAcc K) (ha : Doubles a) (start stop : Option K) (now : K)
    (h1 : ∀ v, start = some v → (binary64 : Rounding K).Is v) (h2 : ∀ v, stop = some v → (binary64 : Rounding K).Is v)
    (h3 : (binary64 : Rounding K).Is now) :
    getRate binary64 a start stop now = none ↔ Sinks.getRate a start stop now = none := by
  have hs := is_orElse h1 ha.creation
  have he := is_orElse h2 h3
  unfold getRate Sinks.getRate
  rcases hf : a.times.head? with _ | first
  · simp
  rcases hl : a.times.getLast? with _ | last
  · simp
  have hfi := ha.times first (List.mem_of_mem_head? hf)
  have hla := ha.times last (List.mem_of_mem_getLast? hl)
  have key : ∀ (c : ℕ) (x y : K), (binary64 : Rounding K).Is x → (binary64 : Rounding K).Is y →
      ((if (binary64 : Rounding K).rnd (x - y) = 0 then none
        else some ((binary64 : Rounding K).rnd ((binary64 : Rounding K).rnd (c : K) / (binary64 : Rounding K).rnd (x - y)))) = none ↔
      (if x - y = 0 then none else some ((c : K) / (x - y))) = none) := by
    intro c x y hx hy
    by_cases h0 : x - y = 0
    · rw [if_pos h0, if_pos ((diff_zero hx hy).2 h0)]
    · rw [if_neg h0, if_neg fun e => h0 ((diff_zero hx hy).1 e)]
      simp
  dsimp only
  by_cases c1 : orElse start a.creation ≤ a.creation
  · rw [if_pos c1]
    exact key _ _ _ he hs
  · rw [if_neg c1]
    by_cases c2 : a.times.length - Bis.left (fun y => decide (orElse start a.creation ≤ y)) a.times = 0
    · rw [if_pos c2]
      exact key _ _ _ hla hfi
    · rw [if_neg c2]
      by_cases c3 : Bis.left (fun y => decide (orElse start a.creation ≤ y)) a.times = 0
      · rw [if_pos c3]
        exact key _ _ _ he hfi
      · rw [if_neg c3]
        exact key _ _ _ he hs

/-- C153: with doubles, the rate is the exact one up to a relative error of 2^-51 (and half the smallest double), and not on the
other side of 0. -/
theorem C153_rate (a : RateAcc K) (ha : Doubles a) (start stop : Option K) (now : K)
    (h1 : ∀ v, start = some v → (binary64 : Rounding K).Is v) (h2 : ∀ v, stop = some v → (binary64 : Rounding K).Is v)
    (h3 : (binary64 : Rounding K).Is now) (r : K) (h : Sinks.getRate a start stop now = some r) :
    ∃ r', getRate binary64 a start stop now = some r' ∧ |r' - r| ≤ 2 ^ (-51 : ℤ) * |r| + 2 ^ (-1075 : ℤ) ∧
      (0 ≤ r → 0 ≤ r') ∧ (r ≤ 0 → r' ≤ 0) := by
  have hs := is_orElse h1 ha.creation
  have he := is_orElse h2 h3
  have zero : (binary64 : Rounding K).rnd 0 = 0 := by
    have := binary64_int (K := K) (k := 0) (by norm_num)
    simpa [Rounding.Is] using this
  have key : ∀ (c : ℕ) (x y : K), c ≤ 2 ^ 53 → (binary64 : Rounding K).Is x → (binary64 : Rounding K).Is y →
      (if x - y = 0 then none else some ((c : K) / (x - y))) = some r →
      ∃ r', (if (binary64 : Rounding K).rnd (x - y) = 0 then none
        else some ((binary64 : Rounding K).rnd ((binary64 : Rounding K).rnd (c : K) / (binary64 : Rounding K).rnd (x - y)))) = some r' ∧
        |r' - r| ≤ 2 ^ (-51 : ℤ) * |r| + 2 ^ (-1075 : ℤ) ∧ (0 ≤ r → 0 ≤ r') ∧ (r ≤ 0 → r' ≤ 0) := by
    intro c x y hc hx hy hr
    split at hr
    · cases hr
    rename_i hne
    obtain rfl := Option.some.inj hr
    have hcr : (binary64 : Rounding K).rnd (c : K) = c := by
      have := binary64_int (K := K) (k := (c : ℤ)) (by rw [Nat.abs_cast]; exact_mod_cast hc)
      simpa [Rounding.Is] using this
    refine ⟨_, if_neg fun e => hne ((diff_zero hx hy).1 e), quotient_near hc hx hy hne, ?_, ?_⟩
    all_goals
      intro h0
      rw [hcr]
    · rcases Nat.eq_zero_or_pos c with hc0 | hc0
      · simp [hc0, zero]
      · have hcp : (0 : K) < c := Nat.cast_pos.2 hc0
        have hd : 0 ≤ x - y := by
          by_contra hlt
          exact absurd h0 (not_le.2 (div_neg_of_pos_of_neg hcp (not_le.1 hlt)))
        have := (binary64 : Rounding K).mono hd
        rw [zero] at this
        have h4 := (binary64 : Rounding K).mono (div_nonneg hcp.le this)
        rwa [zero] at h4
    · rcases Nat.eq_zero_or_pos c with hc0 | hc0
      · simp [hc0, zero]
      · have hcp : (0 : K) < c := Nat.cast_pos.2 hc0
        have hd : x - y ≤ 0 := by
          by_contra hlt
          exact absurd h0 (not_le.2 (div_pos hcp (not_le.1 hlt)))
        have := (binary64 : Rounding K).mono hd
        rw [zero] at this
        have h4 := (binary64 : Rounding K).mono (div_nonpos_of_nonneg_of_nonpos hcp.le this)
        rwa [zero] at h4
  have hempty : ∀ z : K, some (0 : K) = some z → ∃ r', some (0 : K) = some r' ∧
      |r' - z| ≤ 2 ^ (-51 : ℤ) * |z| + 2 ^ (-1075 : ℤ) ∧ (0 ≤ z → 0 ≤ r') ∧ (z ≤ 0 → r' ≤ 0) := by
    intro z hz
    obtain rfl := Option.some.inj hz
    refine ⟨0, rfl, ?_, id, id⟩
    simp only [sub_zero, abs_zero, mul_zero, zero_add]
    exact (zpow_pos (by norm_num) _).le
  unfold Sinks.getRate at h
  unfold getRate
  rcases hf : a.times.head? with _ | first
  · rw [hf] at h; exact hempty r h
  rcases hl : a.times.getLast? with _ | last
  · rw [hf, hl] at h; exact hempty r h
  have hfi := ha.times first (List.mem_of_mem_head? hf)
  have hla := ha.times last (List.mem_of_mem_getLast? hl)
  have hlen := ha.length
  rw [hf, hl] at h
  dsimp only at h ⊢
  by_cases c1 : orElse start a.creation ≤ a.creation
  · rw [if_pos c1] at h ⊢
    exact key _ _ _ ha.total he hs h
  · rw [if_neg c1] at h ⊢
    by_cases c2 : a.times.length - Bis.left (fun y => decide (orElse start a.creation ≤ y)) a.times = 0
    · rw [if_pos c2] at h ⊢
      exact key _ _ _ hlen hla hfi h
    · rw [if_neg c2] at h ⊢
      by_cases c3 : Bis.left (fun y => decide (orElse start a.creation ≤ y)) a.times = 0
      · rw [if_pos c3] at h ⊢
        exact key _ _ _ (by omega) he hfi h
      · rw [if_neg c3] at h ⊢
        exact key _ _ _ (by omega) he hs h

end One

/-! ## The sums -/

section Sums

variable {K : Type} [Field K] [LinearOrder K]

/-- Adding numbers up one after the other, from `s`. -/
def sumFrom (R : Rounding K) (s : K) (l : List K) : K := l.foldl (fun s x => R.rnd (s + x)) s

theorem sumFrom_append (R : Rounding K) (s : K) (l l' : List K) : sumFrom R s (l ++ l') = sumFrom R (sumFrom R s l) l' :=
  List.foldl_append

variable {A L : Type} (R : Rounding K) (rate : A → K)

theorem loop3_eq (d : Dict String A) (x y : K) :
    loop3 R rate d x y = (d.foldl (fun r p => set r p.1 (rate p.2)) [], sumFrom R 0 ((values d).map rate),
      sumFrom R x ((values d).map rate), sumFrom R y ((values d).map rate)) := by
  have gen : ∀ (d : Dict String A) (t : Dict String K) (w x y : K),
      d.foldl (fun st p =>
        let r := rate p.2
        (set st.1 p.1 r, R.rnd (st.2.1 + r), R.rnd (st.2.2.1 + r), R.rnd (st.2.2.2 + r))) (t, w, x, y) =
      (d.foldl (fun r p => set r p.1 (rate p.2)) t, sumFrom R w ((values d).map rate),
        sumFrom R x ((values d).map rate), sumFrom R y ((values d).map rate)) := by
    intro d
    induction d with
    | nil => intros; rfl
    | cons p d ih => intro t w x y; exact ih _ _ _ _
  exact gen d [] 0 x y

/-- What is under a name. -/
def row3 (d : Dict String A) : Dict String K :=
  set (d.foldl (fun r p => set r p.1 (rate p.2)) []) ALL (sumFrom R 0 ((values d).map rate))

theorem loop2_eq (d : Dict String (Dict String A)) (y : K) :
    loop2 R rate d y = (d.foldl (fun r p => set r p.1 (.inr (row3 R rate p.2))) [],
      sumFrom R 0 ((values d).flatMap fun d3 => (values d3).map rate),
      sumFrom R y ((values d).flatMap fun d3 => (values d3).map rate)) := by
  have gen : ∀ (d : Dict String (Dict String A)) (t : Dict String (K ⊕ Dict String K)) (x y : K),
      d.foldl (fun st p =>
        let z := loop3 R rate p.2 st.2.1 st.2.2
        (set st.1 p.1 (.inr (set z.1 ALL z.2.1)), z.2.2.1, z.2.2.2)) (t, x, y) =
      (d.foldl (fun r p => set r p.1 (.inr (row3 R rate p.2))) t,
        sumFrom R x ((values d).flatMap fun d3 => (values d3).map rate),
        sumFrom R y ((values d).flatMap fun d3 => (values d3).map rate)) := by
    intro d
    induction d with
    | nil => intros; rfl
    | cons p d ih =>
      intro t x y
      rw [List.foldl_cons]
      dsimp only
      rw [loop3_eq, ih]
      simp only [values, List.map_cons, List.flatMap_cons, sumFrom_append]
      rfl
  exact gen d [] 0 y

/-- What is under a logger. -/
def row2 (d : Dict String (Dict String A)) : Dict String (K ⊕ Dict String K) :=
  set (d.foldl (fun r p => set r p.1 (.inr (row3 R rate p.2))) []) ALL
    (.inl (sumFrom R 0 ((values d).flatMap fun d3 => (values d3).map rate)))

theorem loop1_eq (lname : L → String) (m : Map3 L A) :
    loop1 R rate lname m = ((m.map fun p => (lname p.1, p.2)).foldl (fun r p => set r p.1 (.inr (row2 R rate p.2))) [],
      sumFrom R 0 ((accs m).map rate)) := by
  have gen : ∀ (m : Map3 L A) (t : Dict String (K ⊕ Dict String (K ⊕ Dict String K))) (x : K),
      m.foldl (fun st p =>
        let z := loop2 R rate p.2 st.2
        (set st.1 (lname p.1) (.inr (set z.1 ALL (.inl z.2.1))), z.2.2)) (t, x) =
      ((m.map fun p => (lname p.1, p.2)).foldl (fun r p => set r p.1 (.inr (row2 R rate p.2))) t,
        sumFrom R x ((accs m).map rate)) := by
    intro m
    induction m with
    | nil => intros; rfl
    | cons p m ih =>
      intro t x
      rw [List.foldl_cons]
      dsimp only
      rw [loop2_eq, ih]
      have e : (accs (p :: m)).map rate = ((values p.2).flatMap fun d3 => (values d3).map rate) ++ (accs m).map rate := by
        simp [accs, values, List.map_flatMap]
      rw [e, sumFrom_append]
      rfl
  exact gen m [] 0

theorem get?_foldl_mem {α β γ : Type} [DecidableEq α] (items : List (α × γ)) (g : γ → β) (k : α) (v : β)
    (h : get? (items.foldl (fun d p => set d p.1 (g p.2)) []) k = some v) : ∃ p ∈ items, p.1 = k ∧ v = g p.2 := by
  rw [get?_foldl_set] at h
  split at h
  · rename_i p hp
    have h1 := List.mem_of_find?_eq_some hp
    have h2 := List.find?_some hp
    exact ⟨p, List.mem_reverse.1 h1, of_decide_eq_true h2, (Option.some.inj h).symm⟩
  · cases h

variable [IsStrictOrderedRing K]

omit [IsStrictOrderedRing K] in
theorem rnd_zero [AddLeftMono K] : R.rnd 0 = 0 := by
  have h := R.neg 0
  rw [neg_zero] at h
  rcases lt_trichotomy (R.rnd 0) 0 with h1 | h1 | h1
  · have := neg_pos.2 h1
    rw [← h] at this
    exact absurd this (lt_asymm h1)
  · exact h1
  · have := neg_neg_iff_pos.2 h1
    rw [← h] at this
    exact absurd this (lt_asymm h1)

theorem sumFrom_mono {s s' : K} (h : s ≤ s') (l : List K) : sumFrom R s l ≤ sumFrom R s' l := by
  induction l generalizing s s' with
  | nil => exact h
  | cons x l ih => exact ih (R.mono (by linarith))

/-- Adding numbers that are not negative does not make a sum smaller. -/
theorem sumFrom_le {s : K} (hs : R.Is s) (l : List K) (hl : ∀ x ∈ l, 0 ≤ x) : s ≤ sumFrom R s l := by
  induction l generalizing s with
  | nil => exact le_refl _
  | cons x l ih =>
    have h1 : s ≤ R.rnd (s + x) := by
      have := R.mono (show s ≤ s + x by have := hl x (by simp); linarith)
      rwa [hs] at this
    exact h1.trans (ih (R.idem _) fun y hy => hl y (by simp [hy]))

omit [IsStrictOrderedRing K] in
theorem is_sumFrom {s : K} (hs : R.Is s) (l : List K) : R.Is (sumFrom R s l) := by
  induction l generalizing s with
  | nil => exact hs
  | cons x l ih => exact ih (R.idem _)

/-- A part of a list has no larger sum. -/
theorem sumFrom_part (a b c : List K) (ha : ∀ x ∈ a, 0 ≤ x) (hc : ∀ x ∈ c, 0 ≤ x) :
    sumFrom R 0 b ≤ sumFrom R 0 (a ++ b ++ c) := by
  rw [sumFrom_append, sumFrom_append]
  have h0 : R.Is 0 := rnd_zero R
  have h1 := sumFrom_le R h0 a ha
  have h2 := sumFrom_mono R h1 b
  exact h2.trans (sumFrom_le R (is_sumFrom R (is_sumFrom R h0 a) b) c hc)

theorem flatMap_split {X Y : Type} (f : X → List Y) {l : List X} {x : X} (h : x ∈ l) :
    ∃ a c, l.flatMap f = a ++ f x ++ c := by
  obtain ⟨s, t, rfl⟩ := List.append_of_mem h
  exact ⟨s.flatMap f, t.flatMap f, by simp [List.flatMap_append, List.flatMap_cons]⟩

theorem mem_values {α β : Type} {d : Dict α β} {p : α × β} (h : p ∈ d) : p.2 ∈ values d := List.mem_map_of_mem h

/-- C153: in the dictionary of rates that are not negative, every total under `'__all__'` is at least each total and each rate
that it sums up, although all are rounded separately: whatever the names and the order of the events. -/
theorem C153_totals (R : Rounding K) (lname : L → String) (m : Map3 L (RateAcc K)) (start stop now : K) (t)
    (h : getRates R lname m start stop now = some t)
    (hp : ∀ a ∈ accs m, ∀ r, getRate R a (some start) (some stop) now = some r → 0 ≤ r) :
    ∃ T, get? t "__all__" = some (.inl T) ∧ ∀ l d2, get? t l = some (.inr d2) →
      ∃ T2, get? d2 "__all__" = some (.inl T2) ∧ T2 ≤ T ∧ ∀ n d3, get? d2 n = some (.inr d3) →
        ∃ T3, get? d3 "__all__" = some T3 ∧ T3 ≤ T2 ∧ ∀ s r, get? d3 s = some r → 0 ≤ r ∧ r ≤ T3 := by
  unfold getRates at h
  split at h
  swap
  · cases h
  rename_i hall
  rw [List.all_eq_true] at hall
  generalize hrate : (fun a : RateAcc K => (getRate R a (some start) (some stop) now).getD 0) = rate at h
  have hpos : ∀ a ∈ accs m, 0 ≤ rate a := by
    intro a ha
    obtain ⟨r, hr⟩ := Option.isSome_iff_exists.1 (hall a ha)
    rw [← hrate]
    simp only [hr, Option.getD_some]
    exact hp a ha r hr
  have hfl : ∀ a ∈ accs m, R.Is (rate a) := by
    intro a _
    rw [← hrate]
    simp only
    have h0 : R.Is 0 := rnd_zero R
    cases hg : getRate R a (some start) (some stop) now with
    | none => exact h0
    | some r =>
      rw [Option.getD_some]
      unfold getRate at hg
      split at hg
      · dsimp only at hg
        repeat' split at hg
        all_goals first | cases hg | skip
        all_goals exact R.idem _
      · obtain rfl := Option.some.inj hg
        exact h0
  clear hall hp
  rw [loop1_eq] at h
  obtain rfl := Option.some.inj h
  refine ⟨sumFrom R 0 ((accs m).map rate), by simp [get?_set, ALL], ?_⟩
  intro l d2 h2
  rw [get?_set] at h2
  split at h2
  · cases h2
  obtain ⟨p, hpm, -, hp2⟩ := get?_foldl_mem (m.map fun p => (lname p.1, p.2)) (fun x => Sum.inr (row2 R rate x)) _ _ h2
  obtain rfl := Sum.inr.inj hp2
  obtain ⟨q, hqm, rfl⟩ := List.mem_map.1 hpm
  simp only
  have hsub2 : ∀ d3 ∈ values q.2, ∀ a ∈ values d3, a ∈ accs m := by
    intro d3 hd3 a ha
    exact List.mem_flatMap.2 ⟨q.2, mem_values hqm, List.mem_flatMap.2 ⟨d3, hd3, ha⟩⟩
  refine ⟨sumFrom R 0 ((values q.2).flatMap fun d3 => (values d3).map rate), by simp [row2, get?_set, ALL], ?_, ?_⟩
  · obtain ⟨a, c, hac⟩ := flatMap_split (fun d2 : Dict String (Dict String (RateAcc K)) => (values d2).flatMap values)
      (mem_values hqm)
    have e : (accs m).map rate = a.map rate ++ ((values q.2).flatMap fun d3 => (values d3).map rate) ++ c.map rate := by
      rw [accs, hac, List.map_append, List.map_append, List.map_flatMap]
    rw [e]
    have hac' : accs m = a ++ (values q.2).flatMap values ++ c := hac
    refine sumFrom_part R _ _ _ ?_ ?_
    · intro x hx
      obtain ⟨y, hy, rfl⟩ := List.mem_map.1 hx
      exact hpos y (by rw [hac']; simp [hy])
    · intro x hx
      obtain ⟨y, hy, rfl⟩ := List.mem_map.1 hx
      exact hpos y (by rw [hac']; simp [hy])
  intro n d3 h3
  unfold row2 at h3
  rw [get?_set] at h3
  split at h3
  · cases h3
  obtain ⟨w, hwm, -, hw2⟩ := get?_foldl_mem q.2 (fun x => Sum.inr (row3 R rate x)) _ _ h3
  obtain rfl := Sum.inr.inj hw2
  have hcell : ∀ a ∈ values w.2, a ∈ accs m := hsub2 _ (mem_values hwm)
  refine ⟨sumFrom R 0 ((values w.2).map rate), by simp [row3, get?_set, ALL], ?_, ?_⟩
  · obtain ⟨a, c, hac⟩ := flatMap_split (fun d3 : Dict String (RateAcc K) => (values d3).map rate) (mem_values hwm)
    rw [hac]
    have hnn : ∀ x ∈ (values q.2).flatMap (fun d3 => (values d3).map rate), 0 ≤ x := by
      intro x hx
      obtain ⟨d, hd, hx⟩ := List.mem_flatMap.1 hx
      obtain ⟨y, hy, rfl⟩ := List.mem_map.1 hx
      exact hpos y (hsub2 d hd y hy)
    rw [hac] at hnn
    exact sumFrom_part R _ _ _ (fun x hx => hnn x (by simp [hx])) (fun x hx => hnn x (by simp [hx]))
  intro s r hr
  have hnn : ∀ x ∈ (values w.2).map rate, 0 ≤ x := by
    intro x hx
    obtain ⟨y, hy, rfl⟩ := List.mem_map.1 hx
    exact hpos y (hcell y hy)
  unfold row3 at hr
  rw [get?_set] at hr
  split at hr
  · obtain rfl := Option.some.inj hr
    exact ⟨sumFrom_le R (rnd_zero R) _ hnn, le_refl _⟩
  obtain ⟨v, hvm, -, rfl⟩ := get?_foldl_mem _ _ _ _ hr
  refine ⟨hnn _ (List.mem_map_of_mem (mem_values hvm)), ?_⟩
  obtain ⟨a, c, hac⟩ := List.append_of_mem (List.mem_map_of_mem (f := rate) (mem_values hvm))
  rw [hac] at hnn ⊢
  have := sumFrom_part R a [rate v.2] c (fun x hx => hnn x (by simp [hx])) (fun x hx => hnn x (by simp [hx]))
  have e : sumFrom R 0 [rate v.2] = rate v.2 := by
    show R.rnd (0 + rate v.2) = _
    rw [zero_add]
    exact hfl _ (hcell _ (mem_values hvm))
  rw [e] at this
  simpa using this

/-- The error of a sum. -/
theorem sumFrom_near {u η : K} (hu : 0 ≤ u) (hη : 0 ≤ η) (hR : R.Near u η) (l : List K) (hl : ∀ x ∈ l, 0 ≤ x) :
    |sumFrom R 0 l - l.sum| ≤ ((1 + u) ^ l.length - 1) * l.sum + l.length * (1 + u) ^ l.length * η := by
  induction l using List.reverseRecOn with
  | nil => simp [sumFrom]
  | append_singleton l x ih =>
    have hx := hl x (by simp)
    have hl' : ∀ y ∈ l, 0 ≤ y := fun y hy => hl y (by simp [hy])
    have ih := ih hl'
    have hS : 0 ≤ l.sum := List.sum_nonneg hl'
    rw [sumFrom_append]
    set s := sumFrom R 0 l with hs
    have e1 : sumFrom R s [x] = R.rnd (s + x) := rfl
    have h0 : 0 ≤ s := sumFrom_le R (rnd_zero R) l hl'
    have hn := hR (s + x)
    rw [abs_of_nonneg (add_nonneg h0 hx)] at hn
    rw [e1]
    simp only [List.sum_append, List.sum_cons, List.sum_nil, add_zero, List.length_append, List.length_cons, List.length_nil,
      zero_add]
    have htri : |R.rnd (s + x) - (l.sum + x)| ≤ |R.rnd (s + x) - (s + x)| + |s - l.sum| := by
      have := abs_add_le (R.rnd (s + x) - (s + x)) (s - l.sum)
      rwa [show R.rnd (s + x) - (s + x) + (s - l.sum) = R.rnd (s + x) - (l.sum + x) by ring] at this
    have hsle : s ≤ l.sum + |s - l.sum| := by have := le_abs_self (s - l.sum); linarith
    have hg : (1 : K) ≤ (1 + u) ^ l.length := one_le_pow₀ (by linarith)
    rw [pow_succ]
    push_cast
    generalize l.sum = S at *
    generalize (1 + u) ^ l.length = g at *
    generalize |s - S| = e at *
    have hn0 : (0 : K) ≤ l.length := Nat.cast_nonneg _
    generalize (l.length : K) = n at *
    have h1 : u * (s + x) ≤ u * (S + e + x) := mul_le_mul_of_nonneg_left (by linarith) hu
    have h2 : (1 + u) * e ≤ (1 + u) * ((g - 1) * S + n * g * η) := mul_le_mul_of_nonneg_left ih (by linarith)
    have h3 : η ≤ g * (1 + u) * η := by
      have : (1 : K) ≤ g * (1 + u) := by nlinarith
      nlinarith
    have h4 : 0 ≤ (g * (1 + u) - 1 - u) * x := mul_nonneg (by nlinarith) hx
    nlinarith

theorem sum1_accs (val : A → K) (m : Map3 L A) : sum1 val m = ((accs m).map val).sum := by
  have h2 : ∀ d : Dict String (Dict String A), sum2 val d = (((values d).flatMap values).map val).sum := by
    intro d
    induction d with
    | nil => rfl
    | cons p d ih =>
      simp only [sum2, sum3, values, List.map_cons, List.sum_cons, List.flatMap_cons, List.map_append, List.sum_append] at ih ⊢
      rw [ih]
  induction m with
  | nil => rfl
  | cons p m ih =>
    have e : accs (p :: m) = (values p.2).flatMap values ++ accs m := by simp [accs, values]
    rw [e, List.map_append, List.sum_append, ← ih, ← h2]
    simp [sum1, values]

/-- C153: with doubles, `get_rates` works when the exact one does, and the grand total of `n` rates that are not negative has a
relative error of at most about `(n + 4) / 2^53`. -/
theorem C153_grand [FloorRing K] (lname : L → String) (m : Map3 L (RateAcc K)) (start stop now : K)
    (hm : ∀ a ∈ accs m, Doubles a) (h1 : (binary64 : Rounding K).Is start) (h2 : (binary64 : Rounding K).Is stop)
    (h3 : (binary64 : Rounding K).Is now) (t0) (T0 : K) (h0 : Sinks.getRates lname m start stop now = some t0)
    (hT : get? t0 "__all__" = some (.inl T0))
    (hp : ∀ a ∈ accs m, ∀ r, Sinks.getRate a (some start) (some stop) now = some r → 0 ≤ r) :
    ∃ t T, getRates binary64 lname m start stop now = some t ∧ get? t "__all__" = some (.inl T) ∧
      |T - T0| ≤ ((1 + 2 ^ (-53 : ℤ)) ^ (accs m).length * (1 + 2 ^ (-51 : ℤ)) - 1) * T0 +
        (accs m).length * (1 + 2 ^ (-53 : ℤ)) ^ (accs m).length * 2 ^ (-1074 : ℤ) := by
  classical
  obtain ⟨hr, rfl⟩ := C71_reads h0
  have hT' : T0 = ((accs m).map fun a => (Sinks.getRate a (some start) (some stop) now).getD 0).sum := by
    rw [← sum1_accs]
    have := agg1_all (lname := lname) (val := fun a => (Sinks.getRate a (some start) (some stop) now).getD 0) m
    rw [ALL, hT] at this
    exact Sum.inl.inj (Option.some.inj this)
  have hs : ∀ v, some start = some v → (binary64 : Rounding K).Is v := by rintro v ⟨⟩; exact h1
  have he : ∀ v, some stop = some v → (binary64 : Rounding K).Is v := by rintro v ⟨⟩; exact h2
  have cell : ∀ a ∈ accs m, (getRate binary64 a (some start) (some stop) now).isSome ∧
      0 ≤ (Sinks.getRate a (some start) (some stop) now).getD 0 ∧
      0 ≤ (getRate binary64 a (some start) (some stop) now).getD 0 ∧
      |(getRate binary64 a (some start) (some stop) now).getD 0 - (Sinks.getRate a (some start) (some stop) now).getD 0| ≤
        2 ^ (-51 : ℤ) * (Sinks.getRate a (some start) (some stop) now).getD 0 + 2 ^ (-1075 : ℤ) := by
    intro a ha
    obtain ⟨r, hra⟩ := hr a ha
    obtain ⟨r', e', hn, hpos, -⟩ := C153_rate a (hm a ha) (some start) (some stop) now hs he h3 r hra
    have hr0 := hp a ha r hra
    rw [abs_of_nonneg hr0] at hn
    rw [e', hra]
    exact ⟨rfl, hr0, hpos hr0, hn⟩
  refine ⟨_, sumFrom binary64 0 ((accs m).map fun a => (getRate binary64 a (some start) (some stop) now).getD 0),
    if_pos (List.all_eq_true.2 fun a ha => (cell a ha).1), ?_, ?_⟩
  · simp [get?_set, ALL, loop1_eq]
  have hsum := sumFrom_near (binary64 : Rounding K) (zpow_pos (by norm_num) _).le (zpow_pos (by norm_num) _).le binary64_near
    ((accs m).map fun a => (getRate binary64 a (some start) (some stop) now).getD 0)
    (by
      intro x hx
      obtain ⟨a, ha, rfl⟩ := List.mem_map.1 hx
      exact (cell a ha).2.2.1)
  rw [List.length_map] at hsum
  have hdiff : |((accs m).map fun a => (getRate binary64 a (some start) (some stop) now).getD 0).sum - T0| ≤
      2 ^ (-51 : ℤ) * T0 + (accs m).length * 2 ^ (-1075 : ℤ) := by
    rw [hT']
    clear hsum hT' hT hr h0 hp hm
    revert cell
    induction accs m with
    | nil => intro _; simp
    | cons a l ih =>
      intro cell
      have hc := (cell a (by simp)).2.2.2
      have ih := ih fun b hb => cell b (by simp [hb])
      simp only [List.map_cons, List.sum_cons, List.length_cons]
      push_cast
      rw [abs_le] at hc ih ⊢
      constructor <;> nlinarith [hc.1, hc.2, ih.1, ih.2]
  have hg : (1 : K) ≤ (1 + 2 ^ (-53 : ℤ)) ^ (accs m).length :=
    one_le_pow₀ (by linarith [zpow_pos (show (0 : K) < 2 by norm_num) (-53)])
  have e74 : (2 : K) ^ (-1074 : ℤ) = 2 * 2 ^ (-1075 : ℤ) := by
    rw [show (-1074 : ℤ) = 1 + -1075 by norm_num, zpow_add₀ (by norm_num : (2 : K) ≠ 0), zpow_one]
  rw [e74]
  have hη : (0 : K) ≤ 2 ^ (-1075 : ℤ) := (zpow_pos (by norm_num) _).le
  have hn0 : (0 : K) ≤ (accs m).length := Nat.cast_nonneg _
  generalize ((accs m).map fun a => (getRate binary64 a (some start) (some stop) now).getD 0).sum = S at *
  generalize sumFrom (binary64 : Rounding K) 0 ((accs m).map fun a => (getRate binary64 a (some start) (some stop) now).getD 0) = T at *
  generalize (1 + (2 : K) ^ (-53 : ℤ)) ^ (accs m).length = g at *
  generalize (2 : K) ^ (-51 : ℤ) = δ at *
  generalize (2 : K) ^ (-1075 : ℤ) = η at *
  generalize ((accs m).length : K) = n at *
  have htri : |T - T0| ≤ |T - S| + |S - T0| := by
    have := abs_add_le (T - S) (S - T0)
    rwa [sub_add_sub_cancel] at this
  have hS : S ≤ (1 + δ) * T0 + n * η := by have := le_abs_self (S - T0); linarith
  have h5 : (g - 1) * S ≤ (g - 1) * ((1 + δ) * T0 + n * η) := mul_le_mul_of_nonneg_left hS (by linarith)
  nlinarith

end Sums

/-! ## Without rounding -/

section Exact

variable {K : Type} [Field K] [LinearOrder K] [IsStrictOrderedRing K] {L : Type}

theorem getRate_exact (a : RateAcc K) (start stop : Option K) (now : K) :
    getRate exact a start stop now = Sinks.getRate a start stop now := rfl

theorem sumFrom_exact (s : K) (l : List K) : sumFrom exact s l = s + l.sum := by
  induction l generalizing s with
  | nil => simp [sumFrom]
  | cons x l ih =>
    rw [List.sum_cons, ← add_assoc]
    exact ih (s + x)

theorem row3_exact {A : Type} (rate : A → K) (d : Dict String A) : row3 exact rate d = agg3 rate d := by
  simp [row3, agg3, sum3, sumFrom_exact]

theorem row2_exact {A : Type} (rate : A → K) (d : Dict String (Dict String A)) : row2 exact rate d = agg2 rate d := by
  have e : ((values d).flatMap fun d3 => (values d3).map rate).sum = sum2 rate d := by
    unfold sum2
    induction values d with
    | nil => rfl
    | cons x l ih => simp [ih, sum3]
  simp only [row2, agg2, sumFrom_exact, zero_add, e, row3_exact]

/-- C153: without rounding the model is the one of C71. -/
theorem C153_exact (lname : L → String) (m : Map3 L (RateAcc K)) (start stop now : K) :
    getRates exact lname m start stop now = Sinks.getRates lname m start stop now := by
  unfold getRates Sinks.getRates
  simp only [getRate_exact, loop1_eq, row2_exact, sumFrom_exact, zero_add]
  simp only [agg1, sum1_accs]

end Exact

/-! ## An example -/

/-- Two labels with three and one events. -/
def ex1 : RateAcc ℚ := ⟨[1, 2, 4], 3, 0, none⟩
def ex2 : RateAcc ℚ := ⟨[5], 1, 0, some 10⟩
def exm : Map3 String (RateAcc ℚ) := [("log", [("get", [("success", ex1), ("failure", ex2)])])]

theorem ex_doubles : ∀ a ∈ accs exm, Doubles a := by
  have h : accs exm = [ex1, ex2] := rfl
  have i : ∀ k : ℤ, |k| ≤ 2 ^ 53 → (binary64 : Rounding ℚ).Is (k : ℚ) := fun k hk => binary64_int hk
  intro a ha
  rw [h] at ha
  simp only [List.mem_cons, List.not_mem_nil, or_false] at ha
  rcases ha with rfl | rfl
  · refine ⟨?_, (by simpa using i 0 (by norm_num) : (binary64 : Rounding ℚ).Is 0), by decide, by decide⟩
    intro t ht
    simp only [ex1, List.mem_cons, List.not_mem_nil, or_false] at ht
    rcases ht with rfl | rfl | rfl
    · simpa using i 1 (by norm_num)
    · simpa using i 2 (by norm_num)
    · simpa using i 4 (by norm_num)
  · refine ⟨?_, (by simpa using i 0 (by norm_num) : (binary64 : Rounding ℚ).Is 0), by decide, by decide⟩
    intro t ht
    simp only [ex2, List.mem_cons, List.not_mem_nil, or_false] at ht
    rcases ht with rfl
    simpa using i 5 (by norm_num)

/-- `C153_grand` is met: the exact total is 4/7, and three sevenths and a seventh are no doubles. -/
example : ∃ t T, getRates binary64 id exm 0 7 9 = some t ∧ get? t "__all__" = some (.inl T) ∧
    |T - 4 / 7| ≤ ((1 + 2 ^ (-53 : ℤ)) ^ 2 * (1 + 2 ^ (-51 : ℤ)) - 1) * (4 / 7) + 2 * (1 + 2 ^ (-53 : ℤ)) ^ 2 * 2 ^ (-1074 : ℤ) := by
  have i : ∀ k : ℤ, |k| ≤ 2 ^ 53 → (binary64 : Rounding ℚ).Is (k : ℚ) := fun k hk => binary64_int hk
  have h := C153_grand (K := ℚ) id exm 0 7 9 ex_doubles (by simpa using i 0 (by norm_num)) (by simpa using i 7 (by norm_num))
    (by simpa using i 9 (by norm_num))
    _ (4 / 7) (if_pos (by decide +kernel))
    ((agg1_all _ _ exm).trans (congrArg (fun x => some (Sum.inl x)) (by decide +kernel))) (by
      have h : accs exm = [ex1, ex2] := rfl
      intro a ha r hr
      rw [h] at ha
      simp only [List.mem_cons, List.not_mem_nil, or_false] at ha
      rcases ha with rfl | rfl
      · have : Sinks.getRate ex1 (some 0) (some 7) 9 = some (3 / 7) := by decide +kernel
        rw [this] at hr; obtain rfl := Option.some.inj hr; norm_num
      · have : Sinks.getRate ex2 (some 0) (some 7) 9 = some (1 / 7) := by decide +kernel
        rw [this] at hr; obtain rfl := Option.some.inj hr; norm_num)
  have hl : (accs exm).length = 2 := rfl
  rw [hl] at h
  exact h

/-- `C153_raises` both ways: a window without length, and one of the length of the smallest double. -/
example : getRate (binary64 : Rounding ℚ) ex1 none (some 0) 0 = none := by
  have i : ∀ k : ℤ, |k| ≤ 2 ^ 53 → (binary64 : Rounding ℚ).Is (k : ℚ) := fun k hk => binary64_int hk
  have z : (binary64 : Rounding ℚ).Is 0 := by simpa using i 0 (by norm_num)
  rw [C153_raises ex1 (ex_doubles ex1 (by simp [accs, exm, values])) none (some 0) 0 (by simp)
    (by rintro v ⟨⟩; exact z) z]
  decide +kernel

example : getRate (binary64 : Rounding ℚ) ex1 none (some (2 ^ (-1074 : ℤ))) 0 ≠ none := by
  have i : ∀ k : ℤ, |k| ≤ 2 ^ 53 → (binary64 : Rounding ℚ).Is (k : ℚ) := fun k hk => binary64_int hk
  have z : (binary64 : Rounding ℚ).Is 0 := by simpa using i 0 (by norm_num)
  have w : (binary64 : Rounding ℚ).Is (2 ^ (-1074 : ℤ)) := by
    simpa using binary64_is (K := ℚ) (k := 1) (e := -1074) (by norm_num) (by norm_num)
  rw [Ne, C153_raises ex1 (ex_doubles ex1 (by simp [accs, exm, values])) none (some (2 ^ (-1074 : ℤ))) 0 (by simp)
    (by rintro v ⟨⟩; exact w) z]
  decide +kernel

/-- `C153_totals` is met: it needs a dictionary of rates that are not negative. -/
example : ∃ t, getRates (binary64 : Rounding ℚ) id exm 0 7 9 = some t ∧
    ∀ a ∈ accs exm, ∀ r, getRate (binary64 : Rounding ℚ) a (some 0) (some 7) 9 = some r → 0 ≤ r := by
  have i : ∀ k : ℤ, |k| ≤ 2 ^ 53 → (binary64 : Rounding ℚ).Is (k : ℚ) := fun k hk => binary64_int hk
  have i0 : (binary64 : Rounding ℚ).Is 0 := by simpa using i 0 (by norm_num)
  have i7 : (binary64 : Rounding ℚ).Is 7 := by simpa using i 7 (by norm_num)
  have i9 : (binary64 : Rounding ℚ).Is 9 := by simpa using i 9 (by norm_num)
  have cell : ∀ a ∈ accs exm, ∃ r', getRate (binary64 : Rounding ℚ) a (some 0) (some 7) 9 = some r' ∧ 0 ≤ r' := by
    intro a ha
    have hd := ex_doubles a ha
    have h : accs exm = [ex1, ex2] := rfl
    rw [h] at ha
    simp only [List.mem_cons, List.not_mem_nil, or_false] at ha
    rcases ha with rfl | rfl
    · obtain ⟨r', h1, -, h2, -⟩ := C153_rate ex1 hd (some 0) (some 7) 9 (by rintro v ⟨⟩; exact i0)
        (by rintro v ⟨⟩; exact i7) i9 (3 / 7) (by decide +kernel)
      exact ⟨r', h1, h2 (by norm_num)⟩
    · obtain ⟨r', h1, -, h2, -⟩ := C153_rate ex2 hd (some 0) (some 7) 9 (by rintro v ⟨⟩; exact i0)
        (by rintro v ⟨⟩; exact i7) i9 (1 / 7) (by decide +kernel)
      exact ⟨r', h1, h2 (by norm_num)⟩
  refine ⟨_, if_pos (List.all_eq_true.2 fun a ha => ?_), fun a ha r hr => ?_⟩
  · obtain ⟨r, h, -⟩ := cell a ha
    rw [h]; rfl
  · obtain ⟨r', h, h0⟩ := cell a ha
    rw [hr] at h
    obtain rfl := Option.some.inj h
    exact h0

end Verif.FRate
