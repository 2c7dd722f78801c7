import Verif.Model.FloatActor
import Verif.Props.Actor
import Verif.Props.Float
import Mathlib.Tactic.Linarith
import Mathlib.Data.Rat.Floor
/-!
# C142: the actor's interval in floating point
-/
namespace Verif.FltActor

open Verif.Actor Verif.Flt

variable {K : Type} [Field K] [LinearOrder K] [IsStrictOrderedRing K]

/-- The full claim: with doubles, whatever the settings, the interval stays within them, and eight successes bring it back. -/
def Recovers : Prop :=
  ∀ (cf : Conf ℚ), (binary64 : Rounding ℚ).Is cf.orig → (binary64 : Rounding ℚ).Is cf.max → 0 ≤ cf.orig → cf.orig ≤ cf.max →
    ∀ outs, interval binary64 cf (List.replicate 8 .ok ++ outs) = cf.orig

theorem next_in (R : Rounding K) {cf : Conf K} (hio : R.Is cf.orig) (him : R.Is cf.max) (h0 : 0 ≤ cf.orig) (hm : cf.orig ≤ cf.max)
    {i : K} (hi : cf.orig ≤ i ∧ i ≤ cf.max) (o : Outcome) : cf.orig ≤ next R cf i o ∧ next R cf i o ≤ cf.max := by
  cases o with
  | ok =>
    refine ⟨le_max_right _ _, max_le ?_ hm⟩
    have h1 : 0 ≤ R.rnd (R.rnd (cf.max - cf.orig) / 8) := R.nonneg (div_nonneg (R.nonneg (by linarith)) (by norm_num))
    calc R.rnd (i - R.rnd (R.rnd (cf.max - cf.orig) / 8)) ≤ R.rnd cf.max := R.mono (by linarith [hi.2])
      _ = cf.max := him
  | exc b =>
    cases b with
    | true => exact hi
    | false =>
      refine ⟨le_min ?_ hm, min_le_right _ _⟩
      calc cf.orig = R.rnd cf.orig := hio.symm
        _ ≤ R.rnd (i * 2) := R.mono (by linarith [hi.1])
  | exit => exact hi
  | base => exact hi

/-- **C142**, bounds: with any rounding, whatever the task calls do, the interval stays between the base and the maximum. -/
theorem C142_bounds (R : Rounding K) (cf : Conf K) (hio : R.Is cf.orig) (him : R.Is cf.max) (h0 : 0 ≤ cf.orig)
    (hm : cf.orig ≤ cf.max) (outs : List Outcome) : cf.orig ≤ interval R cf outs ∧ interval R cf outs ≤ cf.max := by
  induction outs with
  | nil => exact ⟨le_refl _, hm⟩
  | cons o outs ih => exact next_in R hio him h0 hm ih o

/-- The settings an actor is made with satisfy the assumptions of the bounds: an interval that is not negative, and no maximum or
one that is not below it. -/
theorem C142_conf (R : Rounding K) (x : K) (hx : 0 ≤ x) (m : Option K) (hxm : ∀ y ∈ m, x ≤ y) (daemon : Bool) :
    R.Is (conf R x m daemon).orig ∧ R.Is (conf R x m daemon).max ∧ 0 ≤ (conf R x m daemon).orig ∧
    (conf R x m daemon).orig ≤ (conf R x m daemon).max := by
  have h8 : x ≤ x * 8 := by linarith
  cases m with
  | none => exact ⟨R.is_rnd _, R.is_rnd _, R.nonneg hx, R.mono h8⟩
  | some y =>
    refine ⟨R.is_rnd _, ?_, R.nonneg hx, ?_⟩
    · simp only [conf]; split <;> exact R.is_rnd _
    · simp only [conf]; split
      · exact R.mono h8
      · exact R.mono (hxm y rfl)

/-- With exact arithmetic this is the interval of the actor of C26, whatever is done to it by how many threads. -/
theorem C142_exact (cf : Conf K) (ls : List Lab) :
    (run cf (init cf) ls).interval = interval exact cf (run cf (init cf) ls).outs := by
  rw [interval_outs]
  unfold interval
  congr 1

/-- **C142**, recovery: nine successes in a row bring the interval back to the base, if the maximum is not too close to it. -/
theorem C142_nine_partial {R : Rounding K} {u η : K} (hn : R.Near u η) (hu0 : 0 ≤ u) (hu : u ≤ 1 / 100) (he : 0 ≤ η) (cf : Conf K)
    (hio : R.Is cf.orig) (him : R.Is cf.max) (h0 : 0 ≤ cf.orig) (hm : cf.orig ≤ cf.max)
    (hfar : 90 * u * cf.max + 270 * η ≤ cf.max - cf.orig) (outs : List Outcome) :
    interval R cf (List.replicate 9 .ok ++ outs) = cf.orig := by
  have hM : 0 ≤ cf.max := h0.trans hm
  set E := cf.max - cf.orig with hE
  have hE0 : 0 ≤ E := by rw [hE]; linarith
  set D := R.rnd (R.rnd E / 8) with hD
  -- the decrement
  have h1 : (1 - u) * E - η ≤ R.rnd E := by
    have := abs_le.1 (hn E); rw [abs_of_nonneg hE0] at this; linarith [this.1]
  have h2 : (1 - u) * (R.rnd E / 8) - η ≤ D := by
    have hp : 0 ≤ R.rnd E / 8 := div_nonneg (R.nonneg hE0) (by norm_num)
    have := abs_le.1 (hn (R.rnd E / 8)); rw [abs_of_nonneg hp] at this; linarith [this.1]
  have h3 : (1 - 2 * u) * E / 8 - 9 / 8 * η ≤ D := by
    have : (1 - u) * ((1 - u) * E - η) ≤ (1 - u) * R.rnd E := mul_le_mul_of_nonneg_left h1 (by linarith)
    nlinarith [mul_nonneg (mul_nonneg hu0 hu0) hE0, mul_nonneg hu0 he]
  have hD0 : 0 ≤ D := R.nonneg (div_nonneg (R.nonneg hE0) (by norm_num))
  have hDm : D ≤ cf.max := by
    have h : R.rnd E ≤ cf.max := by
      calc R.rnd E ≤ R.rnd cf.max := R.mono (by rw [hE]; linarith)
        _ = cf.max := him
    calc D ≤ R.rnd cf.max := R.mono (by linarith)
      _ = cf.max := him
  -- one success
  have hstep : ∀ i, cf.orig ≤ i → i ≤ cf.max → next R cf i .ok ≤ max cf.orig (i - (D - u * cf.max - η)) := by
    intro i hi1 hi2
    show max (R.rnd (i - D)) cf.orig ≤ _
    refine max_le (le_max_of_le_right ?_) (le_max_left _ _)
    have ha : |i - D| ≤ cf.max := abs_le.2 ⟨by linarith, by linarith⟩
    have := (abs_le.1 (hn (i - D))).2
    have : u * |i - D| ≤ u * cf.max := mul_le_mul_of_nonneg_left ha hu0
    linarith
  -- how much a success takes off at least
  have hg : E ≤ 9 * (D - u * cf.max - η) := by
    nlinarith [mul_le_mul_of_nonneg_right hu hE0]
  have hg0 : 0 ≤ D - u * cf.max - η := by linarith
  have hall : ∀ k : ℕ, interval R cf (List.replicate k .ok ++ outs) ≤ max cf.orig (cf.max - k * (D - u * cf.max - η)) := by
    intro k
    induction k with
    | zero => exact le_max_of_le_right (by simpa using (C142_bounds R cf hio him h0 hm outs).2)
    | succ k ih =>
      have hb := C142_bounds R cf hio him h0 hm (List.replicate k .ok ++ outs)
      have := hstep _ hb.1 hb.2
      rw [List.replicate_succ, List.cons_append]
      refine this.trans (max_le (le_max_left _ _) ?_)
      rcases le_max_iff.1 ih with h | h
      · exact le_max_of_le_left (by linarith)
      · refine le_max_of_le_right ?_
        push_cast; linarith
  refine le_antisymm ((hall 9).trans (max_le le_rfl ?_)) (C142_bounds R cf hio him h0 hm _).1
  push_cast
  linarith

/-- For doubles: nine successes are enough for an interval of at least 2^-1000 and a maximum that is larger by a factor of at
least `1 + 2^-40`. -/
theorem C142_double [FloorRing K] (cf : Conf K) (hio : binary64.Is cf.orig) (him : binary64.Is cf.max)
    (h0 : 2 ^ (-1000 : ℤ) ≤ cf.orig) (hm : cf.orig * (1 + 2 ^ (-40 : ℤ)) ≤ cf.max) (outs : List Outcome) :
    interval binary64 cf (List.replicate 9 .ok ++ outs) = cf.orig := by
  have ho : 0 < cf.orig := lt_of_lt_of_le (two_zpow_pos _) h0
  have h40 : (0 : K) < 2 ^ (-40 : ℤ) := two_zpow_pos _
  have hm' : cf.orig ≤ cf.max := by nlinarith
  have hu : (2 : K) ^ (-53 : ℤ) = 2 ^ (-40 : ℤ) / 8192 := by
    rw [show (-53 : ℤ) = -40 + -13 by norm_num, zpow_add₀ (by norm_num)]; norm_num
  have h40' : (2 : K) ^ (-40 : ℤ) ≤ 1 / 1024 := by
    rw [show (1 / 1024 : K) = 2 ^ (-10 : ℤ) by norm_num]; exact zpow_mono2 (by norm_num)
  have hη : (2 : K) ^ (-1075 : ℤ) ≤ 2 ^ (-40 : ℤ) / 8192 * cf.orig := by
    have h1 : (2 : K) ^ (-1075 : ℤ) ≤ 2 ^ (-40 : ℤ) / 8192 * 2 ^ (-1000 : ℤ) := by
      rw [← hu, ← zpow_add₀ (by norm_num)]; exact zpow_mono2 (by norm_num)
    exact h1.trans (mul_le_mul_of_nonneg_left h0 (by positivity))
  refine C142_nine_partial binary64_near (two_zpow_pos _).le ?_ (two_zpow_pos _).le cf hio him ho.le hm' ?_ outs
  · rw [hu]; linarith
  · rw [hu]
    generalize (2 : K) ^ (-1075 : ℤ) = η at hη
    generalize (2 : K) ^ (-40 : ℤ) = e at *
    -- `max - orig` is at least `e / 2 * max`
    have h1 : cf.max * (e / 2) ≤ cf.max - cf.orig := by
      nlinarith
    have h2 : e / 8192 * cf.orig ≤ e / 8192 * cf.max := mul_le_mul_of_nonneg_left hm' (by positivity)
    have h3 : 0 ≤ e * cf.max := mul_nonneg h40.le (ho.le.trans hm')
    linarith

/-! ## Whole settings -/

/-- A whole number of eighths, not too large. -/
def Eighths (x : K) : Prop := ∃ k : ℤ, x = k / 8 ∧ |k| ≤ 2 ^ 52

theorem Eighths.is [FloorRing K] {x : K} (h : Eighths x) : (binary64 : Rounding K).Is x := by
  obtain ⟨k, rfl, hk⟩ := h
  have := binary64_is (K := K) (k := k) (e := -3) (hk.trans (by norm_num)) (by norm_num)
  rwa [show (k : K) * 2 ^ (-3 : ℤ) = k / 8 by rw [zpow_neg, div_eq_mul_inv]; norm_num] at this

/-- **C142**, whole settings: with an interval and a maximum that are whole numbers of at most 2^48 no operation rounds; the interval
is what exact arithmetic makes it, so that C26 holds as it stands, and eight successes bring it back. -/
theorem C142_whole [FloorRing K] (a b : ℕ) (hab : a ≤ b) (hb : b ≤ 2 ^ 48) (daemon : Bool) (outs : List Outcome) :
    interval binary64 (⟨a, b, daemon⟩ : Conf K) outs = interval exact (⟨a, b, daemon⟩ : Conf K) outs := by
  have hle : (a : K) ≤ b := by exact_mod_cast hab
  have key : ∀ outs : List Outcome, interval binary64 (⟨a, b, daemon⟩ : Conf K) outs = interval exact (⟨a, b, daemon⟩ : Conf K) outs ∧
      ∃ k : ℤ, interval exact (⟨a, b, daemon⟩ : Conf K) outs = k / 8 := by
    intro outs
    induction outs with
    | nil => exact ⟨rfl, 8 * a, by simp [interval]⟩
    | cons o outs ih =>
      obtain ⟨e, k, hk⟩ := ih
      have hbd := C142_bounds (exact : Rounding K) ⟨a, b, daemon⟩ rfl rfl (by simp) hle outs
      show next binary64 (⟨a, b, daemon⟩ : Conf K) (interval binary64 ⟨a, b, daemon⟩ outs) o =
          next exact (⟨a, b, daemon⟩ : Conf K) (interval exact (⟨a, b, daemon⟩ : Conf K) outs) o ∧
        ∃ j : ℤ, next exact (⟨a, b, daemon⟩ : Conf K) (interval exact ⟨a, b, daemon⟩ outs) o = j / 8
      rw [e]
      rw [hk] at hbd ⊢
      simp only at hbd
      have hk0 : (0 : ℤ) ≤ k := by
        have h : (0 : K) ≤ k := by
          have : (0 : K) ≤ a := Nat.cast_nonneg a
          linarith [hbd.1]
        exact_mod_cast h
      have hkb : k ≤ 8 * b := by
        have h : (k : K) ≤ 8 * b := by linarith [hbd.2]
        exact_mod_cast h
      have hb' : (b : ℤ) ≤ 2 ^ 48 := by exact_mod_cast hb
      have ha' : (a : ℤ) ≤ b := by exact_mod_cast hab
      have ha0 : (0 : ℤ) ≤ a := Int.natCast_nonneg a
      cases o with
      | ok =>
        have e1 : (binary64 : Rounding K).rnd ((b : K) - a) = b - a :=
          Eighths.is ⟨8 * (b - a), by push_cast; ring, by rw [abs_le]; constructor <;> omega⟩
        have e2 : (binary64 : Rounding K).rnd (((b : K) - a) / 8) = (b - a) / 8 :=
          Eighths.is ⟨b - a, by push_cast; ring, by rw [abs_le]; constructor <;> omega⟩
        have e3 : (binary64 : Rounding K).rnd ((k : K) / 8 - (b - a) / 8) = k / 8 - (b - a) / 8 :=
          Eighths.is ⟨k - (b - a), by push_cast; ring, by rw [abs_le]; constructor <;> omega⟩
        constructor
        · simp only [next, e1, e2, e3]; rfl
        · simp only [next, exact, id]
          rcases max_choice ((k : K) / 8 - (b - a) / 8) a with h | h
          · exact ⟨k - (b - a), by rw [h]; push_cast; ring⟩
          · exact ⟨8 * a, by rw [h]; push_cast; ring⟩
      | exc c =>
        cases c with
        | true => exact ⟨rfl, k, rfl⟩
        | false =>
          have e1 : (binary64 : Rounding K).rnd ((k : K) / 8 * 2) = k / 8 * 2 :=
            Eighths.is ⟨2 * k, by push_cast; ring, by rw [abs_le]; constructor <;> omega⟩
          constructor
          · simp only [next, e1]; rfl
          · simp only [next, exact, id]
            rcases min_choice ((k : K) / 8 * 2) b with h | h
            · exact ⟨2 * k, by rw [h]; push_cast; ring⟩
            · exact ⟨8 * b, by rw [h]; push_cast; ring⟩
      | exit => exact ⟨rfl, k, rfl⟩
      | base => exact ⟨rfl, k, rfl⟩
  exact (key outs).1

/-- So an actor with the default settings, 200 and 1600 milliseconds, recovers in eight successes. -/
example (outs : List Outcome) : interval binary64 (⟨200, 1600, true⟩ : Conf ℚ) outs = interval exact (⟨200, 1600, true⟩ : Conf ℚ) outs := by
  have := C142_whole (K := ℚ) 200 1600 (by norm_num) (by norm_num) true outs
  simpa using this

/-- The smallest double above 1, as an interval without a maximum. -/
def odd : Conf ℚ := conf binary64 (1 + 1 / 2 ^ 52) none true

/-- **C142** is false as it stands: with this interval, which may back off to eight times itself, eight successes leave it above the
base. -/
theorem C142_violated : ¬ Recovers := by
  intro h
  have hc := C142_conf (binary64 : Rounding ℚ) (1 + 1 / 2 ^ 52) (by norm_num) none (by simp) true
  have := h odd hc.1 hc.2.1 hc.2.2.1 hc.2.2.2 (List.replicate 3 (.exc false))
  revert this
  decide +kernel

/-- Nine successes bring it back. -/
example (outs : List Outcome) : interval binary64 odd (List.replicate 9 .ok ++ outs) = odd.orig := by
  have hc := C142_conf (binary64 : Rounding ℚ) (1 + 1 / 2 ^ 52) (by norm_num) none (by simp) true
  refine C142_double odd hc.1 hc.2.1 ?_ ?_ outs
  · decide +kernel
  · decide +kernel

end Verif.FltActor
