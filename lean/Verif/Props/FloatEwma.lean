import Verif.Model.FloatEwma
import Verif.Props.Float
import Verif.Props.Ewma
import Mathlib.Tactic.Linarith
import Mathlib.Tactic.Positivity
import Mathlib.Tactic.NormNum
/-!
# Rates in floating point (C133)
-/
namespace Verif.FltEwma

open Verif.Flt

variable {K : Type} [Field K] [LinearOrder K] [IsStrictOrderedRing K]

/-! ## One step -/

theorem moved_up (R : Rounding K) {al a b : K} (ha : R.Is a) (hb : 0 ≤ b - a) (h0 : 0 ≤ al) : a ≤ moved R al b a := by
  have h : 0 ≤ R.rnd (al * R.rnd (b - a)) := R.nonneg (mul_nonneg h0 (R.nonneg hb))
  calc a = R.rnd a := ha.symm
    _ ≤ _ := R.mono (by linarith)

theorem moved_neg (R : Rounding K) (al a b : K) : moved R al (-b) (-a) = -moved R al b a := by
  unfold moved
  rw [show -b - -a = -(b - a) by ring, R.neg, mul_neg, R.neg, ← neg_add, R.neg]

theorem moved_down (R : Rounding K) {al a b : K} (ha : R.Is a) (hb : b - a ≤ 0) (h0 : 0 ≤ al) : moved R al b a ≤ a := by
  have := moved_up R (al := al) (a := -a) (b := -b) (by rw [Rounding.Is, R.neg, ha]) (by linarith) h0
  rw [moved_neg] at this
  linarith

theorem moved_is (R : Rounding K) (al a b : K) : R.Is (moved R al b a) := R.is_rnd _

/-- A weight of at most a half does not overshoot. -/
theorem moved_half (R : Rounding K) {al a b lo hi : K} (ha : R.Is a) (hb : R.Is b) (h0 : 0 ≤ al) (h1 : al ≤ 1 / 2)
    (ba : lo ≤ a ∧ a ≤ hi) (bb : lo ≤ b ∧ b ≤ hi) : lo ≤ moved R al b a ∧ moved R al b a ≤ hi := by
  have key : ∀ {a b : K}, R.Is a → R.Is b → a ≤ b → moved R al b a ≤ b := by
    intro a b ha hb hab
    have hd : 0 ≤ R.rnd (b - a) := R.nonneg (by linarith)
    have h2 : R.rnd (al * R.rnd (b - a)) ≤ b - a := by
      refine le_trans (R.mono ?_) (R.half (by linarith : 0 ≤ b - a))
      rw [div_eq_inv_mul]
      exact mul_le_mul_of_nonneg_right (by linarith) hd
    calc moved R al b a ≤ R.rnd b := R.mono (by linarith)
      _ = b := hb
  rcases le_total a b with h | h
  · exact ⟨ba.1.trans (moved_up R ha (by linarith) h0), (key ha hb h).trans bb.2⟩
  · have := key (a := -a) (b := -b) (by rw [Rounding.Is, R.neg, ha]) (by rw [Rounding.Is, R.neg, hb]) (by linarith)
    rw [moved_neg] at this
    exact ⟨bb.1.trans (by linarith), (moved_down R ha (by linarith) h0).trans ba.2⟩

theorem moved_nonneg (R : Rounding K) {al a b : K} (ha : R.Is a) (h0 : 0 ≤ al) (h1 : al ≤ 1) (a0 : 0 ≤ a) (b0 : 0 ≤ b) :
    0 ≤ moved R al b a := by
  rcases le_total a b with h | h
  · exact a0.trans (moved_up R ha (by linarith) h0)
  · apply R.nonneg
    have hd : -a ≤ R.rnd (b - a) := by
      calc -a = R.rnd (-a) := by rw [R.neg, ha]
        _ ≤ _ := R.mono (by linarith)
    have hd0 : R.rnd (b - a) ≤ 0 := R.nonpos (by linarith)
    have h2 : -a ≤ al * R.rnd (b - a) := by nlinarith
    have : -a ≤ R.rnd (al * R.rnd (b - a)) := by
      calc -a = R.rnd (-a) := by rw [R.neg, ha]
        _ ≤ _ := R.mono h2
    linarith

/-- How far rounding moves the result. -/
def slack (u η M : K) : K := 9 * u * M + 5 * η

theorem moved_near {R : Rounding K} {u η : K} (hn : R.Near u η) (hu0 : 0 ≤ u) (hu : u ≤ 1 / 2) (he : 0 ≤ η) {al a b M : K}
    (h0 : 0 ≤ al) (h1 : al ≤ 1) (ha : |a| ≤ M) (hb : |b| ≤ M) : |moved R al b a - (a + al * (b - a))| ≤ slack u η M := by
  have hM : 0 ≤ M := (abs_nonneg a).trans ha
  have huM : 0 ≤ u * M := mul_nonneg hu0 hM
  have hue : u * η ≤ 1 / 2 * η := mul_le_mul_of_nonneg_right hu he
  have huu : u * (u * M) ≤ 1 / 2 * (u * M) := mul_le_mul_of_nonneg_right hu huM
  have huue : u * (u * η) ≤ 1 / 2 * (u * η) := mul_le_mul_of_nonneg_right hu (mul_nonneg hu0 he)
  have hba : |b - a| ≤ 2 * M := by
    rw [abs_le] at ha hb ⊢; constructor <;> linarith [ha.1, ha.2, hb.1, hb.2]
  set d := R.rnd (b - a) with hd
  have e1 : |d - (b - a)| ≤ 2 * (u * M) + η := by
    refine (hn (b - a)).trans ?_
    have := mul_le_mul_of_nonneg_left hba hu0
    linarith
  have d1 : |d| ≤ 2 * M + 2 * (u * M) + η := by
    calc |d| = |(b - a) + (d - (b - a))| := by congr 1; ring
      _ ≤ _ := abs_add_le _ _
      _ ≤ _ := by linarith
  set p := R.rnd (al * d) with hp
  have hald : |al * d| ≤ 2 * M + 2 * (u * M) + η := by
    rw [abs_mul, abs_of_nonneg h0]
    calc al * |d| ≤ 1 * |d| := mul_le_mul_of_nonneg_right h1 (abs_nonneg _)
      _ ≤ _ := by rw [one_mul]; exact d1
  have e2 : |p - al * d| ≤ 3 * (u * M) + 3 / 2 * η := by
    refine (hn (al * d)).trans ?_
    have := mul_le_mul_of_nonneg_left hald hu0
    linarith
  have e3 : |al * d - al * (b - a)| ≤ 2 * (u * M) + η := by
    rw [← mul_sub, abs_mul, abs_of_nonneg h0]
    calc al * |d - (b - a)| ≤ 1 * |d - (b - a)| := mul_le_mul_of_nonneg_right h1 (abs_nonneg _)
      _ ≤ _ := by rw [one_mul]; exact e1
  have hmix : |a + al * (b - a)| ≤ M := by
    rw [abs_le] at ha hb ⊢
    constructor <;> nlinarith [ha.1, ha.2, hb.1, hb.2]
  have e4 : |a + p| ≤ M + 5 * (u * M) + 5 / 2 * η := by
    calc |a + p| = |(a + al * (b - a)) + (p - al * d) + (al * d - al * (b - a))| := by congr 1; ring
      _ ≤ |(a + al * (b - a)) + (p - al * d)| + |al * d - al * (b - a)| := abs_add_le _ _
      _ ≤ |a + al * (b - a)| + |p - al * d| + |al * d - al * (b - a)| := by gcongr; exact abs_add_le _ _
      _ ≤ _ := by linarith
  have e5 : |R.rnd (a + p) - (a + p)| ≤ 7 / 2 * (u * M) + 9 / 4 * η := by
    refine (hn (a + p)).trans ?_
    have := mul_le_mul_of_nonneg_left e4 hu0
    linarith
  have : |moved R al b a - (a + al * (b - a))| ≤ 17 / 2 * (u * M) + 19 / 4 * η := by
    calc |moved R al b a - (a + al * (b - a))|
        = |(R.rnd (a + p) - (a + p)) + (p - al * d) + (al * d - al * (b - a))| := by
          congr 1; simp only [moved]; ring
      _ ≤ |(R.rnd (a + p) - (a + p)) + (p - al * d)| + |al * d - al * (b - a)| := abs_add_le _ _
      _ ≤ |R.rnd (a + p) - (a + p)| + |p - al * d| + |al * d - al * (b - a)| := by gcongr; exact abs_add_le _ _
      _ ≤ _ := by linarith
  unfold slack
  linarith

/-- Overshooting does not add up. -/
theorem moved_within {R : Rounding K} {u η : K} (hn : R.Near u η) (hu0 : 0 ≤ u) (hu : u ≤ 1 / 2) (he : 0 ≤ η) {al a b lo hi M : K}
    (h0 : 0 ≤ al) (h1 : al ≤ 1) (ha : R.Is a) (hlo : -M ≤ lo - slack u η M) (hhi : hi + slack u η M ≤ M)
    (hM : 0 ≤ M) (hb : lo ≤ b ∧ b ≤ hi) (hab : lo - slack u η M ≤ a ∧ a ≤ hi + slack u η M) :
    lo - slack u η M ≤ moved R al b a ∧ moved R al b a ≤ hi + slack u η M := by
  have hs : 0 ≤ slack u η M := by unfold slack; positivity
  have key : ∀ {a b lo hi : K}, R.Is a → -M ≤ lo - slack u η M → hi + slack u η M ≤ M → lo ≤ b ∧ b ≤ hi →
      lo - slack u η M ≤ a ∧ a ≤ hi + slack u η M → moved R al b a ≤ hi + slack u η M := by
    intro a b lo hi ha hlo hhi hb hab
    rcases le_total a b with h | h
    · have hn := moved_near hn hu0 hu he h0 h1 (a := a) (b := b) (M := M)
        (abs_le.2 ⟨by linarith [hab.1], by linarith [hab.2]⟩) (abs_le.2 ⟨by linarith [hb.1], by linarith [hb.2]⟩)
      rw [abs_le] at hn
      have : al * (b - a) ≤ 1 * (b - a) := mul_le_mul_of_nonneg_right h1 (by linarith)
      linarith [hn.2, hb.2]
    · exact (moved_down R ha (by linarith) h0).trans hab.2
  refine ⟨?_, key ha hlo hhi hb hab⟩
  have := key (a := -a) (b := -b) (lo := -hi) (hi := -lo) (by rw [Rounding.Is, R.neg, ha]) (by linarith) (by linarith)
    ⟨by linarith [hb.2], by linarith [hb.1]⟩ ⟨by linarith [hab.2], by linarith [hab.1]⟩
  rw [moved_neg] at this
  linarith

/-! ## Histories -/

/-- The values added, and the time they were added in (as floats). -/
structure Window (K : Type) where
  amount : K
  time : K

/-- The rate of a window. -/
def Window.rate (R : Rounding K) (w : Window K) : K := R.rnd (w.amount / w.time)

/-- The windows closed by the reads that update. -/
def windows (R : Rounding K) (exp : K → K) (e : Acc K) : List (Op K) → List (Window K)
  | [] => []
  | .add v :: ops => windows R exp (step R exp e (.add v)) ops
  | .read t1 t2 :: ops =>
    (if Updates R e t1 t2 then [⟨e.uncounted, R.rnd (t2 - e.last)⟩] else []) ++ windows R exp (step R exp e (.read t1 t2)) ops

/-- A clock that does not go back, from `t` on. -/
def Clocked (t : K) : List (Op K) → Prop
  | [] => True
  | .add _ :: ops => Clocked t ops
  | .read t1 t2 :: ops => t ≤ t1 ∧ t1 ≤ t2 ∧ Clocked t2 ops

theorem read_updates {R : Rounding K} {exp : K → K} {e : Acc K} {t1 t2 : K} (h : Updates R e t1 t2) :
    ∃ f, (getRates R exp e t1 t2).2 = { e with
      rates := e.rates.map fun (p, old) => (p, some (newRate R exp e.uncounted (R.rnd (t2 - e.last)) p old))
      uncounted := 0, last := t2, force := f } := by
  obtain ⟨h1, h2⟩ := h
  unfold getRates update
  by_cases h3 : R.rnd (t1 - e.last) ≥ e.interval
  · simp only [if_pos h3, if_neg h2]; exact ⟨_, rfl⟩
  · have h4 : e.force = true := h1.resolve_left h3
    simp only [if_neg h3, h4, if_true, if_neg h2]; exact ⟨_, rfl⟩

theorem read_keeps {R : Rounding K} {exp : K → K} {e : Acc K} {t1 t2 : K} (h : ¬ Updates R e t1 t2) :
    ∃ f, (getRates R exp e t1 t2).2 = { e with force := f } := by
  unfold getRates update
  by_cases h2 : R.rnd (t2 - e.last) = 0 ∧ e.rates ≠ []
  · by_cases h3 : R.rnd (t1 - e.last) ≥ e.interval
    · simp only [if_pos h3, if_pos h2]; exact ⟨_, rfl⟩
    · by_cases h4 : e.force = true
      · simp only [if_neg h3, h4, if_true, if_pos h2]; exact ⟨_, rfl⟩
      · simp only [if_neg h3, if_neg h4]; exact ⟨_, rfl⟩
  · have : ¬ (R.rnd (t1 - e.last) ≥ e.interval ∨ e.force = true) := fun hc => h ⟨hc, h2⟩
    rw [not_or] at this
    simp only [if_neg this.1, if_neg this.2]; exact ⟨_, rfl⟩

/-- What is true of the rates of windows, and kept by moving towards such a rate, is true of all rates. -/
theorem rates_inv (R : Rounding K) (exp : K → K) (hexp : ∀ x ≤ 0, 0 ≤ exp x ∧ exp x ≤ 1) (P : K → Prop) (Q : Window K → Prop)
    (e : Acc K) (ops : List (Op K)) (hp : ∀ x ∈ e.rates, 0 < x.1) (hr : ∀ x ∈ e.rates, ∀ r, x.2 = some r → R.Is r ∧ P r)
    (hc : Clocked e.last ops) (hw : ∀ w ∈ windows R exp e ops, Q w)
    (hnew : ∀ w, Q w → P (w.rate R))
    (hmove : ∀ w p r, Q w → p ∈ e.rates.map Prod.fst → R.Is r → P r → 0 ≤ weight R exp w.time p → weight R exp w.time p ≤ 1 →
      P (moved R (weight R exp w.time p) (w.rate R) r)) :
    ∀ x ∈ (run R exp e ops).rates, ∀ r, x.2 = some r → R.Is r ∧ P r := by
  suffices key : ∀ (ops : List (Op K)) (e' : Acc K) (t : K), e'.rates.map Prod.fst = e.rates.map Prod.fst → e'.last ≤ t →
      (∀ x ∈ e'.rates, ∀ r, x.2 = some r → R.Is r ∧ P r) → Clocked t ops → (∀ w ∈ windows R exp e' ops, Q w) →
      ∀ x ∈ (run R exp e' ops).rates, ∀ r, x.2 = some r → R.Is r ∧ P r from key ops e e.last rfl (le_refl _) hr hc hw
  intro ops
  induction ops with
  | nil => intro e' t _ _ h _ _; exact h
  | cons o ops ih =>
    intro e' t hpe hl h hc hw
    cases o with
    | add v => exact ih (add R e' v) t hpe hl h hc hw
    | read t1 t2 =>
      obtain ⟨c1, c2, c3⟩ := hc
      by_cases hu : Updates R e' t1 t2
      · obtain ⟨f, hf⟩ := read_updates (exp := exp) hu
        have hq : Q ⟨e'.uncounted, R.rnd (t2 - e'.last)⟩ := hw _ (by simp [windows, hu])
        have ht0 : 0 ≤ R.rnd (t2 - e'.last) := R.nonneg (by linarith)
        refine ih (getRates R exp e' t1 t2).2 t2 ?_ (by rw [hf]) ?_ c3 (fun w h => hw w (by simp [windows, step, h]))
        · rw [hf, ← hpe]; simp [Function.comp_def]
        · rw [hf]
          intro x hx r hxr
          simp only [List.mem_map, Prod.exists] at hx
          obtain ⟨p, old, hm, rfl⟩ := hx
          have hpm : p ∈ e.rates.map Prod.fst := hpe ▸ List.mem_map_of_mem (f := Prod.fst) hm
          have hp0 : 0 < p := by
            obtain ⟨y, hy, rfl⟩ := List.mem_map.1 hpm
            exact hp y hy
          simp only [Option.some.injEq] at hxr
          subst hxr
          cases old with
          | none => exact ⟨R.is_rnd _, hnew _ hq⟩
          | some r =>
            obtain ⟨h1, h2⟩ := h _ hm r rfl
            have hx0 : R.rnd (-R.rnd (t2 - e'.last) / p) ≤ 0 :=
              R.nonpos (div_nonpos_of_nonpos_of_nonneg (by linarith) hp0.le)
            obtain ⟨x0, x1⟩ := hexp _ hx0
            refine ⟨moved_is R _ _ _, hmove _ p r hq hpm h1 h2 (R.nonneg (by linarith)) ?_⟩
            calc weight R exp (R.rnd (t2 - e'.last)) p ≤ R.rnd 1 := R.mono (by linarith)
              _ = 1 := R.one
      · obtain ⟨f, hf⟩ := read_keeps (exp := exp) hu
        refine ih (getRates R exp e' t1 t2).2 t2 (by rw [hf]; exact hpe) (by rw [hf]; exact hl.trans (c1.trans c2))
          (by rw [hf]; exact h) c3 (fun w h => hw w (by simp [windows, step, h]))

/-- **C133**, as far as it holds: if the values added are not negative, neither are the rates. -/
theorem C133_nonneg_partial (R : Rounding K) (exp : K → K) (hexp : ∀ x ≤ 0, 0 ≤ exp x ∧ exp x ≤ 1) (e : Acc K) (ops : List (Op K))
    (hp : ∀ x ∈ e.rates, 0 < x.1 ∧ x.2 = none) (h0 : 0 ≤ e.uncounted) (hc : Clocked e.last ops)
    (hv : ∀ v, .add v ∈ ops → 0 ≤ v) : ∀ x ∈ (run R exp e ops).rates, ∀ r, x.2 = some r → 0 ≤ r := by
  have hwin : ∀ (ops : List (Op K)) (e : Acc K) (t : K), e.last ≤ t → 0 ≤ e.uncounted → Clocked t ops → (∀ v, .add v ∈ ops → 0 ≤ v) →
      ∀ w ∈ windows R exp e ops, 0 ≤ w.amount ∧ 0 ≤ w.time := by
    intro ops
    induction ops with
    | nil => intro e t _ _ _ _ w hw; simp [windows] at hw
    | cons o ops ih =>
      intro e t hl hun hc hv
      have hv' : ∀ v, .add v ∈ ops → 0 ≤ v := fun v h => hv v (List.mem_cons_of_mem _ h)
      cases o with
      | add v =>
        have h1 := hv v (by simp)
        have h2 : 0 ≤ (add R e v).uncounted := R.nonneg (by linarith)
        exact ih (add R e v) t hl h2 hc hv'
      | read t1 t2 =>
        obtain ⟨c1, c2, c3⟩ := hc
        intro w hw
        simp only [windows, List.mem_append] at hw
        rcases hw with hw | hw
        · split at hw
          · simp only [List.mem_singleton] at hw
            subst hw
            exact ⟨hun, R.nonneg (by linarith)⟩
          · cases hw
        · by_cases hu : Updates R e t1 t2
          · obtain ⟨f, hf⟩ := read_updates (exp := exp) hu
            exact ih _ t2 (by simp only [step]; rw [hf]) (by simp only [step]; rw [hf]) c3 hv' w hw
          · obtain ⟨f, hf⟩ := read_keeps (exp := exp) hu
            refine ih _ t2 ?_ ?_ c3 hv' w hw
            · simp only [step]; rw [hf]; exact hl.trans (c1.trans c2)
            · simp only [step]; rw [hf]; exact hun
  intro x hx r hr
  refine (rates_inv R exp hexp (fun r => 0 ≤ r) (fun w => 0 ≤ w.amount ∧ 0 ≤ w.time) e ops (fun x hx => (hp x hx).1)
    (fun x hx r hr => by rw [(hp x hx).2] at hr; cases hr) hc (hwin ops e e.last (le_refl _) h0 hc hv) ?_ ?_ x hx r hr).2
  · exact fun w h => R.nonneg (div_nonneg h.1 h.2)
  · exact fun w p r h _ hr h0 a b => moved_nonneg R hr a b h0 (R.nonneg (div_nonneg h.1 h.2))

/-- **C133**, as far as it holds: while each window is short enough, compared with the periods, for the weight of the past to be at
least a half, rates lie between any bounds of the rates of the windows. -/
theorem C133_range_partial (R : Rounding K) (exp : K → K) (hexp : ∀ x ≤ 0, 0 ≤ exp x ∧ exp x ≤ 1) (e : Acc K) (ops : List (Op K))
    (hp : ∀ x ∈ e.rates, 0 < x.1 ∧ x.2 = none) (hc : Clocked e.last ops) (lo hi : K)
    (hw : ∀ w ∈ windows R exp e ops, lo ≤ w.rate R ∧ w.rate R ≤ hi)
    (hs : ∀ w ∈ windows R exp e ops, ∀ x ∈ e.rates, weight R exp w.time x.1 ≤ 1 / 2) :
    ∀ x ∈ (run R exp e ops).rates, ∀ r, x.2 = some r → lo ≤ r ∧ r ≤ hi := by
  intro x hx r hr
  refine (rates_inv R exp hexp (fun r => lo ≤ r ∧ r ≤ hi)
    (fun w => (lo ≤ w.rate R ∧ w.rate R ≤ hi) ∧ ∀ x ∈ e.rates, weight R exp w.time x.1 ≤ 1 / 2) e ops (fun x hx => (hp x hx).1)
    (fun x hx r hr => by rw [(hp x hx).2] at hr; cases hr) hc (fun w h => ⟨hw w h, hs w h⟩) (fun w h => h.1) ?_ x hx r hr).2
  intro w p r h hpm hr hb h0 _
  obtain ⟨y, hy, rfl⟩ := List.mem_map.1 hpm
  exact moved_half R hr (R.is_rnd _) h0 (h.2 y hy) hb h.1

/-- **C133**, as far as it holds: rates lie between the bounds of the rates of the windows up to a few units in the last place,
however many windows there are. -/
theorem C133_near_partial {R : Rounding K} {u η : K} (hn : R.Near u η) (hu0 : 0 ≤ u) (hu : u ≤ 1 / 2) (he : 0 ≤ η) (exp : K → K)
    (hexp : ∀ x ≤ 0, 0 ≤ exp x ∧ exp x ≤ 1) (e : Acc K) (ops : List (Op K))
    (hp : ∀ x ∈ e.rates, 0 < x.1 ∧ x.2 = none) (hc : Clocked e.last ops) (lo hi M : K) (hM : 0 ≤ M)
    (hlo : -M ≤ lo - (9 * u * M + 5 * η)) (hhi : hi + (9 * u * M + 5 * η) ≤ M)
    (hw : ∀ w ∈ windows R exp e ops, lo ≤ w.rate R ∧ w.rate R ≤ hi) :
    ∀ x ∈ (run R exp e ops).rates, ∀ r, x.2 = some r → lo - (9 * u * M + 5 * η) ≤ r ∧ r ≤ hi + (9 * u * M + 5 * η) := by
  intro x hx r hr
  have hs : 0 ≤ slack u η M := by unfold slack; positivity
  refine (rates_inv R exp hexp (fun r => lo - slack u η M ≤ r ∧ r ≤ hi + slack u η M)
    (fun w => lo ≤ w.rate R ∧ w.rate R ≤ hi) e ops (fun x hx => (hp x hx).1)
    (fun x hx r hr => by rw [(hp x hx).2] at hr; cases hr) hc hw ?_ ?_ x hx r hr).2
  · intro w h
    exact ⟨by linarith [h.1], by linarith [h.2]⟩
  · intro w p r h _ hr hb h0 h1
    exact moved_within hn hu0 hu he h0 h1 hr hlo hhi hM h hb

/-! ## Reals -/

/-- The accumulator of `Verif.Model.Ewma`. -/
def toEwma (e : Acc ℝ) : Ewma.Ewma := ⟨e.interval, e.rates, e.uncounted, e.last, e.force⟩

def toOp : Op ℝ → Ewma.Op
  | .add v => .add v
  | .read t1 t2 => .read t1 t2

/-- With exact arithmetic the model is `Verif.Model.Ewma`. -/
theorem C133_exact (e : Acc ℝ) (ops : List (Op ℝ)) :
    toEwma (run exact Real.exp e ops) = Ewma.run (toEwma e) (ops.map toOp) := by
  have hup : ∀ (e : Acc ℝ) (now : ℝ), (update exact Real.exp e now).map toEwma = Ewma.update (toEwma e) now := by
    intro e now
    unfold update Ewma.update
    by_cases h : now - e.last = 0 ∧ e.rates ≠ []
    · rw [if_pos (show exact.rnd (now - e.last) = 0 ∧ e.rates ≠ [] from h),
        if_pos (show now - (toEwma e).last = 0 ∧ (toEwma e).rates ≠ [] from h)]; rfl
    · rw [if_neg (show ¬ (exact.rnd (now - e.last) = 0 ∧ e.rates ≠ []) from h),
        if_neg (show ¬ (now - (toEwma e).last = 0 ∧ (toEwma e).rates ≠ []) from h)]
      simp only [Option.map_some, toEwma, Option.some.injEq, Ewma.Ewma.mk.injEq, true_and, and_true]
      refine List.map_congr_left fun x _ => ?_
      obtain ⟨p, old⟩ := x
      cases old <;> rfl
  have hst : ∀ (e : Acc ℝ) (o : Op ℝ), toEwma (step exact Real.exp e o) = Ewma.step (toEwma e) (toOp o) := by
    intro e o
    cases o with
    | add v => rfl
    | read t1 t2 =>
      simp only [step, toOp, Ewma.step]
      unfold getRates Ewma.getRates
      by_cases h : t1 - e.last ≥ e.interval
      · rw [if_pos (show exact.rnd (t1 - e.last) ≥ e.interval from h), if_pos (show t1 - (toEwma e).last ≥ (toEwma e).interval from h), ← hup]
        cases update exact Real.exp e t2 <;> rfl
      · rw [if_neg (show ¬ exact.rnd (t1 - e.last) ≥ e.interval from h), if_neg (show ¬ t1 - (toEwma e).last ≥ (toEwma e).interval from h)]
        by_cases hf : e.force = true
        · rw [if_pos hf, if_pos (show (toEwma e).force = true from hf)]
          dsimp only
          rw [show ({ toEwma e with force := false } : Ewma.Ewma) = toEwma { e with force := false } from rfl, ← hup]
          cases update exact Real.exp { e with force := false } t2 <;> rfl
        · rw [if_neg hf, if_neg (show ¬ (toEwma e).force = true from hf)]
  induction ops generalizing e with
  | nil => rfl
  | cons o ops ih =>
    have := ih (step exact Real.exp e o)
    rw [hst] at this
    exact this

/-! ## The violation -/

/-- `math.exp` of a C library that gives the nearest double. -/
noncomputable def exp64 (x : ℝ) : ℝ := binary64.rnd (Real.exp x)

theorem exp64_unit : ∀ x ≤ 0, 0 ≤ exp64 x ∧ exp64 x ≤ 1 := by
  intro x hx
  refine ⟨binary64.nonneg (Real.exp_pos x).le, ?_⟩
  calc exp64 x ≤ binary64.rnd 1 := binary64.mono (Real.exp_le_one_iff.2 hx)
    _ = 1 := binary64.one

/-- **C133** in full: rates in doubles lie between the bounds of the rates of the windows. -/
def InRange : Prop := ∀ (e : Acc ℝ) (ops : List (Op ℝ)), (∀ x ∈ e.rates, 0 < x.1 ∧ x.2 = none) → e.rates ≠ [] → Clocked e.last ops →
  ∀ lo hi, (∀ w ∈ windows binary64 exp64 e ops, lo ≤ w.rate binary64 ∧ w.rate binary64 ≤ hi) →
    ∀ x ∈ (run binary64 exp64 e ops).rates, ∀ r, x.2 = some r → lo ≤ r ∧ r ≤ hi

theorem tiny {x : ℝ} (h0 : 0 ≤ x) (h : x < 2 ^ (-1075 : ℤ)) : binary64.rnd x = 0 := by
  have hz : (0 : ℝ) < 2 ^ lastPlace 53 (-1074) x := two_zpow_pos _
  have h1 : x / 2 ^ lastPlace 53 (-1074) x < 1 / 2 := by
    rw [div_lt_iff₀ hz]
    have : (2 : ℝ) ^ (-1074 : ℤ) ≤ 2 ^ lastPlace 53 (-1074) x := zpow_mono2 (le_max_right _ _)
    have e : (2 : ℝ) ^ (-1074 : ℤ) = 2 * 2 ^ (-1075 : ℤ) := by
      rw [← zpow_one_add₀ (by norm_num)]; norm_num
    linarith
  have h2 : 0 ≤ x / 2 ^ lastPlace 53 (-1074) x := div_nonneg h0 hz.le
  have hf : ⌊x / 2 ^ lastPlace 53 (-1074) x⌋ = 0 := Int.floor_eq_zero_iff.2 ⟨h2, by linarith⟩
  have hr : rne (x / 2 ^ lastPlace 53 (-1074) x) = 0 := by
    unfold rne
    rw [if_pos (by unfold Int.fract; rw [hf]; push_cast; linarith), hf]
  show ieee 53 (-1074) x = 0
  unfold ieee
  rw [hr]; simp

/-- `2 ** 54 - 1` is rounded to `2 ** 54`. -/
theorem big : (binary64 : Rounding ℝ).rnd (2 ^ 54 - 1) = 2 ^ 54 := by
  have e : (2 ^ 54 - 1 : ℝ) = ((2 ^ 54 - 1 : ℕ) : ℝ) := by norm_num
  have hl : lastPlace 53 (-1074) (2 ^ 54 - 1 : ℝ) = 1 := by
    unfold lastPlace
    rw [abs_of_pos (by norm_num), e, Int.log_natCast]
    have : Nat.log 2 (2 ^ 54 - 1) = 53 := by decide +kernel
    rw [this]; norm_num
  show ieee 53 (-1074) _ = _
  unfold ieee
  rw [hl]
  have hx : (2 ^ 54 - 1 : ℝ) / 2 ^ (1 : ℤ) = ((2 ^ 53 - 1 : ℤ) : ℝ) + 1 / 2 := by norm_num
  have hf : ⌊((2 ^ 53 - 1 : ℤ) : ℝ) + 1 / 2⌋ = 2 ^ 53 - 1 := by
    rw [Int.floor_intCast_add]
    have : ⌊(1 / 2 : ℝ)⌋ = 0 := Int.floor_eq_zero_iff.2 ⟨by norm_num, by norm_num⟩
    rw [this]; norm_num
  have hfr : Int.fract (((2 ^ 53 - 1 : ℤ) : ℝ) + 1 / 2) = 1 / 2 := by
    unfold Int.fract; rw [hf]; push_cast; ring
  have hr : rne (((2 ^ 53 - 1 : ℤ) : ℝ) + 1 / 2) = 2 ^ 53 := by
    unfold rne
    rw [hfr, hf, if_neg (lt_irrefl _), if_neg (lt_irrefl _), if_neg (by decide)]
    norm_num
  rw [hx, hr]; norm_num

theorem exp_tiny : exp64 (-2000) = 0 := by
  refine tiny (Real.exp_pos _).le ?_
  have h : Real.exp (-2000) = (Real.exp 1 ^ 2000)⁻¹ := by
    rw [← Real.exp_nat_mul, ← Real.exp_neg]; norm_num
  have h2 : (2 : ℝ) ≤ Real.exp 1 := by have := Real.add_one_le_exp (1 : ℝ); linarith
  have h3 : (2 : ℝ) ^ 1075 < 2 ^ 2000 := pow_lt_pow_right₀ (by norm_num) (by norm_num)
  have h4 : (2 : ℝ) ^ 2000 ≤ Real.exp 1 ^ 2000 := pow_le_pow_left₀ (by norm_num) h2 _
  rw [h, show ((2 : ℝ) ^ (-1075 : ℤ)) = (2 ^ 1075)⁻¹ by rw [zpow_neg]; norm_cast]
  exact inv_strictAnti₀ (by positivity) (lt_of_lt_of_le h3 h4)

theorem int64 (k : ℤ) (h : |k| ≤ 2 ^ 53) : binary64.rnd (k : ℝ) = k := binary64_int h

/-- An accumulator with a period of one second. -/
def second : Acc ℝ := ⟨5, [(1, none)], 0, 0, true⟩

/-- 2 ** 54 things in the first second, then 2000 in 2000 seconds. -/
def quiet : List (Op ℝ) := [.add (2 ^ 54), .read 1 1, .add 2000, .read 2001 2001]

theorem quiet_first : step binary64 exp64 (step binary64 exp64 second (.add (2 ^ 54))) (.read 1 1) =
    ⟨5, [(1, some (2 ^ 54))], 0, 1, false⟩ := by
  have h1 := int64 1 (by norm_num)
  have h54 : (binary64 : Rounding ℝ).rnd (2 ^ 54) = 2 ^ 54 := by
    have := binary64_is (K := ℝ) (k := 1) (e := 54) (by norm_num) (by norm_num)
    rw [Rounding.Is] at this
    rw [Int.cast_one, one_mul] at this
    exact_mod_cast this
  push_cast at h1
  have h5 : ¬ ((5 : ℝ) ≤ 1) := by norm_num
  simp only [step, add, second, getRates, update, newRate, zero_add, sub_zero, h1, h54, ge_iff_le, if_neg h5, if_true,
    one_ne_zero, false_and, if_false, List.map_cons, List.map_nil, div_one]

theorem quiet_second : step binary64 exp64 (step binary64 exp64 ⟨5, [(1, some (2 ^ 54))], 0, 1, false⟩ (.add 2000)) (.read 2001 2001) =
    ⟨5, [(1, some 0)], 0, 2001, false⟩ := by
  have h1 := int64 1 (by norm_num)
  have h2 := int64 2000 (by norm_num)
  have h3 := int64 (-2000) (by norm_num)
  push_cast at h1 h2 h3
  have h5 : (5 : ℝ) ≤ 2000 := by norm_num
  have hw : weight binary64 exp64 2000 1 = 1 := by
    unfold weight
    rw [div_one, h3, exp_tiny, sub_zero, h1]
  have hm : moved binary64 1 1 (2 ^ 54 : ℝ) = 0 := by
    unfold moved
    have hb : (binary64 : Rounding ℝ).rnd (1 - 2 ^ 54) = -2 ^ 54 := by
      rw [show (1 - 2 ^ 54 : ℝ) = -(2 ^ 54 - 1) by ring, binary64.neg, big]
    have h54 : (binary64 : Rounding ℝ).rnd (2 ^ 54) = 2 ^ 54 := by
      have := binary64.idem (2 ^ 54 - 1 : ℝ)
      rwa [big] at this
    rw [hb, one_mul, binary64.neg, h54, add_neg_cancel, binary64.zero]
  have e1 : (2001 - 1 : ℝ) = 2000 := by norm_num
  have e2 : (2000 / 2000 : ℝ) = 1 := by norm_num
  have e3 : (2000 : ℝ) ≠ 0 := by norm_num
  simp only [step, add, getRates, update, newRate, zero_add, e1, h2, ge_iff_le, if_pos h5, e3, false_and, if_false,
    List.map_cons, List.map_nil, e2, h1, hw, hm]

theorem quiet_windows : ∀ w ∈ windows binary64 exp64 second quiet, 1 ≤ w.rate binary64 ∧ w.rate binary64 ≤ (2 ^ 54 : ℝ) := by
  have h1 := int64 1 (by norm_num)
  have h2 := int64 2000 (by norm_num)
  push_cast at h1 h2
  have h54 : (binary64 : Rounding ℝ).rnd (2 ^ 54) = 2 ^ 54 := by
    have := binary64.idem (2 ^ 54 - 1 : ℝ)
    rwa [big] at this
  intro w hw
  simp only [quiet, windows] at hw
  rw [quiet_first] at hw
  simp only [step, add, second, zero_add, sub_zero, h1, h2, h54, List.append_nil, List.mem_append] at hw
  rcases hw with hw | hw
  · split at hw
    · simp only [List.mem_singleton] at hw
      subst hw
      simp only [Window.rate, div_one, h54]
      norm_num
    · cases hw
  · split at hw
    · simp only [List.mem_singleton] at hw
      subst hw
      simp only [Window.rate]
      rw [show (2001 - 1 : ℝ) = 2000 by norm_num, h2, show (2000 / 2000 : ℝ) = 1 by norm_num, h1]
      norm_num
    · cases hw

/-- **C133** is false: the rate is 0 although there were never fewer than one thing a second. -/
theorem C133_violated : ¬ InRange := by
  intro h
  have hrun : run binary64 exp64 second quiet = ⟨5, [(1, some 0)], 0, 2001, false⟩ := by
    simp only [run, quiet, List.foldl_cons, List.foldl_nil, quiet_first, quiet_second]
  have hc : Clocked second.last quiet := by simp [Clocked, second, quiet]
  have := h second quiet (by simp [second]) (by simp [second]) hc 1 (2 ^ 54) quiet_windows (1, some 0) (by rw [hrun]; simp) 0 rfl
  linarith [this.1]

/-- The same use meets the hypotheses of C133_nonneg_partial. -/
example : ∀ x ∈ (run binary64 exp64 second quiet).rates, ∀ r, x.2 = some r → 0 ≤ r :=
  C133_nonneg_partial binary64 exp64 exp64_unit second quiet (by simp [second]) (by simp [second]) (by simp [Clocked, second, quiet])
    (by simp [quiet])

theorem half64 : (binary64 : Rounding ℝ).rnd (1 / 2) = 1 / 2 := by
  have := binary64_is (K := ℝ) (k := 1) (e := -1) (by norm_num) (by norm_num)
  rw [Rounding.Is] at this
  norm_num at this ⊢
  exact this

theorem weight_short {t p : ℝ} (hp : 0 < p) (h : t ≤ p / 2) : weight binary64 exp64 t p ≤ 1 / 2 := by
  have h1 : -(1 / 2) ≤ binary64.rnd (-t / p) := by
    rw [← half64, ← binary64.neg]
    apply binary64.mono
    rw [le_div_iff₀ hp]; linarith
  have h2 : 1 / 2 ≤ exp64 (binary64.rnd (-t / p)) := by
    rw [← half64]
    apply binary64.mono
    have := Real.add_one_le_exp (binary64.rnd (-t / p))
    linarith
  calc weight binary64 exp64 t p ≤ binary64.rnd (1 / 2) := binary64.mono (by linarith)
    _ = 1 / 2 := half64

/-- **C133**, as far as it holds, in doubles: while rates are read at least twice in each period they lie between any bounds of
the rates of the windows. -/
theorem C133_short_partial (e : Acc ℝ) (ops : List (Op ℝ)) (hp : ∀ x ∈ e.rates, 0 < x.1 ∧ x.2 = none) (hc : Clocked e.last ops)
    (lo hi : ℝ) (hw : ∀ w ∈ windows binary64 exp64 e ops, lo ≤ w.rate binary64 ∧ w.rate binary64 ≤ hi)
    (hs : ∀ w ∈ windows binary64 exp64 e ops, ∀ x ∈ e.rates, w.time ≤ x.1 / 2) :
    ∀ x ∈ (run binary64 exp64 e ops).rates, ∀ r, x.2 = some r → lo ≤ r ∧ r ≤ hi :=
  C133_range_partial binary64 exp64 exp64_unit e ops hp hc lo hi hw
    (fun w h x hx => weight_short (hp x hx).1 (hs w h x hx))

/-- An accumulator with the period of a minute. -/
def minute : Acc ℝ := ⟨5, [(60, none)], 0, 0, true⟩

/-- Ten things in five seconds, then twenty in five seconds. -/
def busy : List (Op ℝ) := [.add 10, .read 5 5, .add 20, .read 10 10]

theorem busy_windows : windows binary64 exp64 minute busy = [⟨10, 5⟩, ⟨20, 5⟩] := by
  have h5 := int64 5 (by norm_num)
  have h10 := int64 10 (by norm_num)
  have h20 := int64 20 (by norm_num)
  have h2 := int64 2 (by norm_num)
  push_cast at h5 h10 h20 h2
  have e0 : (5 : ℝ) ≠ 0 := by norm_num
  have e1 : (10 - 5 : ℝ) = 5 := by norm_num
  have e2 : (10 / 5 : ℝ) = 2 := by norm_num
  simp only [busy, windows, minute, step, add, getRates, update, newRate, Updates, zero_add, sub_zero, h5, h10, h20, h2, ge_iff_le,
    le_refl, true_or, true_and, e0, false_and, not_false_eq_true, if_true, if_false, List.map_cons, List.map_nil, e1, e2,
    List.append_nil, List.singleton_append]

/-- The rates of a busy minute: the hypotheses of C133_short_partial and C133_near_partial are met. -/
example : ∀ x ∈ (run binary64 exp64 minute busy).rates, ∀ r, x.2 = some r → 2 ≤ r ∧ r ≤ 4 := by
  have h2 := int64 2 (by norm_num)
  have h4 := int64 4 (by norm_num)
  push_cast at h2 h4
  refine C133_short_partial minute busy (by simp [minute]) (by simp [Clocked, minute, busy]; norm_num) 2 4 ?_ ?_
  · rw [busy_windows]
    intro w hw
    simp only [List.mem_cons, List.not_mem_nil, or_false] at hw
    rcases hw with rfl | rfl
    · simp only [Window.rate]; rw [show (10 / 5 : ℝ) = 2 by norm_num, h2]; norm_num
    · simp only [Window.rate]; rw [show (20 / 5 : ℝ) = 4 by norm_num, h4]; norm_num
  · rw [busy_windows]
    intro w hw x hx
    simp only [minute, List.mem_singleton] at hx
    subst hx
    simp only [List.mem_cons, List.not_mem_nil, or_false] at hw
    rcases hw with rfl | rfl <;> norm_num

example : ∀ x ∈ (run binary64 exp64 second quiet).rates, ∀ r, x.2 = some r →
    -(2 ^ 55) ≤ r ∧ r ≤ 2 ^ 55 := by
  have hz : (2 : ℝ) ^ (-1075 : ℤ) ≤ 1 := zpow_le_one_of_nonpos₀ (by norm_num) (by norm_num)
  have hu : (2 : ℝ) ^ (-53 : ℤ) * 2 ^ 55 = 4 := by norm_num
  have hz0 : (0 : ℝ) < 2 ^ (-1075 : ℤ) := two_zpow_pos _
  have hbig : (2 : ℝ) ^ 54 = 18014398509481984 ∧ (2 : ℝ) ^ 55 = 36028797018963968 := ⟨by norm_num, by norm_num⟩
  have near := binary64_near (K := ℝ)
  have hu0 : (0 : ℝ) ≤ 2 ^ (-53 : ℤ) := (two_zpow_pos _).le
  have hu1 : (2 : ℝ) ^ (-53 : ℤ) ≤ 1 / 2 := by norm_num
  generalize (2 : ℝ) ^ (-1075 : ℤ) = η at hz hz0 near
  generalize (2 : ℝ) ^ (-53 : ℤ) = u at hu near hu0 hu1
  intro x hx r hr
  have := C133_near_partial near hu0 hu1 hz0.le exp64 exp64_unit second
    quiet (by simp [second]) (by simp [Clocked, second, quiet]) 1 (2 ^ 54) (2 ^ 55) (by norm_num)
    (by rw [mul_assoc, hu, hbig.2]; linarith) (by rw [mul_assoc, hu, hbig.1, hbig.2]; linarith) quiet_windows x hx r hr
  rw [mul_assoc, hu, hbig.1] at this
  rw [hbig.2]
  constructor <;> linarith [this.1, this.2]

end Verif.FltEwma
