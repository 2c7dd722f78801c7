import Verif.Props.Accum
/-!
# C49: which values a histogram refuses, and what it has counted
-/
set_option linter.unusedSectionVars false
namespace Verif.Accum

open Verif.Bis

variable {K : Type} [LinearOrder K]

/-- A value that is neither `inf` nor NaN (`none`). -/
def Countable (v : Option (Ext K)) : Prop := v ≠ none ∧ v ≠ some posInf

/-- `inf` and NaN are refused in every state. -/
theorem histAdd_refused {given : List (Ext K)} {h : Hist K} (hbd : h.bounds = (histInit given).bounds)
    (hlen : h.buckets.length = (ranges h.bounds).length) {v : Option (Ext K)} (hv : ¬ Countable v) : histAdd h v = none := by
  have hlt : ∀ y : Ext K, histLt v y = false := by
    intro y
    cases v with
    | none => rfl
    | some x =>
      have hx : x = posInf := by
        by_contra hx
        exact hv ⟨by simp, by simpa using hx⟩
      subst hx
      simp only [histLt, decide_eq_false_iff_not, not_lt]
      exact le_top
  have hm : Mono (histLt v) h.bounds := List.pairwise_of_forall fun y z h => by rw [hlt] at h; cases h
  have hr : right (histLt v) h.bounds = h.bounds.length := by
    rw [right_eq_countP hm, List.countP_eq_length]; intro y _; simp [hlt]
  rw [ranges_length] at hlen
  simp only [histAdd, hr]
  rw [List.getElem?_eq_none (by omega)]

/-- Adding values of which some are refused: the application catches the exception and goes on. -/
def histTries (h : Hist K) (vals : List (Option (Ext K))) : Hist K := vals.foldl (fun h v => (histAdd h v).getD h) h

/-- **C49, exactly.**  After any values whatever, refused or not: `add` raises for `inf` and NaN and for nothing else, and the count
reported for each range is the number of values added in it that were not refused. -/
theorem C49_exact (given : List (Ext K)) (vals : List (Option (Ext K))) :
    (∀ v, histAdd (histTries (histInit given) vals) v = none ↔ ¬ Countable v) ∧
    results (histTries (histInit given) vals) =
      (ranges (histInit given).bounds).map fun rg => (rg, vals.countP fun v =>
        decide (∃ x, v = some x ∧ x ≠ posInf ∧ rg.1 ≤ x ∧ x < rg.2)) := by
  -- the values taken
  have inv : ∀ vals : List (Option (Ext K)), ∃ done : List (Ext K),
      (histTries (histInit given) vals).bounds = (histInit given).bounds ∧
      (histTries (histInit given) vals).buckets = (ranges (histTries (histInit given) vals).bounds).map (inRange done) ∧
      ∀ rg : Ext K × Ext K, inRange done rg = vals.countP fun v => decide (∃ x, v = some x ∧ x ≠ posInf ∧ rg.1 ≤ x ∧ x < rg.2) := by
    intro vals
    induction vals using List.reverseRecOn with
    | nil =>
      refine ⟨[], rfl, ?_, fun rg => by simp [inRange]⟩
      have : inRange ([] : List (Ext K)) = fun _ => 0 := by funext r; simp [inRange]
      rw [this, List.map_const']
      rfl
    | append_singleton vals v ih =>
      obtain ⟨done, h1, h2, h3⟩ := ih
      have hstep : histTries (histInit given) (vals ++ [v]) =
          (histAdd (histTries (histInit given) vals) v).getD (histTries (histInit given) vals) := by simp [histTries]
      by_cases hc : Countable v
      · obtain ⟨x, rfl⟩ := Option.ne_none_iff_exists'.1 hc.1
        have hx : x ≠ posInf := fun e => hc.2 (by rw [e])
        obtain ⟨h', g1, g2, g3⟩ := histAdd_ok h1 h2 hx
        rw [hstep, g1, Option.getD_some]
        refine ⟨done ++ [x], g2, g3, fun rg => ?_⟩
        rw [List.countP_append, ← h3 rg]
        simp [inRange, List.countP_append, List.countP_cons, hx]
      · have := histAdd_refused h1 (by rw [h2]; simp) hc
        rw [hstep, this, Option.getD_none]
        refine ⟨done, h1, h2, fun rg => ?_⟩
        rw [List.countP_append, ← h3 rg]
        have hz : ([v].countP fun v => decide (∃ x, v = some x ∧ x ≠ posInf ∧ rg.1 ≤ x ∧ x < rg.2)) = 0 := by
          rw [List.countP_eq_zero]
          intro w hw
          rw [List.mem_singleton.1 hw]
          simp only [decide_eq_true_eq]
          rintro ⟨x, rfl, hx, -⟩
          exact hc ⟨by simp, by simpa using hx⟩
        rw [hz]; rfl
  obtain ⟨done, h1, h2, h3⟩ := inv vals
  refine ⟨fun v => ⟨fun hn hc => ?_, fun hc => histAdd_refused h1 (by rw [h2]; simp) hc⟩, ?_⟩
  · obtain ⟨x, rfl⟩ := Option.ne_none_iff_exists'.1 hc.1
    obtain ⟨h', g1, -⟩ := histAdd_ok h1 h2 (x := x) fun e => hc.2 (by rw [e])
    rw [g1] at hn; cases hn
  · rw [results, h2, h1]
    simp only [← h3]
    generalize ranges (histInit given).bounds = l
    induction l with
    | nil => rfl
    | cons a l ih => simp only [List.map_cons, List.zip_cons_cons, ih]

/-- `inf` and NaN among the values. -/
example := C49_exact ([((3 : Int) : WithTop Int)] : List (Ext Int))
  [some ((1 : Int) : WithTop Int), none, some posInf, some ((5 : Int) : WithTop Int)]

/-! ### Which ranges there are -/

/-- The pairs of neighbours in an increasing list. -/
theorem mem_ranges {X : Type} [LinearOrder X] {b : List X} (hb : b.Pairwise (· < ·)) (x y : X) :
    (x, y) ∈ ranges b ↔ x ∈ b ∧ y ∈ b ∧ x < y ∧ ∀ z ∈ b, ¬ (x < z ∧ z < y) := by
  induction b with
  | nil => simp [ranges]
  | cons a l ih =>
    cases l with
    | nil =>
      simp only [ranges, List.tail_cons, List.zip_nil_right, List.not_mem_nil, List.mem_singleton, false_iff]
      rintro ⟨rfl, rfl, h, -⟩
      exact lt_irrefl _ h
    | cons c l =>
      obtain ⟨ha, hl⟩ := List.pairwise_cons.1 hb
      have hc := (List.pairwise_cons.1 hl).1
      have e : ranges (a :: c :: l) = (a, c) :: ranges (c :: l) := rfl
      rw [e, List.mem_cons, ih hl]
      constructor
      · rintro (h | ⟨h1, h2, h3, h4⟩)
        · obtain ⟨rfl, rfl⟩ := Prod.mk.inj h
          refine ⟨by simp, by simp, ha _ (by simp), fun z hz ⟨g1, g2⟩ => ?_⟩
          rcases List.mem_cons.1 hz with rfl | hz
          · exact lt_irrefl _ g1
          · rcases List.mem_cons.1 hz with rfl | hz
            · exact lt_irrefl _ g2
            · exact lt_asymm g2 (hc z hz)
        · refine ⟨List.mem_cons_of_mem _ h1, List.mem_cons_of_mem _ h2, h3, fun z hz hg => ?_⟩
          rcases List.mem_cons.1 hz with rfl | hz
          · exact lt_asymm hg.1 (ha x h1)
          · exact h4 z hz hg
      · rintro ⟨h1, h2, h3, h4⟩
        rcases List.mem_cons.1 h1 with rfl | h1'
        · left
          rcases List.mem_cons.1 h2 with rfl | h2
          · exact absurd h3 (lt_irrefl _)
          · rcases List.mem_cons.1 h2 with rfl | h2
            · rfl
            · exact absurd ⟨ha c (by simp), hc y h2⟩ (h4 c (by simp))
        · right
          rcases List.mem_cons.1 h2 with rfl | h2
          · exact absurd h3 (lt_asymm (ha x h1'))
          · exact ⟨h1', h2, h3, fun z hz => h4 z (List.mem_cons_of_mem _ hz)⟩

theorem ranges_sorted {X : Type} [LinearOrder X] {b : List X} (hb : b.Pairwise (· < ·)) :
    (ranges b).Pairwise fun r s => r.2 ≤ s.1 := by
  induction b with
  | nil => exact List.Pairwise.nil
  | cons a l ih =>
    cases l with
    | nil => exact List.Pairwise.nil
    | cons c l =>
      have hl := (List.pairwise_cons.1 hb).2
      have e : ranges (a :: c :: l) = (a, c) :: ranges (c :: l) := rfl
      rw [e, List.pairwise_cons]
      refine ⟨fun r hr => ?_, ih hl⟩
      have := ((mem_ranges hl r.1 r.2).1 hr).1
      rcases List.mem_cons.1 this with h | h
      · exact h.ge
      · exact ((List.pairwise_cons.1 hl).1 _ h).le

/-- C49: whatever was added, the ranges shown are those between two neighbouring bounds, given ones or infinities, each once and
in order. -/
theorem C49_ranges (given : List (Ext K)) (vals : List (Option (Ext K))) :
    (∀ lo hi, (lo, hi) ∈ (results (histTries (histInit given) vals)).map Prod.fst ↔
      lo < hi ∧ (lo = negInf ∨ lo ∈ given) ∧ (hi = posInf ∨ hi ∈ given) ∧ ∀ x ∈ given, ¬ (lo < x ∧ x < hi)) ∧
    ((results (histTries (histInit given) vals)).map Prod.fst).Pairwise fun r s => r.2 ≤ s.1 := by
  have hb := histInit_bounds given
  have e : (results (histTries (histInit given) vals)).map Prod.fst = ranges (histInit given).bounds := by
    rw [(C49_exact given vals).2, List.map_map]
    exact List.map_id _
  have bot : ∀ x : Ext K, negInf ≤ x := fun x => bot_le
  have top : ∀ x : Ext K, x ≤ posInf := fun x => by
    by_cases h : x = posInf
    · exact h.le
    · exact (lt_posInf h).le
  rw [e]
  refine ⟨fun lo hi => ?_, ranges_sorted hb.sorted⟩
  rw [mem_ranges hb.sorted, hb.mem, hb.mem]
  constructor
  · rintro ⟨h1, h2, h3, h4⟩
    refine ⟨h3, ?_, ?_, fun x hx => h4 x ((hb.mem x).2 (.inr (.inr hx)))⟩
    · rcases h1 with h | h | h
      · exact .inl h
      · exact absurd (h ▸ h3) (not_lt.2 (top hi))
      · exact .inr h
    · rcases h2 with h | h | h
      · exact absurd (h ▸ h3) (not_lt.2 (bot lo))
      · exact .inl h
      · exact .inr h
  · rintro ⟨h3, h1, h2, h4⟩
    refine ⟨h1.imp_right .inr, .inr h2, h3, fun z hz hg => ?_⟩
    rcases (hb.mem z).1 hz with rfl | rfl | hz
    · exact absurd hg.1 (not_lt.2 (bot lo))
    · exact absurd hg.2 (not_lt.2 (top hi))
    · exact h4 z hz hg

/-- Three ranges for the bounds 3, 7, 3. -/
example :
    let b (i : Int) : Ext Int := ((i : WithTop Int) : Ext Int)
    (b 3, b 7) ∈ (results (histTries (histInit [b 3, b 7, b 3]) [none])).map Prod.fst := by
  intro b
  refine ((C49_ranges _ _).1 _ _).2 ⟨by decide, by simp, by simp, ?_⟩
  decide

end Verif.Accum
