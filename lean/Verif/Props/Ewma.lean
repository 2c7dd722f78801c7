import Verif.Model.Ewma
import Mathlib.Algebra.BigOperators.Group.List.Basic
import Mathlib.Data.List.Induction
import Mathlib.Tactic.Linarith
import Mathlib.Tactic.NormNum
import Mathlib.Tactic.Ring
import Mathlib.Tactic.FieldSimp
/-!
# C55: moving averages
-/
namespace Verif.Ewma

open Classical

noncomputable section

/-! ## Specification -/

/-- The values added. -/
def added : List Op → List ℝ
  | [] => []
  | .add v :: ops => v :: added ops
  | .read _ _ :: ops => added ops

/-- A closed window: how much was added in it, when it began, when it ended. -/
structure Window where
  amount : ℝ
  start : ℝ
  stop : ℝ

/-- Its rate. -/
def Window.rate (w : Window) : ℝ := w.amount / (w.stop - w.start)

/-- The windows closed by the reads that update. -/
def windows (e : Ewma) : List Op → List Window
  | [] => []
  | .add v :: ops => windows (step e (.add v)) ops
  | .read t1 t2 :: ops =>
    (if Updates e t1 t2 then [⟨e.uncounted, e.last, t2⟩] else []) ++ windows (step e (.read t1 t2)) ops

/-- A clock that does not go back, from `t` on. -/
def Clocked (t : ℝ) : List Op → Prop
  | [] => True
  | .add _ :: ops => Clocked t ops
  | .read t1 t2 :: ops => t ≤ t1 ∧ t1 ≤ t2 ∧ Clocked t2 ops

/-! ## Reads -/

theorem read_updates {e : Ewma} {t1 t2 : ℝ} (h : Updates e t1 t2) :
    ∃ f, (getRates e t1 t2).2 = { e with
      rates := e.rates.map fun (p, old) => (p, some (newRate e.uncounted (t2 - e.last) p old))
      uncounted := 0, last := t2, force := f } ∧ (getRates e t1 t2).1 = some (getRates e t1 t2).2.rates := by
  unfold getRates update
  by_cases h1 : t1 - e.last ≥ e.interval
  · refine ⟨e.force, ?_⟩
    simp only [if_pos h1, if_neg h.2, and_self]
  · have hf : e.force = true := h.1.resolve_left h1
    refine ⟨false, ?_⟩
    simp only [if_neg h1, hf, if_true, if_neg h.2, and_self]

theorem read_keeps {e : Ewma} {t1 t2 : ℝ} (h : ¬ Updates e t1 t2) :
    ∃ f, (getRates e t1 t2).2 = { e with force := f } := by
  unfold getRates update
  unfold Updates at h
  rw [not_and_or, not_not, not_or] at h
  by_cases h1 : t1 - e.last ≥ e.interval
  · have h2 := h.resolve_left (fun h => h.1 h1)
    refine ⟨e.force, ?_⟩
    simp only [if_pos h1, if_pos h2]
  · by_cases hf : e.force = true
    · have h2 := h.resolve_left (fun h => h.2 hf)
      refine ⟨false, ?_⟩
      simp only [if_neg h1, hf, if_true, if_pos h2]
    · refine ⟨e.force, ?_⟩
      simp only [if_neg h1, if_neg hf]

/-! ## Conservation -/

/-- C55: nothing that was added is lost or counted twice: the values added split, in order, into one group for each closed
window and the rest, and what is counted in a window is the sum of its group. -/
theorem C55_conservation (e : Ewma) (ops : List Op) (h0 : e.uncounted = 0) :
    ∃ (groups : List (List ℝ)) (rest : List ℝ), groups.flatten ++ rest = added ops ∧
      (windows e ops).map (·.amount) = groups.map List.sum ∧ (run e ops).uncounted = rest.sum := by
  suffices key : ∀ (ops : List Op) (e : Ewma) (pre : List ℝ), e.uncounted = pre.sum →
      ∃ (groups : List (List ℝ)) (rest : List ℝ), groups.flatten ++ rest = pre ++ added ops ∧
        (windows e ops).map (·.amount) = groups.map List.sum ∧ (run e ops).uncounted = rest.sum by
    simpa using key ops e [] (by simpa using h0)
  intro ops
  induction ops with
  | nil => intro e pre h; exact ⟨[], pre, by simp [added], rfl, by simpa [run] using h⟩
  | cons o ops ih =>
    intro e pre h
    cases o with
    | add v =>
      obtain ⟨g, r, h1, h2, h3⟩ := ih (add e v) (pre ++ [v]) (by simp [add, h])
      exact ⟨g, r, by simpa [added] using h1, by simpa [windows, step] using h2, by simpa [run, step] using h3⟩
    | read t1 t2 =>
      by_cases hu : Updates e t1 t2
      · obtain ⟨f, hf, _⟩ := read_updates hu
        obtain ⟨g, r, h1, h2, h3⟩ := ih (getRates e t1 t2).2 [] (by rw [hf]; simp)
        refine ⟨pre :: g, r, by simp [added] at h1 ⊢; exact h1, ?_, by simpa [run, step] using h3⟩
        simp [windows, hu, step, h2, h]
      · obtain ⟨f, hf⟩ := read_keeps hu
        obtain ⟨g, r, h1, h2, h3⟩ := ih (getRates e t1 t2).2 pre (by rw [hf]; exact h)
        exact ⟨g, r, by simpa [added] using h1, by simp [windows, hu, step, h2], by simpa [run, step] using h3⟩

/-- C55: windows follow one another without gap or overlap, from the accumulator's creation to its last update. -/
theorem C55_windows (e : Ewma) (ops : List Op) :
    List.IsChain (fun w w' : Window => w.stop = w'.start) (windows e ops) ∧
      (∀ w ∈ (windows e ops).head?, w.start = e.last) ∧ (∀ w ∈ (windows e ops).getLast?, w.stop = (run e ops).last) := by
  induction ops generalizing e with
  | nil => simp [windows]
  | cons o ops ih =>
    cases o with
    | add v => simpa [windows, step, run, add] using ih (add e v)
    | read t1 t2 =>
      by_cases hu : Updates e t1 t2
      · obtain ⟨f, hf, _⟩ := read_updates hu
        have := ih (getRates e t1 t2).2
        have hl : (getRates e t1 t2).2.last = t2 := by rw [hf]
        rw [hl] at this
        simp only [windows, if_pos hu, step, List.singleton_append]
        obtain ⟨h1, h2, h3⟩ := this
        have hrun : run e (.read t1 t2 :: ops) = run (getRates e t1 t2).2 ops := rfl
        rw [hrun]
        refine ⟨?_, by simp, ?_⟩
        · rw [List.isChain_cons]
          exact ⟨fun w hw => (h2 w hw).symm, h1⟩
        · intro w hw
          cases hws : windows (getRates e t1 t2).2 ops with
          | nil =>
            rw [hws] at hw
            simp at hw
            subst hw
            -- no later update
            clear h1 h2 h3 hrun ih
            have key : ∀ (ops : List Op) (e : Ewma), windows e ops = [] → (run e ops).last = e.last := by
              intro ops
              induction ops with
              | nil => intro e _; rfl
              | cons o ops ih =>
                intro e hw
                cases o with
                | add v => simpa [run, step, add] using ih (add e v) (by simpa [windows, step] using hw)
                | read s1 s2 =>
                  by_cases hu : Updates e s1 s2
                  · simp [windows, hu] at hw
                  · obtain ⟨f, hf⟩ := read_keeps hu
                    have := ih (getRates e s1 s2).2 (by simpa [windows, hu, step] using hw)
                    rw [hf] at this
                    simp only [run, List.foldl_cons, step, hf]
                    exact this
            rw [key ops _ hws, hl]
          | cons w' ws =>
            rw [hws] at hw h3
            exact h3 w (by simpa using hw)
      · obtain ⟨f, hf⟩ := read_keeps hu
        have := ih (getRates e t1 t2).2
        have hl : (getRates e t1 t2).2.last = e.last := by rw [hf]
        rw [hl] at this
        simpa [windows, hu, step, run] using this

/-! ## Range -/

theorem newRate_range {u i p lo hi : ℝ} {old : Option ℝ} (hi' : 0 < i) (hp : 0 < p) (hu : lo ≤ u / i ∧ u / i ≤ hi)
    (ho : ∀ r, old = some r → lo ≤ r ∧ r ≤ hi) : lo ≤ newRate u i p old ∧ newRate u i p old ≤ hi := by
  cases old with
  | none => exact hu
  | some r =>
    obtain ⟨h1, h2⟩ := ho r rfl
    have hneg : -i / p < 0 := div_neg_of_neg_of_pos (by linarith) hp
    have he1 : Real.exp (-i / p) < 1 := Real.exp_lt_one_iff.2 hneg
    have he0 : 0 < Real.exp (-i / p) := Real.exp_pos _
    simp only [newRate]
    constructor
    · nlinarith [mul_nonneg he0.le (sub_nonneg.2 h1), mul_nonneg (sub_nonneg.2 he1.le) (sub_nonneg.2 hu.1)]
    · nlinarith [mul_nonneg he0.le (sub_nonneg.2 h2), mul_nonneg (sub_nonneg.2 he1.le) (sub_nonneg.2 hu.2)]

/-- C55: with positive periods and a clock that does not go back, whatever bounds the rates of all windows bounds every
rate that was ever reported. -/
theorem C55_range (e : Ewma) (ops : List Op) (lo hi : ℝ) (hp : ∀ x ∈ e.rates, 0 < x.1 ∧ x.2 = none)
    (hne : e.rates ≠ []) (hc : Clocked e.last ops) (hw : ∀ w ∈ windows e ops, lo ≤ w.rate ∧ w.rate ≤ hi) :
    ∀ x ∈ (run e ops).rates, ∀ r, x.2 = some r → lo ≤ r ∧ r ≤ hi := by
  suffices key : ∀ (ops : List Op) (e : Ewma) (t : ℝ), e.last ≤ t → e.rates ≠ [] →
      (∀ x ∈ e.rates, 0 < x.1 ∧ ∀ r, x.2 = some r → lo ≤ r ∧ r ≤ hi) → Clocked t ops →
      (∀ w ∈ windows e ops, lo ≤ w.rate ∧ w.rate ≤ hi) →
      ∀ x ∈ (run e ops).rates, ∀ r, x.2 = some r → lo ≤ r ∧ r ≤ hi from
    key ops e e.last (le_refl _) hne (fun x hx => ⟨(hp x hx).1, fun r hr => by rw [(hp x hx).2] at hr; cases hr⟩) hc hw
  intro ops
  induction ops with
  | nil => intro e t _ _ h _ _ x hx; exact (h x hx).2
  | cons o ops ih =>
    intro e t hlt hne h hc hw
    cases o with
    | add v => exact ih (add e v) t hlt hne h hc (by simpa [windows, step] using hw)
    | read t1 t2 =>
      obtain ⟨c1, c2, c3⟩ := hc
      by_cases hu : Updates e t1 t2
      · obtain ⟨f, hf, _⟩ := read_updates hu
        simp only [windows, if_pos hu, step] at hw
        have hpos : 0 < t2 - e.last := by
          have h0 : 0 ≤ t2 - e.last := by linarith
          rcases lt_or_eq_of_le h0 with h0 | h0
          · exact h0
          · exact absurd ⟨h0.symm, hne⟩ hu.2
        have hw0 := hw ⟨e.uncounted, e.last, t2⟩ (by simp)
        refine ih (getRates e t1 t2).2 t2 (by rw [hf]) (by rw [hf]; simpa using hne) ?_ c3
          (fun w hw' => hw w (by simp [hw']))
        rw [hf]
        intro x hx
        obtain ⟨y, hy, rfl⟩ := List.mem_map.1 hx
        obtain ⟨hy1, hy2⟩ := h y hy
        refine ⟨hy1, fun r hr => ?_⟩
        simp only [Option.some.injEq] at hr
        subst hr
        exact newRate_range hpos hy1 hw0 hy2
      · obtain ⟨f, hf⟩ := read_keeps hu
        simp only [windows, if_neg hu, step, List.nil_append] at hw
        exact ih (getRates e t1 t2).2 t2 (by rw [hf]; dsimp only; linarith) (by rw [hf]; exact hne)
          (by rw [hf]; exact h) c3 hw

/-! ## Convergence -/

/-- C55: while windows have the rate `r`, the distance of each moving average to `r` shrinks by `exp (- elapsed / period)`:
one update. -/
theorem converge_step {u i p r x : ℝ} (hr : u / i = r) : newRate u i p (some x) - r = Real.exp (-i / p) * (x - r) := by
  simp only [newRate, hr]; ring

/-- C55: over any uses in which all windows have the rate `r`, a moving average `x` of period `p` becomes
`r + exp (- elapsed / p) * (x - r)`: it converges to `r` as time passes. -/
theorem C55_converges (e : Ewma) (ops : List Op) (r : ℝ) (hw : ∀ w ∈ windows e ops, w.rate = r) (p x : ℝ)
    (hx : (p, some x) ∈ e.rates) :
    (p, some (r + Real.exp (-((run e ops).last - e.last) / p) * (x - r))) ∈ (run e ops).rates := by
  induction ops generalizing e x with
  | nil =>
    have : r + Real.exp (-((run e []).last - e.last) / p) * (x - r) = x := by simp [run]
    rw [this]; exact hx
  | cons o ops ih =>
    cases o with
    | add v => exact ih (add e v) (by simpa [windows, step] using hw) x hx
    | read t1 t2 =>
      by_cases hu : Updates e t1 t2
      · obtain ⟨f, hf, _⟩ := read_updates hu
        simp only [windows, if_pos hu, step] at hw
        have hw0 : e.uncounted / (t2 - e.last) = r := hw ⟨e.uncounted, e.last, t2⟩ (by simp)
        have hmem : (p, some (newRate e.uncounted (t2 - e.last) p (some x))) ∈ (getRates e t1 t2).2.rates := by
          rw [hf]; exact List.mem_map.2 ⟨(p, some x), hx, rfl⟩
        have := ih (getRates e t1 t2).2 (fun w hw' => hw w (by simp [hw'])) _ hmem
        have hrun : run e (.read t1 t2 :: ops) = run (getRates e t1 t2).2 ops := rfl
        rw [hrun]
        rw [converge_step hw0, ← mul_assoc, ← Real.exp_add] at this
        have hl : (getRates e t1 t2).2.last = t2 := by rw [hf]
        rw [hl] at this
        have e2 : -((run (getRates e t1 t2).2 ops).last - t2) / p + -(t2 - e.last) / p =
            -((run (getRates e t1 t2).2 ops).last - e.last) / p := by ring
        rw [e2] at this
        exact this
      · obtain ⟨f, hf⟩ := read_keeps hu
        simp only [windows, if_neg hu, step, List.nil_append] at hw
        have := ih (getRates e t1 t2).2 hw x (by rw [hf]; exact hx)
        have hl : (getRates e t1 t2).2.last = e.last := by rw [hf]
        rw [hl] at this
        exact this

/-! ## Reads within the interval -/

theorem read_within {e : Ewma} {t1 t2 : ℝ} (h : t1 - e.last < e.interval) : (getRates e t1 t2).2.force = false := by
  unfold getRates
  rw [if_neg (not_le.2 h)]
  by_cases hf : e.force = true
  · rw [if_pos hf]; dsimp only; unfold update; dsimp only
    split <;> rename_i hh <;> split at hh <;> simp_all
    subst hh; rfl
  · rw [if_neg hf]; simpa using hf

theorem force_false {e : Ewma} (h : e.force = false) (ops : List Op) : (run e ops).force = false := by
  induction ops generalizing e with
  | nil => exact h
  | cons o ops ih =>
    refine ih (e := step e o) ?_
    cases o with
    | add v => exact h
    | read t1 t2 =>
      simp only [step, getRates, h, update]
      split
      · split <;> rename_i hh <;> split at hh <;> simp_all
        subst hh; rfl
      · simpa using h

/-- C55: after one read within the interval, reads within the interval report what the last update left, and change
nothing. -/
theorem C55_stable_partial (e : Ewma) (ops ops' : List Op) (t1 t2 s1 s2 : ℝ)
    (h : t1 - (run e ops).last < (run e ops).interval)
    (hs : s1 - (run e (ops ++ [.read t1 t2] ++ ops')).last < (run e (ops ++ [.read t1 t2] ++ ops')).interval) :
    getRates (run e (ops ++ [.read t1 t2] ++ ops')) s1 s2 =
      (some (run e (ops ++ [.read t1 t2] ++ ops')).rates, run e (ops ++ [.read t1 t2] ++ ops')) := by
  have hf : (run e (ops ++ [.read t1 t2] ++ ops')).force = false := by
    have : run e (ops ++ [.read t1 t2] ++ ops') = run (getRates (run e ops) t1 t2).2 ops' := by simp [run, step]
    rw [this]
    exact force_false (read_within h) ops'
  unfold getRates
  rw [if_neg (not_le.2 hs), hf]
  rfl

example := C55_conservation ⟨5, [(60, none)], 0, 0, true⟩ [.add 10, .read 5 5, .add 3] rfl

example := C55_range ⟨5, [(60, none)], 0, 0, true⟩ [.add 10, .read 5 5, .add 3] 2 2 (by simp) (by simp) (by simp [Clocked])
  (by simp [windows, step, add, Updates, getRates, update, Window.rate]; norm_num)

/-- A rate of 5 that goes to 2. -/
example := C55_converges ⟨5, [(60, some 5)], 0, 0, true⟩ [.add 10, .read 5 5, .add 3] 2
  (by simp [windows, step, add, Updates, getRates, update, Window.rate]; norm_num) 60 5 (by simp)

example := C55_stable_partial ⟨5, [(60, some 5)], 0, 0, true⟩ [.add 10] [.add 3] 1 1 2 2
  (by simp [run, step, add]) (by simp [run, step, add, getRates, update]; norm_num)

/-- C55: a read does not fail when the clock has moved since the last update. -/
theorem C55_reads_partial (e : Ewma) (t1 t2 : ℝ) (h : t2 ≠ e.last) :
    (getRates e t1 t2).1 = some (getRates e t1 t2).2.rates := by
  have h2 : ¬ (t2 - e.last = 0 ∧ e.rates ≠ []) := fun hc => h (sub_eq_zero.1 hc.1)
  unfold getRates update
  by_cases h1 : t1 - e.last ≥ e.interval
  · simp only [if_pos h1, if_neg h2]
  · by_cases hf : e.force = true
    · simp only [if_neg h1, hf, if_true, if_neg h2]
    · simp only [if_neg h1, if_neg hf]

/-- A new accumulator with one period of a minute and an interval of five seconds, created at time 0. -/
def sample : Ewma := ⟨5, [(60, none)], 0, 0, true⟩

example : make [60] 5 0 = some sample := by
  simp [make, sample]

/-- C55 fails: reading an accumulator in the tick it was created in raises, and then, with the forced update forgotten,
there is no rate until the interval is over. -/
theorem C55_violated_raises :
    (getRates sample 0 0).1 = none ∧ (getRates (getRates sample 0 0).2 1 1).1 = some [(60, none)] := by
  have h5 : ¬ ((5 : ℝ) ≤ 0) := by norm_num
  have h51 : ¬ ((5 : ℝ) ≤ 1) := by norm_num
  simp [getRates, sample, update, h5, h51]

/-- C55 fails: a first read at or after the interval does not count as the first read: the next one, within the interval,
changes the rate (or raises, in the same tick). -/
theorem C55_violated_stable :
    (run sample [.add 10, .read 5 5]).rates = [(60, some 2)] ∧
    (getRates (run sample [.add 10, .read 5 5]) 6 6).1 ≠ some [(60, some 2)] ∧
    (getRates (run sample [.add 10, .read 5 5]) 5 5).1 = none := by
  have hr : run sample [.add 10, .read 5 5] = ⟨5, [(60, some 2)], 0, 5, true⟩ := by
    simp [run, step, getRates, sample, update, add, newRate]; norm_num
  rw [hr]
  refine ⟨rfl, ?_, ?_⟩
  · simp [getRates, update, newRate]
    norm_num
    have : Real.exp (-(1 / 60)) < 1 := Real.exp_lt_one_iff.2 (by norm_num)
    intro h; linarith
  · have h5 : ¬ ((5 : ℝ) ≤ 0) := by norm_num
    simp [getRates, update, h5]

example : ∃ w ∈ windows sample [.add 10, .read 5 5], w.rate = 2 := by
  refine ⟨⟨10, 0, 5⟩, ?_, by norm_num [Window.rate]⟩
  simp [windows, step, add, sample, Updates]

example : Clocked sample.last [.add 10, .read 5 5, .read 6 7] := by simp [Clocked, sample]; norm_num

/-- C55: a new accumulator refuses negative intervals only, and has no rates for its periods. -/
theorem C55_make (periods : List ℝ) (interval now : ℝ) :
    (make periods interval now = none ↔ interval < 0) ∧
      ∀ e, make periods interval now = some e → e.last = now ∧ e.uncounted = 0 ∧ 0 < e.interval ∧ e.rates ≠ [] ∧
        (∀ x ∈ e.rates, x.2 = none) ∧ ∀ p, p ∈ e.rates.map Prod.fst ↔ p ∈ (if periods = [] then [60, 300, 900] else periods) := by
  unfold make
  dsimp only
  constructor
  · by_cases h : interval = 0
    · simp [h]
    · simp only [if_neg h, gt_iff_lt, not_lt]
      constructor
      · intro h'
        split at h'
        · rename_i h''; exact lt_of_le_of_ne h'' h
        · cases h'
      · intro h'; rw [if_pos h'.le]
  · intro e he
    by_cases hpos : (if interval = 0 then 5 else interval) > 0
    · rw [if_neg (not_not.2 hpos)] at he
      cases he
      refine ⟨rfl, rfl, hpos, ?_, ?_, ?_⟩
      · intro h'
        rw [List.map_eq_nil_iff, List.dedup_eq_nil] at h'
        split at h'
        · cases h'
        · rename_i h; exact h h'
      · intro x hx
        obtain ⟨_, _, rfl⟩ := List.mem_map.1 hx
        rfl
      · intro p
        simp only [List.map_map, Function.comp_def, List.map_id', List.mem_dedup]
    · rw [if_pos hpos] at he
      cases he

/-- C55: from construction on, with positive periods and a clock that moves forward, every rate stays within the range of the
rates of the windows. -/
theorem C55_range_made (periods : List ℝ) (interval now : ℝ) (e : Ewma) (hm : make periods interval now = some e)
    (hp : ∀ p ∈ periods, 0 < p) (ops : List Op) (hc : Clocked now ops) (lo hi : ℝ)
    (hw : ∀ w ∈ windows e ops, lo ≤ w.rate ∧ w.rate ≤ hi) : ∀ x ∈ (run e ops).rates, ∀ r, x.2 = some r → lo ≤ r ∧ r ≤ hi := by
  obtain ⟨h1, _, _, h4, h5, h6⟩ := (C55_make periods interval now).2 e hm
  refine C55_range e ops lo hi (fun x hx => ⟨?_, h5 x hx⟩) h4 (h1 ▸ hc) hw
  have := (h6 x.1).1 (List.mem_map_of_mem hx)
  split at this
  · simp only [List.mem_cons, List.not_mem_nil, or_false] at this
    rcases this with h | h | h <;> rw [h] <;> norm_num
  · exact hp _ this

/-- A new accumulator with two periods, used, meets the hypotheses. -/
example (e : Ewma) (hm : make [60, 300] 1 0 = some e) : ∀ x ∈ (run e [.add 10, .read 5 5]).rates, ∀ r, x.2 = some r →
    2 ≤ r ∧ r ≤ 2 := by
  have he : e = ⟨1, [(60, none), (300, none)], 0, 0, true⟩ := by
    have h1 : ([60, 300] : List ℝ).dedup = [60, 300] := List.dedup_eq_self.2 (by norm_num)
    simp only [make, one_ne_zero, if_false, h1, gt_iff_lt, zero_lt_one, not_true_eq_false, List.cons_ne_nil, List.map_cons,
      List.map_nil] at hm
    exact (Option.some.inj hm).symm
  refine C55_range_made _ _ _ e hm (by norm_num) _ (by simp [Clocked]) 2 2 ?_
  subst he
  simp [windows, step, add, Updates, getRates, update, Window.rate]
  norm_num

end

end Verif.Ewma
