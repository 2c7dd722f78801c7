import Verif.Props.Rates
import Verif.Props.Ewma
import Verif.Props.Quantile
/-!
# C50, C55, C56: what is read, exactly
-/
namespace Verif.Quant

open Verif.Accum (Ext)

variable {K : Type} [Field K] [LinearOrder K] [IsStrictOrderedRing K] [FloorRing K]

/-- **C50**, however values are rounded when they are stored, as long as that keeps their order: quantiles lie between the least and
the greatest value as stored. -/
theorem C50_between_stored (store : K → K) (hm : Monotone store) (ops : List (Op K)) (q v : K) (h0 : 0 < q) (h1 : q < 1)
    (hne : added ops ≠ []) (hv : (resQuantile (run store none ops) q).1 = .ok v) :
    ∃ lo hi, lo ∈ added ops ∧ hi ∈ added ops ∧ (run store none ops).base.min = fin lo ∧ (run store none ops).base.max = fin hi ∧
      store lo ≤ v ∧ v ≤ store hi := by
  obtain ⟨_, hE⟩ := C50_count_min_max store ops
  obtain ⟨w, hw, hi⟩ := C50_quantile store ops hne q h0 h1
  rw [hw] at hv; cases hv
  obtain ⟨lo, hlo, elo⟩ := hE.lo_mem.resolve_left (fun h => hne h.1)
  obtain ⟨hi', hhi, ehi⟩ := hE.hi_mem.resolve_left (fun h => hne h.1)
  refine ⟨lo, hi', hlo, hhi, elo, ehi, ?_⟩
  refine interp_bounds (sorted_pairwise _) hi (fun y hy => ?_) (fun y hy => ?_)
  · obtain ⟨x, hx, rfl⟩ := List.mem_map.1 ((sorted_perm _).mem_iff.1 hy)
    have := hE.lo_le x hx
    rw [elo, fin_le] at this
    exact hm this
  · obtain ⟨x, hx, rfl⟩ := List.mem_map.1 ((sorted_perm _).mem_iff.1 hy)
    have := hE.le_hi x hx
    rw [ehi, fin_le] at this
    exact hm this

example := C50_between_stored (K := ℚ) (fun x => x + 1) (fun _ _ h => by simpa using h) [.add 5 0, .add 9 1, .add 7 0] (1 / 2)

end Verif.Quant

namespace Verif.Ewma

/-- **C55, exactly.**  Reading raises if and only if it has to update, there is a period, and the clock shows the time of the last
update (or of the creation). -/
theorem C55_reads_exact (e : Ewma) (t1 t2 : ℝ) :
    (getRates e t1 t2).1 = none ↔ (t1 - e.last ≥ e.interval ∨ e.force = true) ∧ t2 = e.last ∧ e.rates ≠ [] := by
  unfold getRates update
  by_cases h1 : t1 - e.last ≥ e.interval
  · by_cases h2 : t2 - e.last = 0 ∧ e.rates ≠ []
    · simp only [if_pos h1, if_pos h2, true_iff]
      exact ⟨.inl h1, sub_eq_zero.1 h2.1, h2.2⟩
    · simp only [if_pos h1, if_neg h2, reduceCtorEq, false_iff]
      exact fun h => h2 ⟨sub_eq_zero.2 h.2.1, h.2.2⟩
  · by_cases hf : e.force = true
    · by_cases h2 : t2 - e.last = 0 ∧ e.rates ≠ []
      · simp only [if_neg h1, hf, if_true, if_pos h2, true_iff]
        exact ⟨.inr trivial, sub_eq_zero.1 h2.1, h2.2⟩
      · simp only [if_neg h1, hf, if_true, if_neg h2, reduceCtorEq, false_iff]
        exact fun h => h2 ⟨sub_eq_zero.2 h.2.1, h.2.2⟩
    · simp only [if_neg h1, if_neg hf, reduceCtorEq, false_iff]
      exact fun h => h.1.elim h1 hf

/-- If it is a read, it comes an interval or more after the last update. -/
def Late (e : Ewma) : Op → Prop
  | .add _ => True
  | .read t1 _ => t1 - e.last ≥ e.interval

/-- Every read of the history came an interval or more after the update before it. -/
def AllLate : Ewma → List Op → Prop
  | _, [] => True
  | e, o :: os => Late e o ∧ AllLate (step e o) os

/-- **C55, exactly: when the rates stay.**  A read less than an interval after the last update changes nothing and returns the rates
as they are, unless every read of the accumulator so far came an interval or more after the update before it: then, and only then, it
updates (or raises) in spite of the interval. -/
theorem C55_stable_exact (e : Ewma) (he : e.force = true) (ops : List Op) :
    ((run e ops).force = true ↔ AllLate e ops) ∧
    ∀ t1 t2, t1 - (run e ops).last < (run e ops).interval →
      (¬ AllLate e ops → getRates (run e ops) t1 t2 = (some (run e ops).rates, run e ops)) ∧
      (AllLate e ops → (getRates (run e ops) t1 t2).2.force = false ∧
        (t2 ≠ (run e ops).last → (getRates (run e ops) t1 t2).2.last = t2 ∧ (getRates (run e ops) t1 t2).2.uncounted = 0)) := by
  have key : (run e ops).force = true ↔ AllLate e ops := by
    suffices H : ∀ e : Ewma, (run e ops).force = true ↔ e.force = true ∧ AllLate e ops by
      rw [H e]; exact and_iff_right he
    clear he
    induction ops with
    | nil => intro e; simp [run, AllLate]
    | cons o ops ih =>
      intro e
      rw [show run e (o :: ops) = run (step e o) ops from rfl, ih, AllLate, ← and_assoc]
      refine and_congr_left fun _ => ?_
      cases o with
      | add v => simp [step, add, Late]
      | read t1 t2 =>
        simp only [step, getRates, update, Late]
        by_cases h1 : t1 - e.last ≥ e.interval
        · by_cases h2 : t2 - e.last = 0 ∧ e.rates ≠ []
          · simp only [if_pos h1, if_pos h2, and_iff_left h1]
          · simp only [if_pos h1, if_neg h2, and_iff_left h1]
        · refine iff_of_false ?_ fun h => h1 h.2
          by_cases hf : e.force = true
          · by_cases h2 : t2 - e.last = 0 ∧ e.rates ≠ []
            · simp only [if_neg h1, hf, if_true, if_pos h2]; simp
            · simp only [if_neg h1, hf, if_true, if_neg h2]; simp
          · simp only [if_neg h1, if_neg hf]; exact hf
  refine ⟨key, fun t1 t2 ht => ⟨fun hn => ?_, fun ha => ?_⟩⟩
  · have hf : ¬ (run e ops).force = true := fun h => hn (key.1 h)
    unfold getRates
    rw [if_neg (not_le.2 ht), if_neg hf]
  · have hf := key.2 ha
    unfold getRates update
    rw [if_neg (not_le.2 ht), if_pos hf]
    by_cases h2 : t2 - (run e ops).last = 0 ∧ (run e ops).rates ≠ []
    · simp only [if_pos h2, true_and]
      exact fun h => absurd (sub_eq_zero.1 h2.1) h
    · simp only [if_neg h2, true_and]
      exact fun _ => trivial

/-- Both cases occur: a first read within the interval settles the accumulator, a late one does not. -/
example : ¬ AllLate sample [.add 10, .read 1 1] ∧ AllLate sample [.add 10, .read 5 5] := by
  constructor
  · rintro ⟨-, h, -⟩
    simp only [Late, step, add, sample] at h
    norm_num at h
  · refine ⟨trivial, ?_, trivial⟩
    simp only [Late, step, add, sample]
    norm_num

end Verif.Ewma

namespace Verif.Sinks

variable {K : Type} [Field K] [LinearOrder K] [IsStrictOrderedRing K]

/-- What counts as a bound of the window: 0 counts as none given. -/
def bound (x : Option K) (default : K) : K := if x = some 0 then default else x.getD default

/-- The count, and the length of time it is divided by, for tracked timestamps `ts` (of which there are some). -/
def rateOver (creation : K) (total : Nat) (ts : List K) (hne : ts ≠ []) (s e : K) : Nat × K :=
  if s ≤ creation then (total, e - s)
  else if ∀ t ∈ ts, t < s then (ts.length, ts.getLast hne - ts.head hne)
  else if ∀ t ∈ ts, s ≤ t then (ts.length, e - ts.head hne)
  else (ts.countP fun t => decide (s ≤ t), e - s)

/-- **C56, exactly.**  The rate of any window, for timestamps added in order: all ever added over the window if it reaches back to the
creation; the tracked ones over the time from the first to the last if none is in it or after it; the tracked ones over the time from
the first to the end of the window if all are; and otherwise those not before the window, whether or not they are after it, over its
length.  ZeroDivisionError if that time is zero, and in no other case. -/
theorem C56_exact (a : RateAcc K) (start stop : Option K) (now : K) (hs : a.times.Pairwise (· ≤ ·)) (hne : a.times ≠ []) :
    getRate a start stop now =
      let r := rateOver a.creation a.total a.times hne (bound start a.creation) (bound stop now)
      if r.2 = 0 then none else some ((r.1 : K) / r.2) := by
  have hb : ∀ (x : Option K) (d : K), orElse x d = bound x d := by
    intro x d
    cases x with
    | none => simp [orElse, bound]
    | some v => simp only [orElse, bound, Option.some.injEq, Option.getD_some]
  unfold getRate rateOver
  rw [List.head?_eq_some_head hne, List.getLast?_eq_some_getLast hne]
  simp only [hb]
  generalize bound start a.creation = s
  generalize bound stop now = e
  by_cases hc : s ≤ a.creation
  · simp only [if_pos hc]
  · simp only [if_neg hc]
    obtain ⟨h1, h2, h3⟩ := left_split hs s
    generalize hi : Bis.left (fun y => decide (s ≤ y)) a.times = i at h1 h2 h3 ⊢
    have hcount : a.times.countP (fun t => decide (s ≤ t)) = a.times.length - i := by
      conv_lhs => rw [← List.take_append_drop i a.times]
      rw [List.countP_append, List.countP_eq_zero.2 (fun t ht => by simpa using h1 t ht),
        List.countP_eq_length.2 (fun t ht => by simpa using h2 t ht)]
      simp
    by_cases ha : ∀ t ∈ a.times, t < s
    · have h0 : a.times.length - i = 0 := by
        rw [← hcount, List.countP_eq_zero]
        intro t ht; simpa using ha t ht
      simp only [if_pos ha, if_pos h0]
    · have h0 : ¬ a.times.length - i = 0 := by
        rw [← hcount, List.countP_eq_zero]
        intro h; exact ha fun t ht => by simpa using h t ht
      simp only [if_neg ha, if_neg h0]
      by_cases hall : ∀ t ∈ a.times, s ≤ t
      · have hi0 : i = 0 := by
          by_contra hn
          have hl : 0 < a.times.length := List.length_pos_iff.2 hne
          have := h1 (a.times[0]) (by rw [List.mem_take_iff_getElem]; exact ⟨0, by omega, rfl⟩)
          exact absurd (hall _ (List.getElem_mem hl)) (not_le.2 this)
        simp only [if_pos hall, hi0, if_true, Nat.sub_zero]
      · have hi0 : ¬ i = 0 := by
          rintro rfl
          exact hall fun t ht => h2 t (by simpa using ht)
        simp only [if_neg hall, if_neg hi0, hcount]

/-- A window that ends before the last tracked event, and one with a bound of 0. -/
example : rateOver (K := ℚ) 1 2 [3, 10] (by simp) (bound (some 4) 1) (bound (some 6) 12) = (1, 2) ∧
    bound (K := ℚ) (some 0) 98 = 98 := by
  constructor
  · norm_num [rateOver, bound, List.countP_cons]
  · norm_num [bound]

end Verif.Sinks
