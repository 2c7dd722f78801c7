import Verif.Lemmas.Sinks
import Mathlib.Data.List.Dedup
import Mathlib.Algebra.BigOperators.Group.List.Basic
/-!
# The accumulators of a sink, by label
-/
namespace Verif.Sinks

open Verif.Dct
open scoped List

section Parts

variable {L E A : Type} [DecidableEq L] (lg : E → L) (nm st : E → String) (mk : E → A) (ad : A → E → A)

/-! ## Specification: the labels seen, and the accumulators below a label -/

/-- The loggers seen, each once. -/
def loggers (evs : List E) : List L := (evs.map lg).dedup

/-- The names seen with a logger, each once. -/
def names (evs : List E) (l : L) : List String := ((evs.filter fun e => decide (lg e = l)).map nm).dedup

/-- The statuses seen with a logger and a name, each once. -/
def statuses (evs : List E) (l : L) (n : String) : List String :=
  ((evs.filter fun e => decide (lg e = l ∧ nm e = n)).map st).dedup

/-- The accumulator of a label: it was given exactly the events with that label, in order. -/
def part (evs : List E) (l : L) (n s : String) : Option A :=
  accOf mk ad (evs.filter fun e => decide (lg e = l ∧ nm e = n ∧ st e = s))

/-- The accumulators of a logger's name, of a logger, of all. -/
def below3 (evs : List E) (l : L) (n : String) : List A := (statuses lg nm st evs l n).filterMap (part lg nm st mk ad evs l n)
def below2 (evs : List E) (l : L) : List A := (names lg nm evs l).flatMap (below3 lg nm st mk ad evs l)
def below1 (evs : List E) : List A := (loggers lg evs).flatMap (below2 lg nm st mk ad evs)

/-! ## The maps hold them -/

theorem values_perm {α β : Type} [DecidableEq α] {d : Dict α β} (hn : (keys d).Nodup) {ks : List α} (hk : ks.Nodup)
    (hm : ∀ k, k ∈ ks ↔ k ∈ keys d) : values d ~ ks.filterMap (get? d) := by
  have hp : ks ~ keys d := (List.perm_ext_iff_of_nodup hk hn).2 hm
  refine List.Perm.trans ?_ (hp.filterMap _).symm
  have : ∀ (d' : Dict α β), (∀ p ∈ d', get? d p.1 = some p.2) → values d' = (keys d').filterMap (get? d) := by
    intro d'
    induction d' with
    | nil => intro _; rfl
    | cons p d' ih =>
      intro h
      have h1 := h p List.mem_cons_self
      simp only [values, keys, List.map_cons] at ih ⊢
      rw [List.filterMap_cons_some h1]
      congr 1
      exact ih fun q hq => h q (List.mem_cons_of_mem _ hq)
  rw [← this d fun p hp => get?_of_mem hn hp]

theorem flatMap_filterMap {α β γ : Type} (ks : List α) (f : α → Option β) (g : β → List γ) :
    (ks.filterMap f).flatMap g = ks.flatMap fun k => ((f k).map g).getD [] := by
  induction ks with
  | nil => rfl
  | cons k ks ih =>
    cases h : f k with
    | none => rw [List.filterMap_cons_none h, ih]; simp [h]
    | some b => rw [List.filterMap_cons_some h, List.flatMap_cons, ih]; simp [h]

theorem perm_flatMap {α β : Type} {l : List α} {f g : α → List β} (h : ∀ a ∈ l, f a ~ g a) : l.flatMap f ~ l.flatMap g := by
  induction l with
  | nil => exact .refl _
  | cons a l ih =>
    rw [List.flatMap_cons, List.flatMap_cons]
    exact (h a List.mem_cons_self).append (ih fun x hx => h x (List.mem_cons_of_mem _ hx))

theorem mem_statuses (evs : List E) (l : L) (n s : String) :
    s ∈ statuses lg nm st evs l n ↔ ∃ e ∈ evs, lg e = l ∧ nm e = n ∧ st e = s := by
  unfold statuses
  simp only [List.mem_dedup, List.mem_map, List.mem_filter, decide_eq_true_eq, and_assoc]

theorem mem_names (evs : List E) (l : L) (n : String) : n ∈ names lg nm evs l ↔ ∃ e ∈ evs, lg e = l ∧ nm e = n := by
  unfold names
  simp only [List.mem_dedup, List.mem_map, List.mem_filter, decide_eq_true_eq, and_assoc]

theorem mem_loggers (evs : List E) (l : L) : l ∈ loggers lg evs ↔ ∃ e ∈ evs, lg e = l := by
  unfold loggers; simp

theorem accOf_isSome (evs : List E) : (accOf mk ad evs).isSome ↔ evs ≠ [] := by cases evs <;> simp [accOf]

variable {lg nm st mk ad}

theorem values3 {evs : List E} {l : L} {n : String} {d2 d3}
    (h2 : get? (evs.foldl (onEnd lg nm st mk ad) []) l = some d2) (h3 : get? d2 n = some d3) :
    values d3 ~ below3 lg nm st mk ad evs l n := by
  have hc : ∀ s, get? d3 s = part lg nm st mk ad evs l n s := by
    intro s
    have := cell_run lg nm st mk ad evs l n s
    unfold cell at this
    rw [h2, Option.bind_some, h3, Option.bind_some] at this
    exact this
  have hp := values_perm ((wf_run lg nm st mk ad evs).k3 _ _ _ _ h2 h3) (ks := statuses lg nm st evs l n)
    (List.nodup_dedup _) (by
      intro s
      rw [mem_statuses, ← get?_isSome, hc, part, accOf_isSome, ne_eq, List.filter_eq_nil_iff]
      simp)
  have he : (statuses lg nm st evs l n).filterMap (get? d3) = below3 lg nm st mk ad evs l n := by
    unfold below3; congr 1; funext s; exact hc s
  rw [← he]; exact hp

theorem values2 {evs : List E} {l : L} {d2} (h2 : get? (evs.foldl (onEnd lg nm st mk ad) []) l = some d2) :
    (values d2).flatMap values ~ below2 lg nm st mk ad evs l := by
  have hm : ∀ n, n ∈ names lg nm evs l ↔ n ∈ keys d2 := by
    intro n
    rw [mem_names, ← get?_isSome, ← name_isSome_run lg nm st mk ad evs l n, h2, Option.bind_some]
  have hp := values_perm ((wf_run lg nm st mk ad evs).k2 _ _ h2) (ks := names lg nm evs l) (List.nodup_dedup _) hm
  refine (hp.flatMap_right _).trans ?_
  rw [flatMap_filterMap]
  unfold below2
  refine perm_flatMap fun n hn => ?_
  rw [hm, ← get?_isSome] at hn
  obtain ⟨d3, h3⟩ := Option.isSome_iff_exists.1 hn
  rw [h3]
  exact values3 h2 h3

theorem values1 (evs : List E) : accs (evs.foldl (onEnd lg nm st mk ad) []) ~ below1 lg nm st mk ad evs := by
  have hm : ∀ l, l ∈ loggers lg evs ↔ l ∈ keys (evs.foldl (onEnd lg nm st mk ad) []) := by
    intro l
    rw [mem_loggers, ← get?_isSome, logger_isSome_run]
  have hp := values_perm (wf_run lg nm st mk ad evs).k1 (ks := loggers lg evs) (List.nodup_dedup _) hm
  unfold accs
  refine (hp.flatMap_right _).trans ?_
  rw [flatMap_filterMap]
  unfold below1
  refine perm_flatMap fun l hl => ?_
  rw [hm, ← get?_isSome] at hl
  obtain ⟨d2, h2⟩ := Option.isSome_iff_exists.1 hl
  rw [h2]
  exact values2 h2

/-! ## Sums -/

variable {V : Type} [AddCommMonoid V] (val : A → V)

theorem sum2_eq (d2 : Dict String (Dict String A)) : sum2 val d2 = (((values d2).flatMap values).map val).sum := by
  unfold sum2
  induction values d2 with
  | nil => rfl
  | cons d ds ih => rw [List.map_cons, List.sum_cons, ih, List.flatMap_cons, List.map_append, List.sum_append]; rfl

theorem sum1_eq (m : Map3 L A) : sum1 val m = ((accs m).map val).sum := by
  unfold sum1 accs
  induction values m with
  | nil => rfl
  | cons d ds ih => rw [List.map_cons, List.sum_cons, ih, List.flatMap_cons, List.map_append, List.sum_append, sum2_eq]

end Parts

end Verif.Sinks
