import Verif.Model.Histogram
import Verif.Props.Quantile
import Mathlib.Tactic.Linarith
/-!
# C73, C74: histograms from quantiles
-/
namespace Verif.Quant

open Verif.Accum (Ext)
open Verif.P2 (trunc)

variable {K : Type} [Field K] [LinearOrder K] [IsStrictOrderedRing K] [FloorRing K]

/-- Cells next to each other, from `a` to `b`: each begins where the one before ends. -/
def Adjacent (a b : K × Ext K) : List (Cell K) → Prop
  | [] => a = b
  | c :: cs => a = (c.q0, c.v0) ∧ Adjacent (c.q1, c.v1) b cs

theorem trunc_bounds (x : K) (h : 0 ≤ x) : x - 1 < (trunc x : K) ∧ (trunc x : K) ≤ x := by
  unfold trunc
  rw [if_pos h]
  exact ⟨Int.sub_one_lt_floor x, Int.floor_le x⟩

theorem cell_count (total n : Nat) (s e : K × Ext K) (h : s.1 ≤ e.1) :
    (cell total n s e).ratio * total - 1 < ((cell total n s e).count : K) ∧
      ((cell total n s e).count : K) ≤ (cell total n s e).ratio * total + 1 := by
  have ht : (0 : K) ≤ (e.1 - s.1) * total := mul_nonneg (sub_nonneg.2 h) (Nat.cast_nonneg _)
  obtain ⟨h1, h2⟩ := trunc_bounds _ ht
  unfold cell
  dsimp only
  split
  · split
    · push_cast; constructor <;> linarith
    · constructor <;> linarith
  · split
    · push_cast; constructor <;> linarith
    · constructor <;> linarith

/-- The cells of a list of points, `n` being any number. -/
theorem cells_spec (total n : Nat) (w : List (K × Ext K)) (a b : K × Ext K) :
    let cs := ((a :: w ++ [b]).zip (a :: w ++ [b]).tail).map fun p => cell total n p.1 p.2
    cs.length = w.length + 1 ∧ Adjacent a b cs ∧ (cs.map Cell.ratio).sum = b.1 - a.1 := by
  induction w generalizing a with
  | nil => simp [Adjacent, cell]
  | cons c w ih =>
    obtain ⟨h1, h2, h3⟩ := ih c
    simp only [List.cons_append, List.tail_cons, List.zip_cons_cons, List.map_cons, List.length_cons] at h1 h2 h3 ⊢
    refine ⟨by rw [h1], ⟨rfl, h2⟩, ?_⟩
    rw [List.sum_cons, h3]
    simp only [cell]
    ring

theorem sum_counts (cs : List (Cell K)) (t : K)
    (h : ∀ c ∈ cs, c.ratio * t - 1 ≤ (c.count : K) ∧ (c.count : K) ≤ c.ratio * t + 1) :
    (cs.map Cell.ratio).sum * t - cs.length ≤ (((cs.map Cell.count).sum : Int) : K) ∧
      (((cs.map Cell.count).sum : Int) : K) ≤ (cs.map Cell.ratio).sum * t + cs.length := by
  induction cs with
  | nil => simp
  | cons c cs ih =>
    obtain ⟨h1, h2⟩ := h c List.mem_cons_self
    obtain ⟨h3, h4⟩ := ih fun x hx => h x (List.mem_cons_of_mem _ hx)
    simp only [List.map_cons, List.sum_cons, List.length_cons]
    push_cast
    constructor <;> linarith

theorem zip_map_fst (qs : List K) (vs : List (Ext K)) (h : qs.length = vs.length) : (qs.zip vs).map Prod.fst = qs :=
  List.map_fst_zip (by omega)

/-- Neighbours of a sorted list are in order. -/
theorem zip_tail_sorted {X : Type} (f : X → K) (l : List X) (h : (l.map f).Pairwise (· ≤ ·)) :
    ∀ p ∈ l.zip l.tail, f p.1 ≤ f p.2 := by
  induction l with
  | nil => simp
  | cons a l ih =>
    cases l with
    | nil => simp
    | cons b l =>
      intro p hp
      simp only [List.tail_cons, List.zip_cons_cons, List.mem_cons] at hp
      rw [List.map_cons] at h
      rcases hp with rfl | hp
      · exact List.rel_of_pairwise_cons h (by simp)
      · exact ih (List.Pairwise.of_cons h) p (by simpa using hp)

/-- C73: with at least one value and points between 0 and 1, `get_histogram` gives one cell more than there are points; the
cells lie next to each other and cover the quantiles from 0 to 1 and the values from `min` to `max`; their ratios add up to
1. -/
theorem C73_cover (store : K → K) (ops : List (Op K)) (hne : added ops ≠ []) (qs : List K) (hq : ∀ q ∈ qs, 0 < q ∧ q < 1) :
    ∃ cs, getHistogram (run store none ops) qs = .ok cs ∧ cs.length = qs.length + 1 ∧
      Adjacent (0, (run store none ops).base.min) (1, (run store none ops).base.max) cs ∧
      (cs.map Cell.ratio).sum = 1 := by
  obtain ⟨vs, h1, h2⟩ := C50_get_quantiles store ops hne qs hq
  have hl : qs.length = vs.length := h1.length_eq
  refine ⟨_, by unfold getHistogram; rw [h2], ?_⟩
  obtain ⟨g1, g2, g3⟩ := cells_spec (run store none ops).base.count
    ((0, (run store none ops).base.min) :: qs.zip (vs.map fin) ++ [(1, (run store none ops).base.max)]).length
    (qs.zip (vs.map fin)) (0, (run store none ops).base.min) (1, (run store none ops).base.max)
  refine ⟨?_, g2, ?_⟩
  · refine g1.trans ?_
    rw [List.length_zip, List.length_map, ← hl, min_self]
  · refine g3.trans ?_
    simp

/-- C73: for points in increasing order each cell's count is within one of its share of the values, and the counts add up to
the number of values added up to one per cell. -/
theorem C73_counts (store : K → K) (ops : List (Op K)) (hne : added ops ≠ []) (qs : List K) (hq : ∀ q ∈ qs, 0 < q ∧ q < 1)
    (hs : qs.Pairwise (· ≤ ·)) :
    ∃ cs, getHistogram (run store none ops) qs = .ok cs ∧
      (∀ c ∈ cs, 0 ≤ c.count ∧ |(c.count : K) - c.ratio * (added ops).length| ≤ 1) ∧
      |(cs.map Cell.count).sum - ((added ops).length : Int)| ≤ qs.length + 1 := by
  obtain ⟨cs, h1, h2, h3, h4⟩ := C73_cover store ops hne qs hq
  have hc := (C50_count_min_max store ops).1
  have hb : ∀ c ∈ cs, 0 ≤ c.count ∧ (c.ratio * ((added ops).length : K) - 1 ≤ (c.count : K) ∧
      (c.count : K) ≤ c.ratio * ((added ops).length : K) + 1) := by
    obtain ⟨vs, g1, g2⟩ := C50_get_quantiles store ops hne qs hq
    have hl : qs.length = vs.length := g1.length_eq
    unfold getHistogram at h1
    rw [g2] at h1
    cases h1
    intro c hm
    unfold cells at hm
    obtain ⟨p, hp, rfl⟩ := List.mem_map.1 hm
    have hsort : (((0, (run store none ops).base.min) :: qs.zip (vs.map fin) ++
        [(1, (run store none ops).base.max)]).map Prod.fst).Pairwise (· ≤ ·) := by
      rw [List.map_append, List.map_cons, zip_map_fst _ _ (by simpa using hl)]
      simp only [List.cons_append, List.map_cons, List.map_nil, List.pairwise_cons, List.pairwise_append, List.mem_append,
        List.mem_singleton]
      refine ⟨?_, hs, by simp, ?_⟩
      · rintro x (hx | rfl)
        · exact (hq x hx).1.le
        · exact zero_le_one
      · rintro x hx y rfl
        exact (hq x hx).2.le
    have h5 := zip_tail_sorted Prod.fst _ hsort p hp
    obtain ⟨b1, b2⟩ := cell_count (run store none ops).base.count _ p.1 p.2 h5
    refine ⟨?_, ?_⟩
    · have hr : 0 ≤ (cell (run store none ops).base.count ((0, (run store none ops).base.min) :: qs.zip (vs.map fin) ++
          [(1, (run store none ops).base.max)]).length p.1 p.2).ratio * ((run store none ops).base.count : K) :=
        mul_nonneg (sub_nonneg.2 h5) (Nat.cast_nonneg _)
      have : (-1 : K) < ((cell (run store none ops).base.count ((0, (run store none ops).base.min) :: qs.zip (vs.map fin) ++
          [(1, (run store none ops).base.max)]).length p.1 p.2).count : K) := by linarith
      have : (-1 : Int) < (cell (run store none ops).base.count ((0, (run store none ops).base.min) :: qs.zip (vs.map fin) ++
          [(1, (run store none ops).base.max)]).length p.1 p.2).count := by exact_mod_cast this
      omega
    · rw [hc] at b1 b2 ⊢
      exact ⟨b1.le, b2⟩
  refine ⟨cs, h1, fun c hm => ⟨(hb c hm).1, ?_⟩, ?_⟩
  · rw [abs_le]
    obtain ⟨_, b1, b2⟩ := hb c hm
    constructor <;> linarith
  · obtain ⟨s1, s2⟩ := sum_counts cs ((added ops).length : K) fun c hm => (hb c hm).2
    rw [h4, h2, one_mul] at s1 s2
    rw [abs_le]
    constructor
    · have : (((added ops).length : Int) : K) - ((qs.length + 1 : Nat) : K) ≤ (((cs.map Cell.count).sum : Int) : K) := by
        exact_mod_cast s1
      have : ((added ops).length : Int) - ((qs.length + 1 : Nat) : Int) ≤ (cs.map Cell.count).sum := by exact_mod_cast this
      push_cast at this
      omega
    · have : (((cs.map Cell.count).sum : Int) : K) ≤ (((added ops).length : Int) : K) + ((qs.length + 1 : Nat) : K) := by
        exact_mod_cast s2
      have : (cs.map Cell.count).sum ≤ ((added ops).length : Int) + ((qs.length + 1 : Nat) : Int) := by exact_mod_cast this
      push_cast at this
      omega

/-- C73, the counts themselves: a cell counts its share rounded down, and one more exactly when, with at least as many
values as points (the extremes among them), it is the first or the last, or, with fewer, its values are not all the same. -/
theorem C73_exact (store : K → K) (ops : List (Op K)) (hne : added ops ≠ []) (qs : List K) (hq : ∀ q ∈ qs, 0 < q ∧ q < 1)
    (hs : qs.Pairwise (· ≤ ·)) :
    ∃ cs, getHistogram (run store none ops) qs = .ok cs ∧ ∀ c ∈ cs,
      let more := if (added ops).length < qs.length + 2 then c.v0 < c.v1 else c.q0 = 0 ∨ c.q1 = 1
      (more → c.count = ⌊c.ratio * (added ops).length⌋ + 1) ∧ (¬ more → c.count = ⌊c.ratio * (added ops).length⌋) := by
  have hc := (C50_count_min_max store ops).1
  obtain ⟨vs, g1, g2⟩ := C50_get_quantiles store ops hne qs hq
  have hl : qs.length = vs.length := g1.length_eq
  refine ⟨_, by unfold getHistogram; rw [g2], ?_⟩
  intro c hm
  unfold cells at hm
  obtain ⟨p, hp, rfl⟩ := List.mem_map.1 hm
  have hlen : ((0, (run store none ops).base.min) :: qs.zip (vs.map fin) ++
      [((1 : K), (run store none ops).base.max)]).length = qs.length + 2 := by simp [hl]
  have hsort : (((0, (run store none ops).base.min) :: qs.zip (vs.map fin) ++
      [((1 : K), (run store none ops).base.max)]).map Prod.fst).Pairwise (· ≤ ·) := by
    rw [List.map_append, List.map_cons, zip_map_fst _ _ (by simpa using hl)]
    simp only [List.cons_append, List.map_cons, List.map_nil, List.pairwise_cons, List.pairwise_append, List.mem_append,
      List.mem_singleton]
    refine ⟨?_, hs, by simp, ?_⟩
    · rintro x (hx | rfl)
      · exact (hq x hx).1.le
      · exact zero_le_one
    · rintro x hx y rfl
      exact (hq x hx).2.le
  have h5 := zip_tail_sorted Prod.fst _ hsort p hp
  have ht : trunc ((p.2.1 - p.1.1) * ((added ops).length : K)) = ⌊(p.2.1 - p.1.1) * ((added ops).length : K)⌋ := by
    unfold trunc
    rw [if_pos (mul_nonneg (sub_nonneg.2 h5) (Nat.cast_nonneg _))]
  rw [hlen, hc]
  simp only [cell, ht, gt_iff_lt]
  split_ifs <;> simp_all

/-- C74: the value ranges do not run backwards, for points in increasing order — when values are stored as they are.  What is
missing for the full claim: the single precision of the stored values. -/
theorem C74_values_partial (ops : List (Op K)) (hne : added ops ≠ []) (qs : List K) (hq : ∀ q ∈ qs, 0 < q ∧ q < 1)
    (hs : qs.Pairwise (· ≤ ·)) :
    ∃ cs, getHistogram (run id none ops) qs = .ok cs ∧ ∀ c ∈ cs, c.v0 ≤ c.v1 := by
  obtain ⟨vs, g1, g2⟩ := C50_get_quantiles id ops hne qs hq
  refine ⟨_, by unfold getHistogram; rw [g2], ?_⟩
  have hord : ((0, (run id none ops).base.min) :: qs.zip (vs.map fin) ++
      [((1 : K), (run id none ops).base.max)]).Pairwise (fun a b => a.2 ≤ b.2) := by
    have hmid : ∀ x ∈ qs.zip (vs.map fin), (run id none ops).base.min ≤ x.2 ∧ x.2 ≤ (run id none ops).base.max := by
      intro x hx
      rw [List.zip_map_right] at hx
      obtain ⟨⟨q, v⟩, hm, rfl⟩ := List.mem_map.1 hx
      have hv := (List.forall₂_iff_zip.1 g1).2 hm
      obtain ⟨h0, h1⟩ := hq q (List.of_mem_zip hm).1
      exact C50_between_partial ops q v h0 h1 hne hv
    have hle : (run id none ops).base.min ≤ (run id none ops).base.max := by
      obtain ⟨_, hE⟩ := C50_count_min_max id ops
      obtain ⟨x, hx⟩ := List.exists_mem_of_ne_nil _ hne
      exact (hE.lo_le x hx).trans (hE.le_hi x hx)
    rw [List.cons_append, List.pairwise_cons, List.pairwise_append]
    refine ⟨?_, ?_, by simp, ?_⟩
    · intro x hx
      rcases List.mem_append.1 hx with hx | hx
      · exact (hmid x hx).1
      · rw [List.mem_singleton.1 hx]; exact hle
    · clear hmid g2
      induction g1 with
      | nil => simp
      | @cons q v qs vs hv h ih =>
        rw [List.map_cons, List.zip_cons_cons, List.pairwise_cons]
        refine ⟨?_, ih (fun q hm => hq q (List.mem_cons_of_mem _ hm)) (List.Pairwise.of_cons hs)⟩
        intro x hx
        rw [List.zip_map_right] at hx
        obtain ⟨⟨q', v'⟩, hm, rfl⟩ := List.mem_map.1 hx
        have hv' := (List.forall₂_iff_zip.1 h).2 hm
        have := C50_monotone id ops q q' v v' (List.rel_of_pairwise_cons hs (List.of_mem_zip hm).1) hv hv'
        simpa [fin_le] using this
    · intro x hx y hy
      rw [List.mem_singleton.1 hy]
      exact (hmid x hx).2
  intro c hm
  unfold cells at hm
  obtain ⟨p, hp, rfl⟩ := List.mem_map.1 hm
  clear hm g2 g1
  revert hord hp
  generalize ((0, (run id none ops).base.min) :: qs.zip (vs.map fin) ++ [((1 : K), (run id none ops).base.max)]) = w
  intro hord hp
  show p.1.2 ≤ p.2.2
  induction w with
  | nil => simp at hp
  | cons a w ih =>
    cases w with
    | nil => simp at hp
    | cons b w =>
      simp only [List.tail_cons, List.zip_cons_cons, List.mem_cons] at hp
      rcases hp with rfl | hp
      · exact List.rel_of_pairwise_cons hord (by simp)
      · exact ih (List.Pairwise.of_cons hord) (by simpa using hp)

/-- Neighbours in increasing order: everything is. -/
theorem pairwise_of_neighbours (w : List (K × Ext K)) (h : ∀ p ∈ w.zip w.tail, p.1.2 ≤ p.2.2) :
    w.Pairwise fun a b => a.2 ≤ b.2 := by
  induction w with
  | nil => simp
  | cons a w ih =>
    have hw := ih fun p hp => h p (by
      cases w with
      | nil => simp at hp
      | cons b w => simp only [List.tail_cons, List.zip_cons_cons, List.mem_cons] at hp ⊢; exact .inr hp)
    refine List.pairwise_cons.2 ⟨?_, hw⟩
    cases w with
    | nil => simp
    | cons b w =>
      have hab : a.2 ≤ b.2 := h (a, b) (by simp)
      intro x hx
      rcases List.mem_cons.1 hx with rfl | hx
      · exact hab
      · exact hab.trans (List.rel_of_pairwise_cons hw hx)

theorem neighbours_of_pairwise (w : List (K × Ext K)) (hord : w.Pairwise fun a b => a.2 ≤ b.2) :
    ∀ p ∈ w.zip w.tail, p.1.2 ≤ p.2.2 := by
  intro p hp
  induction w with
  | nil => simp at hp
  | cons a w ih =>
    cases w with
    | nil => simp at hp
    | cons b w =>
      simp only [List.tail_cons, List.zip_cons_cons, List.mem_cons] at hp
      rcases hp with rfl | hp
      · exact List.rel_of_pairwise_cons hord (by simp)
      · exact ih (List.Pairwise.of_cons hord) (by simpa using hp)

/-- **C74, exactly**, however values are rounded when they are stored: no range runs backwards if and only if every quantile asked
for lies between the least and the greatest value added.  The ranges between the quantiles themselves never run backwards. -/
theorem C74_exact (store : K → K) (ops : List (Op K)) (hne : added ops ≠ []) (qs : List K) (hq : ∀ q ∈ qs, 0 < q ∧ q < 1)
    (hs : qs.Pairwise (· ≤ ·)) :
    ∃ cs, getHistogram (run store none ops) qs = .ok cs ∧
      ((∀ c ∈ cs, c.v0 ≤ c.v1) ↔ ∀ q ∈ qs, ∀ v, (resQuantile (run store none ops) q).1 = .ok v →
        (run store none ops).base.min ≤ fin v ∧ fin v ≤ (run store none ops).base.max) ∧
      ∀ c ∈ cs, c.q0 ∈ qs → c.q1 ∈ qs → c.v0 ≤ c.v1 := by
  obtain ⟨vs, g1, g2⟩ := C50_get_quantiles store ops hne qs hq
  refine ⟨_, by unfold getHistogram; rw [g2], ?_⟩
  have hlen := g1.length_eq
  have hle : (run store none ops).base.min ≤ (run store none ops).base.max := by
    obtain ⟨_, hE⟩ := C50_count_min_max store ops
    obtain ⟨x, hx⟩ := List.exists_mem_of_ne_nil _ hne
    exact (hE.lo_le x hx).trans (hE.le_hi x hx)
  have hmidord : (qs.zip (vs.map fin)).Pairwise fun a b => a.2 ≤ b.2 := by
    clear g2 hlen hne
    induction g1 with
    | nil => simp
    | @cons q v qs vs hv h ih =>
      rw [List.map_cons, List.zip_cons_cons, List.pairwise_cons]
      refine ⟨?_, ih (fun q hm => hq q (List.mem_cons_of_mem _ hm)) (List.Pairwise.of_cons hs)⟩
      intro x hx
      rw [List.zip_map_right] at hx
      obtain ⟨⟨q', v'⟩, hm, rfl⟩ := List.mem_map.1 hx
      have hv' := (List.forall₂_iff_zip.1 h).2 hm
      have := C50_monotone store ops q q' v v' (List.rel_of_pairwise_cons hs (List.of_mem_zip hm).1) hv hv'
      simpa [fin_le] using this
  have hmem : ∀ x ∈ qs.zip (vs.map fin), x.1 ∈ qs ∧ ∃ v, (resQuantile (run store none ops) x.1).1 = .ok v ∧ x.2 = fin v := by
    intro x hx
    rw [List.zip_map_right] at hx
    obtain ⟨⟨q, v⟩, hm, rfl⟩ := List.mem_map.1 hx
    exact ⟨(List.of_mem_zip hm).1, v, (List.forall₂_iff_zip.1 g1).2 hm, rfl⟩
  have hmem' : ∀ q ∈ qs, ∃ v, (q, fin v) ∈ qs.zip (vs.map fin) ∧ (resQuantile (run store none ops) q).1 = .ok v := by
    intro q hm
    obtain ⟨i, hi, rfl⟩ := List.getElem_of_mem hm
    have hi' : i < vs.length := hlen ▸ hi
    refine ⟨vs[i], ?_, ?_⟩
    · rw [List.mem_iff_getElem]
      exact ⟨i, by simp [hi, hi'], by simp⟩
    · refine (List.forall₂_iff_zip.1 g1).2 ?_
      rw [List.mem_iff_getElem]
      exact ⟨i, by simp [hi, hi'], by simp⟩
  generalize hL : qs.zip (vs.map fin) = L at hmidord hmem hmem' ⊢
  constructor
  · constructor
    · intro h q hm v hv
      obtain ⟨v', h1, h2⟩ := hmem' q hm
      rw [h2] at hv; cases hv
      have hp := pairwise_of_neighbours ((0, (run store none ops).base.min) :: L ++ [((1 : K), (run store none ops).base.max)])
        fun p hp => h _ (List.mem_map.2 ⟨p, hp, rfl⟩)
      rw [List.cons_append, List.pairwise_cons, List.pairwise_append] at hp
      exact ⟨hp.1 _ (List.mem_append_left _ h1), hp.2.2.2 _ h1 _ List.mem_cons_self⟩
    · intro h c hc
      obtain ⟨p, hp, rfl⟩ := List.mem_map.1 hc
      refine neighbours_of_pairwise _ ?_ p hp
      have hb : ∀ x ∈ L, (run store none ops).base.min ≤ x.2 ∧ x.2 ≤ (run store none ops).base.max := by
        intro x hx
        obtain ⟨h1, v, h2, h3⟩ := hmem x hx
        rw [h3]; exact h _ h1 v h2
      rw [List.cons_append, List.pairwise_cons, List.pairwise_append]
      refine ⟨?_, hmidord, by simp, ?_⟩
      · intro x hx
        rcases List.mem_append.1 hx with hx | hx
        · exact (hb x hx).1
        · rw [List.mem_singleton.1 hx]; exact hle
      · intro x hx y hy
        rw [List.mem_singleton.1 hy]
        exact (hb x hx).2
  · intro c hc h0 h1
    obtain ⟨p, hp, rfl⟩ := List.mem_map.1 hc
    have h0' : p.1.1 ∈ qs := h0
    have h1' : p.2.1 ∈ qs := h1
    show p.1.2 ≤ p.2.2
    obtain ⟨i, hi, rfl⟩ := List.getElem_of_mem hp
    simp only [List.getElem_zip, List.getElem_tail] at h0' h1' ⊢
    rcases i with _ | i
    · exact absurd (hq _ (by simpa using h0')).1 (lt_irrefl _)
    · simp only [List.length_zip, List.length_tail, List.length_append, List.length_cons, List.length_nil] at hi
      by_cases hlast : i + 1 < L.length
      · have := List.pairwise_iff_getElem.1 hmidord i (i + 1) (by omega) hlast (by omega)
        simpa [List.getElem_append, hlast, show i < L.length by omega] using this
      · exfalso
        have : ((0, (run store none ops).base.min) :: L ++ [((1 : K), (run store none ops).base.max)])[i + 1 + 1]'(by simp; omega) =
            (1, (run store none ops).base.max) := by
          have hi' : i + 1 = L.length := by omega
          simp [List.getElem_append, hi']
        rw [this] at h1'
        exact absurd (hq _ h1').2 (lt_irrefl _)

/-- C74 fails in single precision: of one value that storing makes larger, the last range runs from
the stored value down to the value itself. -/
theorem C74_violated (store : K → K) (v : K) (h : v < store v) :
    ∃ cs, getHistogram (run store none [.add v 0]) [1 / 2] = .ok cs ∧ ∃ c ∈ cs, c.v1 < c.v0 := by
  obtain ⟨h1, h2⟩ := C50_violated store v h
  have hg : getQuantiles (run store none [.add v 0]) [1 / 2] =
      .ok [(0, (run store none [.add v 0]).base.min), (1 / 2, fin (store v)), (1, (run store none [.add v 0]).base.max)] := by
    unfold getQuantiles readAll readAll
    dsimp only
    rw [h1]
    rfl
  refine ⟨_, by unfold getHistogram; rw [hg], ?_⟩
  exact ⟨cell (run store none [.add v 0]).base.count 3 (1 / 2, fin (store v)) (1, (run store none [.add v 0]).base.max),
    List.mem_cons_of_mem _ List.mem_cons_self, h2⟩

/-- Five values, a read in between, and the quartiles: four cells. -/
example : ∃ cs, getHistogram (run (id : ℚ → ℚ) none [.add 5 0, .add 9 1, .iter, .add 7 0, .add 3 3, .add 1 0])
      [1 / 4, 1 / 2, 3 / 4] = .ok cs ∧ cs.length = 4 ∧ |(cs.map Cell.count).sum - 5| ≤ 4 := by
  have hq : ∀ q ∈ ([1 / 4, 1 / 2, 3 / 4] : List ℚ), 0 < q ∧ q < 1 := by
    intro q hq
    simp only [List.mem_cons, List.not_mem_nil, or_false] at hq
    rcases hq with rfl | rfl | rfl <;> constructor <;> norm_num
  obtain ⟨cs, h1, h2, _⟩ := C73_cover (id : ℚ → ℚ) [.add 5 0, .add 9 1, .iter, .add 7 0, .add 3 3, .add 1 0] (by simp [added])
    [1 / 4, 1 / 2, 3 / 4] hq
  obtain ⟨cs', h3, _, h4⟩ := C73_counts (id : ℚ → ℚ) [.add 5 0, .add 9 1, .iter, .add 7 0, .add 3 3, .add 1 0] (by simp [added])
    [1 / 4, 1 / 2, 3 / 4] hq (by norm_num)
  rw [h1] at h3; cases h3
  exact ⟨cs, h1, by simpa using h2, by simpa [added] using h4⟩

example := C73_exact (id : ℚ → ℚ) [.add 5 0, .add 9 1, .iter, .add 7 0, .add 3 3, .add 1 0] (by simp [added])
  [1 / 4, 1 / 2, 3 / 4] (by
    intro q hq
    simp only [List.mem_cons, List.not_mem_nil, or_false] at hq
    rcases hq with rfl | rfl | rfl <;> constructor <;> norm_num) (by simp; norm_num)

example := C74_exact (K := ℚ) (fun x => x + 1) [.add 5 0, .add 9 1, .iter, .add 7 0, .add 3 3, .add 1 0] (by simp [added])
  [1 / 4, 1 / 2, 3 / 4] (by
    intro q hq
    simp only [List.mem_cons, List.not_mem_nil, or_false] at hq
    rcases hq with rfl | rfl | rfl <;> constructor <;> norm_num) (by simp; norm_num)

example := C74_values_partial (K := ℚ) [.add 5 0, .add 9 1, .iter, .add 7 0, .add 3 3, .add 1 0] (by simp [added])
  [1 / 4, 1 / 2, 3 / 4] (by
    intro q hq
    simp only [List.mem_cons, List.not_mem_nil, or_false] at hq
    rcases hq with rfl | rfl | rfl <;> constructor <;> norm_num) (by simp; norm_num)

end Verif.Quant
