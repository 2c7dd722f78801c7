import Verif.Model.FloatHistogram
import Verif.Props.FloatQuantile
import Verif.Props.Histogram
/-!
# C151: histograms in floating point
-/
namespace Verif.FltHist

open Verif.Flt Verif.Quant
open Verif.Accum (Ext)
open Verif.P2 (trunc)
open scoped List

variable {K : Type} [Field K] [LinearOrder K] [IsStrictOrderedRing K] [FloorRing K]

/-- With exact arithmetic the model is `Verif.Model.Histogram`. -/
theorem getHistogram_exact (r : Res K) (qs : List K) : getHistogram exact r qs = Quant.getHistogram r qs := rfl

theorem abs_le_sum_abs {l : List K} {x : K} (h : x ∈ l) : |x| ≤ (l.map abs).sum := by
  induction l with
  | nil => simp at h
  | cons a l ih =>
    have h0 : 0 ≤ (l.map abs).sum := List.sum_nonneg (by simp)
    rcases List.mem_cons.1 h with rfl | h
    · simpa using h0
    · have := ih h
      have := abs_nonneg a
      simp only [List.map_cons, List.sum_cons]
      linarith

theorem sortData_data (r : Res K) (hs : r.isSorted = true → r.data.Pairwise (· ≤ ·)) : (sortData r).data = sorted r.data := by
  unfold sortData
  split
  · rename_i h; exact eq_sorted (hs h) (List.Perm.refl _)
  · rfl

theorem readAll_ok {F : Rounding K} {u η : K} (hn : F.Near u η) (hu0 : 0 ≤ u) (hu : u ≤ 1 / 2) (he : 0 ≤ η) (qs : List K) :
    ∀ r : Res K, (r.isSorted = true → r.data.Pairwise (· ≤ ·)) → r.data ≠ [] → F.Is ((r.data.length : K) - 1) →
      (∀ q ∈ qs, 0 < q ∧ q < 1) → ∃ vs, (readAll (FltQuant.resQuantile F) r qs).1 = .ok vs ∧ qs.length = vs.length := by
  induction qs with
  | nil => intro r _ _ _ _; exact ⟨[], rfl, rfl⟩
  | cons q qs ih =>
    intro r hs hne hl hq
    obtain ⟨h0, h1⟩ := hq q (by simp)
    obtain ⟨v, -, hv, -⟩ := FltQuant.quantile_near hn hu0 hu he r q hs hne h0 h1 hl (fun x hx => abs_le_sum_abs hx)
    have hr : (FltQuant.resQuantile F r q).2 = sortData r := by
      unfold FltQuant.resQuantile
      dsimp only
      rw [if_neg (by simp [h0, h1])]
    have hd := sortData_data r hs
    obtain ⟨vs, h2, h3⟩ := ih (sortData r) (fun _ => by rw [hd]; exact sorted_pairwise _)
      (by
        rw [hd]; intro e
        have h := (sorted_perm r.data).symm
        rw [e] at h
        exact hne (List.perm_nil.1 h))
      (by rw [hd, (sorted_perm r.data).length_eq]; exact hl) (fun q h => hq q (by simp [h]))
    exact ⟨v :: vs, by simp [readAll, hv, hr, h2], by simp [h3]⟩

/-! ## The cells -/

theorem cells_adjacent (F : Rounding K) (total n : Nat) (w : List (K × Ext K)) (a b : K × Ext K) :
    let cs := ((a :: w ++ [b]).zip (a :: w ++ [b]).tail).map fun p => cell F total n p.1 p.2
    cs.length = w.length + 1 ∧ Adjacent a b cs ∧ (cs.map fun c => c.q1 - c.q0).sum = b.1 - a.1 := by
  induction w generalizing a with
  | nil => simp [Adjacent, cell]
  | cons c w ih =>
    obtain ⟨h1, h2, h3⟩ := ih c
    simp only [List.cons_append, List.tail_cons, List.zip_cons_cons, List.map_cons, List.length_cons] at h1 h2 h3 ⊢
    refine ⟨by rw [h1], ⟨rfl, h2⟩, ?_⟩
    rw [List.sum_cons, h3]
    simp only [cell]
    ring

/-- One cell between two points in order. -/
theorem cell_near {F : Rounding K} {u η : K} (hn : F.Near u η) (hu0 : 0 ≤ u) (total n : Nat) (ht : F.Is (total : K))
    (s e : K × Ext K) (h : s.1 ≤ e.1) (hs : 0 ≤ s.1) (he : e.1 ≤ 1) :
    let c := cell F total n s e
    |c.ratio - (c.q1 - c.q0)| ≤ u * (c.q1 - c.q0) + η ∧ 0 ≤ c.count ∧
      |(c.count : K) - (c.q1 - c.q0) * total| ≤ 1 + (2 * u * total + η * (total + 1)) := by
  have hρ0 : 0 ≤ e.1 - s.1 := sub_nonneg.2 h
  have hρ1 : e.1 - s.1 ≤ 1 := by linarith
  have hN : (0 : K) ≤ total := Nat.cast_nonneg _
  have hr := hn (e.1 - s.1)
  rw [abs_of_nonneg hρ0] at hr
  have hr0 : 0 ≤ F.rnd (e.1 - s.1) := F.nonneg hρ0
  have hr1 : F.rnd (e.1 - s.1) ≤ 1 := by have := F.mono hρ1; rwa [F.one] at this
  have hη : 0 ≤ η := by have := (abs_nonneg _).trans (hn 0); simpa using this
  have hx := hn (F.rnd (e.1 - s.1) * total)
  have hp0 : 0 ≤ F.rnd (e.1 - s.1) * total := mul_nonneg hr0 hN
  rw [abs_of_nonneg hp0] at hx
  have hx0 : 0 ≤ F.rnd (F.rnd (e.1 - s.1) * total) := F.nonneg hp0
  obtain ⟨t1, t2⟩ := trunc_bounds _ hx0
  have t0 : 0 ≤ trunc (F.rnd (F.rnd (e.1 - s.1) * total)) := by
    unfold trunc; rw [if_pos hx0]; exact Int.floor_nonneg.2 hx0
  have hd : |F.rnd (F.rnd (e.1 - s.1) * total) - (e.1 - s.1) * total| ≤ 2 * u * total + η * (total + 1) := by
    have h1 : |F.rnd (e.1 - s.1) * total - (e.1 - s.1) * total| ≤ (u + η) * total := by
      rw [← sub_mul, abs_mul, abs_of_nonneg hN]
      refine mul_le_mul_of_nonneg_right (hr.trans ?_) hN
      have := mul_le_mul_of_nonneg_left hρ1 hu0
      linarith
    have h2 : u * (F.rnd (e.1 - s.1) * total) ≤ u * total := by
      refine mul_le_mul_of_nonneg_left ?_ hu0
      nlinarith
    have h3 := abs_add_le (F.rnd (F.rnd (e.1 - s.1) * total) - F.rnd (e.1 - s.1) * total)
      (F.rnd (e.1 - s.1) * total - (e.1 - s.1) * total)
    rw [sub_add_sub_cancel] at h3
    linarith
  rw [abs_le] at hd
  have key : ∀ b : Int, 0 ≤ b → b ≤ 1 →
      0 ≤ trunc (F.rnd (F.rnd (e.1 - s.1) * total)) + b ∧
      |((trunc (F.rnd (F.rnd (e.1 - s.1) * total)) + b : Int) : K) - (e.1 - s.1) * total| ≤
        1 + (2 * u * total + η * (total + 1)) := by
    intro b b0 b1
    have b0' : (0 : K) ≤ b := by exact_mod_cast b0
    have b1' : (b : K) ≤ 1 := by exact_mod_cast b1
    refine ⟨by omega, abs_le.2 ?_⟩
    push_cast
    constructor <;> linarith
  have k0 := key 0 le_rfl zero_le_one
  have k1 := key 1 zero_le_one le_rfl
  rw [add_zero] at k0
  have et : F.rnd (total : K) = total := ht
  unfold cell
  simp only [et]
  refine ⟨hr, ?_⟩
  split
  · split
    · exact k1
    · exact k0
  · split
    · exact k1
    · exact k0

theorem sum_near (cs : List (Cell K)) {u η d t : K}
    (h : ∀ c ∈ cs, |c.ratio - (c.q1 - c.q0)| ≤ u * (c.q1 - c.q0) + η ∧ |(c.count : K) - (c.q1 - c.q0) * t| ≤ d) :
    |(cs.map Cell.ratio).sum - (cs.map fun c => c.q1 - c.q0).sum| ≤ u * (cs.map fun c => c.q1 - c.q0).sum + cs.length * η ∧
      |(((cs.map Cell.count).sum : Int) : K) - (cs.map fun c => c.q1 - c.q0).sum * t| ≤ cs.length * d := by
  induction cs with
  | nil => simp
  | cons c cs ih =>
    obtain ⟨h1, h2⟩ := h c List.mem_cons_self
    obtain ⟨h3, h4⟩ := ih fun x hx => h x (List.mem_cons_of_mem _ hx)
    simp only [List.map_cons, List.sum_cons, List.length_cons]
    push_cast at h4 ⊢
    rw [abs_le] at h1 h2 h3 h4 ⊢
    rw [abs_le]
    refine ⟨⟨?_, ?_⟩, ?_, ?_⟩ <;> linarith

/-- **C151**, as far as it holds: in floating point `get_histogram` of at least one value, with points between 0 and 1 in increasing
order, gives one cell more than there are points; the cells lie next to each other and cover the quantiles from 0 to 1 and the values
from `min` to `max`; each ratio is the length of its cell up to rounding, and they add up to 1 up to rounding; each count is
non-negative and within one of its share, up to rounding, and so they add up to the number of values. -/
theorem C151_cells_partial {F : Rounding K} {u η : K} (hn : F.Near u η) (hu0 : 0 ≤ u) (hu : u ≤ 1 / 2) (store : K → K)
    (ops : List (Op K)) (hne : added ops ≠ []) (hl : F.Is ((added ops).length : K)) (hl' : F.Is (((added ops).length : K) - 1))
    (qs : List K) (hq : ∀ q ∈ qs, 0 < q ∧ q < 1) (hs : qs.Pairwise (· ≤ ·)) :
    let n : K := (added ops).length
    ∃ cs, getHistogram F (run store none ops) qs = .ok cs ∧ cs.length = qs.length + 1 ∧
      Adjacent (0, (run store none ops).base.min) (1, (run store none ops).base.max) cs ∧
      (∀ c ∈ cs, |c.ratio - (c.q1 - c.q0)| ≤ u * (c.q1 - c.q0) + η ∧ 0 ≤ c.count ∧
        |(c.count : K) - (c.q1 - c.q0) * n| ≤ 1 + (2 * u * n + η * (n + 1))) ∧
      |(cs.map Cell.ratio).sum - 1| ≤ u + (qs.length + 1) * η ∧
      |(((cs.map Cell.count).sum : Int) : K) - n| ≤ (qs.length + 1) * (1 + (2 * u * n + η * (n + 1))) := by
  intro n
  have hη : 0 ≤ η := by have := (abs_nonneg _).trans (hn 0); simpa using this
  have hc := (C50_count_min_max store ops).1
  obtain ⟨acc, h⟩ := inv_run store none ops
  obtain ⟨rfl, hlen⟩ := h.none_len rfl
  obtain ⟨vs, g1, g2⟩ := readAll_ok hn hu0 hu hη qs (run store none ops) h.isSorted
    (by intro e; rw [e] at hlen; exact hne (List.length_eq_zero_iff.1 hlen.symm)) (by rw [hlen]; exact hl') hq
  have hgq : getQuantiles F (run store none ops) qs = .ok ((0, (run store none ops).base.min) :: qs.zip (vs.map fin) ++
      [(1, (run store none ops).base.max)]) := by simp [getQuantiles, g1]
  refine ⟨_, by unfold getHistogram; rw [hgq], ?_⟩
  have hsort : (((0, (run store none ops).base.min) :: qs.zip (vs.map fin) ++
      [((1 : K), (run store none ops).base.max)]).map Prod.fst).Pairwise (· ≤ ·) := by
    rw [List.map_append, List.map_cons, zip_map_fst _ _ (by simpa using g2)]
    simp only [List.cons_append, List.map_cons, List.map_nil, List.pairwise_cons, List.pairwise_append, List.mem_append,
      List.mem_singleton]
    refine ⟨?_, hs, by simp, ?_⟩
    · rintro x (hx | rfl)
      · exact (hq x hx).1.le
      · exact zero_le_one
    · rintro x hx y rfl
      exact (hq x hx).2.le
  have hmem : ∀ p ∈ ((0, (run store none ops).base.min) :: qs.zip (vs.map fin) ++ [((1 : K), (run store none ops).base.max)]),
      0 ≤ p.1 ∧ p.1 ≤ 1 := by
    intro p hp
    simp only [List.cons_append, List.mem_cons, List.mem_append, List.not_mem_nil, or_false] at hp
    rcases hp with rfl | hp | rfl
    · exact ⟨le_rfl, zero_le_one⟩
    · have := hq p.1 (List.of_mem_zip hp).1
      exact ⟨this.1.le, this.2.le⟩
    · exact ⟨zero_le_one, le_rfl⟩
  obtain ⟨a1, a2, a3⟩ := cells_adjacent F (run store none ops).base.count
    ((0, (run store none ops).base.min) :: qs.zip (vs.map fin) ++ [(1, (run store none ops).base.max)]).length
    (qs.zip (vs.map fin)) (0, (run store none ops).base.min) (1, (run store none ops).base.max)
  have hcells : ∀ c ∈ cells F (run store none ops).base.count ((0, (run store none ops).base.min) :: qs.zip (vs.map fin) ++
      [(1, (run store none ops).base.max)]),
      |c.ratio - (c.q1 - c.q0)| ≤ u * (c.q1 - c.q0) + η ∧ 0 ≤ c.count ∧
        |(c.count : K) - (c.q1 - c.q0) * n| ≤ 1 + (2 * u * n + η * (n + 1)) := by
    intro c hm
    unfold cells at hm
    obtain ⟨p, hp, rfl⟩ := List.mem_map.1 hm
    have hz := List.of_mem_zip (show (p.1, p.2) ∈ _ from hp)
    have := cell_near hn hu0 (run store none ops).base.count
      ((0, (run store none ops).base.min) :: qs.zip (vs.map fin) ++ [(1, (run store none ops).base.max)]).length
      (by rw [hc]; exact hl) p.1 p.2 (zip_tail_sorted Prod.fst _ hsort p hp) (hmem _ hz.1).1
      (hmem _ (List.mem_of_mem_tail hz.2)).2
    rw [hc] at this ⊢
    exact this
  have hlen' : (cells F (run store none ops).base.count ((0, (run store none ops).base.min) :: qs.zip (vs.map fin) ++
      [(1, (run store none ops).base.max)])).length = qs.length + 1 := by
    refine a1.trans ?_
    rw [List.length_zip, List.length_map, ← g2, min_self]
  have a3' : ((cells F (run store none ops).base.count ((0, (run store none ops).base.min) :: qs.zip (vs.map fin) ++
      [(1, (run store none ops).base.max)])).map fun c => c.q1 - c.q0).sum = 1 := a3.trans (by simp)
  obtain ⟨s1, s2⟩ := sum_near _ fun c hm => ⟨(hcells c hm).1, (hcells c hm).2.2⟩
  rw [a3', hlen'] at s1 s2
  rw [mul_one] at s1
  rw [one_mul] at s2
  push_cast at s1 s2
  refine ⟨hlen', a2, hcells, s1, ?_⟩
  exact_mod_cast s2

/-- **C151**, the full claim on counts for doubles and values stored in single precision: each cell's count is within one of its share
of the values. -/
def Within : Prop :=
  ∀ (ops : List (Op ℚ)) (qs : List ℚ) (cs : List (Cell ℚ)), added ops ≠ [] → (∀ q ∈ qs, 0 < q ∧ q < 1 ∧ binary64.Is q) →
    qs.Pairwise (· ≤ ·) → getHistogram binary64 (run (ieee 24 (-149)) none ops) qs = .ok cs →
    ∀ c ∈ cs, |(c.count : ℚ) - (c.q1 - c.q0) * (added ops).length| ≤ 1

/-- The float 1/3. -/
def third : ℚ := 6004799503160661 / 2 ^ 54

/-- **C151** is false: with the point 1/3, which as a float is a bit less, three values give a first cell with a share of less than one,
which counts two. -/
theorem C151_violated : ¬ Within := by
  intro h
  let ops : List (Op ℚ) := [.add 1 0, .add 2 0, .add 3 0]
  have hlen : (added ops).length = 3 := rfl
  have hnear := binary64_near (K := ℚ)
  obtain ⟨acc, hi⟩ := inv_run (ieee 24 (-149)) none ops
  obtain ⟨rfl, hl⟩ := hi.none_len rfl
  have hc := (C50_count_min_max (ieee 24 (-149)) ops).1
  obtain ⟨vs, g1, g2⟩ := readAll_ok hnear (two_zpow_pos _).le (by norm_num) (two_zpow_pos _).le [third]
    (run (ieee 24 (-149)) none ops) hi.isSorted
    (by intro e; rw [e] at hl; rw [hlen] at hl; exact absurd hl (by decide)) (by rw [hl, hlen]; decide +kernel)
    (by simp only [List.mem_singleton, forall_eq]; decide +kernel)
  obtain ⟨v, rfl⟩ : ∃ v, vs = [v] := by
    match vs, g2 with
    | [v], _ => exact ⟨v, rfl⟩
  have hg : getHistogram binary64 (run (ieee 24 (-149)) none ops) [third] =
      .ok (cells binary64 3 [(0, (run (ieee 24 (-149)) none ops).base.min), (third, fin v),
        (1, (run (ieee 24 (-149)) none ops).base.max)]) := by
    unfold getHistogram getQuantiles
    rw [g1, hc, hlen]
    rfl
  have := h ops [third] _ (by simp [ops, added]) (by simp only [List.mem_singleton, forall_eq]; decide +kernel) (by simp) hg
    (cell binary64 3 3 (0, (run (ieee 24 (-149)) none ops).base.min) (third, fin v)) (by simp [cells])
  have e : (cell binary64 3 3 (0, (run (ieee 24 (-149)) none ops).base.min) (third, fin v)).count = 2 := by
    unfold cell
    dsimp only
    rw [if_neg (by decide), if_pos (Or.inl rfl)]
    decide +kernel
  rw [e, hlen] at this
  simp only [cell] at this
  exact absurd this (by decide +kernel)

/-- Its case meets the hypotheses of what holds. -/
example := C151_cells_partial (K := ℚ) binary64_near (two_zpow_pos _).le (by norm_num) (ieee 24 (-149)) [.add 1 0, .add 2 0, .add 3 0]
  (by simp [added]) (by decide +kernel) (by decide +kernel) [third] (by simp only [List.mem_singleton, forall_eq]; decide +kernel) (by simp)

end Verif.FltHist
