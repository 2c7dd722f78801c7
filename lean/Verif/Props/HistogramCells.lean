import Verif.Props.Histogram
/-!
# C73: where the cells of a histogram begin and end
-/
namespace Verif.Quant

open Verif.Accum (Ext)

variable {K : Type} [Field K] [LinearOrder K] [IsStrictOrderedRing K] [FloorRing K]

theorem cells_bounds (total n : Nat) (w : List (K × Ext K)) (a b : K × Ext K) :
    let cs := ((a :: w ++ [b]).zip (a :: w ++ [b]).tail).map fun p => cell total n p.1 p.2
    cs.map (fun c => (c.q0, c.v0)) = a :: w ∧ cs.map (fun c => (c.q1, c.v1)) = w ++ [b] := by
  induction w generalizing a with
  | nil => simp [cell]
  | cons c w ih =>
    obtain ⟨h1, h2⟩ := ih c
    simp only [List.cons_append, List.tail_cons, List.zip_cons_cons, List.map_cons] at h1 h2 ⊢
    exact ⟨by rw [h1]; simp [cell], by rw [h2]; simp [cell]⟩

/-- C73: the first cell begins at the minimum and the last ends at the maximum; in between, the cells end and begin at the
quantiles of the points, in the order the points were given, and the ratio of each is the distance of its points. -/
theorem C73_bounds (store : K → K) (ops : List (Op K)) (hne : added ops ≠ []) (qs : List K)
    (hq : ∀ q ∈ qs, 0 < q ∧ q < 1) :
    ∃ cs vs, getHistogram (run store none ops) qs = .ok cs ∧
      List.Forall₂ (fun q v => (resQuantile (run store none ops) q).1 = .ok v) qs vs ∧
      cs.map (fun c => (c.q0, c.v0)) = (0, (run store none ops).base.min) :: qs.zip (vs.map fin) ∧
      cs.map (fun c => (c.q1, c.v1)) = qs.zip (vs.map fin) ++ [(1, (run store none ops).base.max)] ∧
      ∀ c ∈ cs, c.ratio = c.q1 - c.q0 := by
  obtain ⟨vs, h1, h2⟩ := C50_get_quantiles store ops hne qs hq
  refine ⟨_, vs, by unfold getHistogram; rw [h2], h1, ?_, ?_, ?_⟩
  · exact (cells_bounds _ _ _ _ _).1
  · exact (cells_bounds _ _ _ _ _).2
  · intro c hc
    obtain ⟨p, _, rfl⟩ := List.mem_map.1 hc
    rfl

/-- Three values, one point: cells that meet at the median. -/
example : ∃ (cs : List (Cell ℚ)) (v : ℚ), getHistogram (run id none [.add 1 0, .add 3 0, .add 2 0]) [1 / 2] = .ok cs ∧
    cs.map (fun c => (c.q0, c.v0)) = [(0, (run id none [.add (1 : ℚ) 0, .add 3 0, .add 2 0]).base.min), (1 / 2, fin v)] := by
  obtain ⟨cs, vs, h1, h2, h3, h4, _⟩ := C73_bounds (K := ℚ) id [.add 1 0, .add 3 0, .add 2 0] (by simp [added]) [1 / 2]
    (by intro q hq; simp at hq; subst hq; norm_num)
  match vs, h2 with
  | [v], _ => exact ⟨cs, v, h1, by simpa using h3⟩

end Verif.Quant
