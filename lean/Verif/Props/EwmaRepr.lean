import Verif.Model.SinkRepr
import Verif.Props.SinkValues
/-!
# C143: showing moving averages
-/
namespace Verif.SinkRepr

open Verif.Sinks Verif.Dct
open Reprs (txt Shown)

variable {A E P V : Type} [DecidableEq P] [AddCommMonoid V]

theorem nodup_updateAdd (o : Dct.Dict P (Option V)) : ∀ t : Dct.Dict P V, (keys t).Nodup → (keys (updateAdd t o)).Nodup := by
  induction o with
  | nil => exact fun _ h => h
  | cons q o ih =>
    intro t h
    obtain ⟨a, x⟩ := q
    cases x with
    | none => exact ih t h
    | some v => exact ih _ (nodup_set h _ _)

theorem nodup_updates (os : List (Dct.Dict P (Option V))) : ∀ t : Dct.Dict P V, (keys t).Nodup → (keys (os.foldl updateAdd t)).Nodup := by
  induction os with
  | nil => exact fun _ h => h
  | cons o os ih => exact fun t h => ih _ (nodup_updateAdd o t h)

/-- C143: the `repr` of an `EWMASink` shows a dictionary with each period that has a rate once and, for it, the sum of the rates of all
accumulators.  What is missing for the full claim: a logger called `__all__`, whose table is then shown instead. -/
theorem C143_ewma_sink_partial (cn : List Nat) (period : P → List Nat) (rate : V → List Nat)
    (table : Dct.Dict String (Dct.Dict P V ⊕ Dct.Dict String (Entry P V)) → List Nat)
    (lg nm st : E → String) (mk : E → A) (ad : A → E → A) (rates : A → Dct.Dict P (Option V)) (hr : ∀ a, (keys (rates a)).Nodup)
    (evs : List E) (hl : ∀ e ∈ evs, lg e ≠ "__all__") :
    ∃ d : List (P × V), (d.map Prod.fst).Nodup ∧
      (∀ p v, (p, v) ∈ d ↔ total rates (below1 lg nm st mk ad evs) p = some v) ∧
      ewmaSink cn period rate table rates (evs.foldl (onEnd lg nm st mk ad) []) =
        .text (txt "<" ++ cn ++ txt " total_values={" ++
          (txt ", ").intercalate (d.map fun p => period p.1 ++ txt ": " ++ rate p.2) ++ txt "}>") := by
  have hwf := wf_run lg nm st mk ad evs
  have hi1 := logger_isSome_run lg nm st mk ad evs
  have hv1 := values1 (lg := lg) (nm := nm) (st := st) (mk := mk) (ad := ad) evs
  obtain ⟨m, hm⟩ : ∃ m, m = evs.foldl (onEnd lg nm st mk ad) [] := ⟨_, rfl⟩
  rw [← hm] at hwf hi1 hv1 ⊢
  have hnone : get? m ALL = none := by
    rw [← Option.not_isSome_iff_eq_none, hi1]
    rintro ⟨e, he, h⟩; exact hl e he h
  have hg : get? (vals1 rates m) ALL = some (.inl ((cells1 rates m).foldl updateAdd [])) := by
    have := get?_foldl_nodup_from hwf.k1 (fun d2 => Sum.inr (vals2 rates d2))
      [(ALL, Sum.inl ((cells1 rates m).foldl updateAdd []))] ALL
    refine this.trans ?_
    rw [hnone]
    simp [get?]
  have hnd : (keys ((cells1 rates m).foldl updateAdd [])).Nodup := nodup_updates _ _ (by simp [keys])
  refine ⟨(cells1 rates m).foldl updateAdd [], hnd, fun p v => ?_, ?_⟩
  · have ht : get? ((cells1 rates m).foldl updateAdd []) p = total rates (below1 lg nm st mk ad evs) p := by
      rw [cells1_eq]
      exact foldl_total rates hr hv1 p
    rw [← ht]
    exact ⟨get?_of_mem hnd, mem_of_get?⟩
  · unfold ewmaSink
    rw [hg]
    simp only [dictText, List.map_map]
    congr 1
    simp [txt, List.append_assoc]
    rfl

/-- C143: showing an `EWMASink` whose accumulators return their rates never raises, whatever the loggers are called. -/
theorem C143_ewma_returns (cn : List Nat) (period : P → List Nat) (rate : V → List Nat)
    (table : Dct.Dict String (Dct.Dict P V ⊕ Dct.Dict String (Entry P V)) → List Nat)
    (lg nm st : E → String) (mk : E → A) (ad : A → E → A) (rates : A → Dct.Dict P (Option V)) (evs : List E) :
    ∃ t, ewmaSink cn period rate table rates (evs.foldl (onEnd lg nm st mk ad) []) = .text t := by
  have hwf := wf_run lg nm st mk ad evs
  have hg := get?_foldl_nodup_from hwf.k1 (fun d2 => Sum.inr (vals2 rates d2))
    [(ALL, Sum.inl ((cells1 rates (evs.foldl (onEnd lg nm st mk ad) [])).foldl updateAdd []))] ALL
  unfold ewmaSink
  rw [show get? (vals1 rates (evs.foldl (onEnd lg nm st mk ad) [])) ALL = _ from hg]
  cases get? (evs.foldl (onEnd lg nm st mk ad) []) ALL with
  | none => exact ⟨_, by simp [get?]; rfl⟩
  | some d2 => exact ⟨_, rfl⟩

/-- Two loggers; one accumulator has no rate yet. -/
example : ∃ d : List (Nat × Int), (60, 7) ∈ d ∧ ewmaSink (txt "EWMASink") (fun _ => txt "60") (fun _ => txt "7") (fun _ => [])
      (fun n : Nat => [(60, if n = 0 then none else some (n : Int))])
      ([("app", "load", 3), ("app", "save", 4), ("db", "load", 0)].foldl
        (onEnd (·.1) (·.2.1) (fun _ => "success") (fun _ => 0) (fun _ e => e.2.2)) []) =
    .text (txt "<" ++ txt "EWMASink" ++ txt " total_values={" ++
      (txt ", ").intercalate (d.map fun _ => txt "60" ++ txt ": " ++ txt "7") ++ txt "}>") := by
  obtain ⟨d, _, h2, h3⟩ := C143_ewma_sink_partial (txt "EWMASink") (fun _ : Nat => txt "60") (fun _ : Int => txt "7") (fun _ => [])
    (fun e : String × String × Nat => e.1) (fun e => e.2.1)
    (fun _ => "success") (fun _ => 0) (fun _ e => e.2.2)
    (fun n : Nat => [((60 : Nat), if n = 0 then none else some (n : Int))]) (by simp [keys])
    [("app", "load", 3), ("app", "save", 4), ("db", "load", 0)] (by simp)
  exact ⟨d, (h2 60 7).2 (by decide), h3⟩

end Verif.SinkRepr
