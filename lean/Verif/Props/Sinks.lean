import Verif.Lemmas.Sinks
import Verif.Lemmas.Bisect
import Mathlib.Data.Rat.Floor
import Mathlib.Tactic.Linarith
import Mathlib.Tactic.NormNum
import Mathlib.Tactic.Ring
import Mathlib.Tactic.FieldSimp
/-!
# C56-C60: the statistics sinks
-/
namespace Verif.Sinks

open Verif.Dct

variable {K : Type} [Field K] [LinearOrder K] [IsStrictOrderedRing K]

/-! ## C57: totals -/

section Agg

variable {L A V : Type} [AddCommMonoid V] (lname : L → String) (val : A → V)

theorem agg3_all (d : Dict String A) : get? (agg3 val d) ALL = some (sum3 val d) := by
  unfold agg3; rw [get?_set, if_pos rfl]

theorem agg3_get {d : Dict String A} (hn : (keys d).Nodup) {s : String} (hs : s ≠ ALL) :
    get? (agg3 val d) s = (get? d s).map val := by
  unfold agg3; rw [get?_set, if_neg (Ne.symm hs), get?_foldl_nodup hn]

theorem agg2_all (d : Dict String (Dict String A)) : get? (agg2 val d) ALL = some (.inl (sum2 val d)) := by
  unfold agg2; rw [get?_set, if_pos rfl]

theorem agg2_get {d : Dict String (Dict String A)} (hn : (keys d).Nodup) {n : String} (hs : n ≠ ALL) :
    get? (agg2 val d) n = (get? d n).map fun d3 => .inr (agg3 val d3) := by
  unfold agg2; rw [get?_set, if_neg (Ne.symm hs)]; exact get?_foldl_nodup hn (fun d3 => Sum.inr (agg3 val d3)) n

theorem agg1_all (m : Map3 L A) : get? (agg1 lname val m) ALL = some (.inl (sum1 val m)) := by
  unfold agg1; rw [get?_set, if_pos rfl]

theorem agg1_get [DecidableEq L] {m : Map3 L A} (hn : (keys m).Nodup) {l : L} {d2 : Dict String (Dict String A)} (h : get? m l = some d2)
    (ha : lname l ≠ ALL) (hu : ∀ l' ∈ keys m, lname l' = lname l → l' = l) :
    get? (agg1 lname val m) (lname l) = some (.inr (agg2 val d2)) := by
  unfold agg1
  rw [get?_set, if_neg (Ne.symm ha)]
  refine get?_build _ (fun d => Sum.inr (agg2 val d)) _ d2 ?_ ?_
  · exact List.mem_map.2 ⟨(l, d2), mem_of_get? h, rfl⟩
  · intro p hp e
    obtain ⟨q, hq, rfl⟩ := List.mem_map.1 hp
    have h1 := hu q.1 (List.mem_map_of_mem hq) e
    have h2 := get?_of_mem hn (k := q.1) (v := q.2) hq
    rw [h1, h] at h2
    exact (Option.some.inj h2).symm

end Agg

section Counts

variable {L : Type} [DecidableEq L]

theorem total_foldl (evs : List (Ev L K)) (a : RateAcc K) :
    (evs.foldl (fun a e => rateAdd a e.value) a).total = a.total + evs.length := by
  induction evs generalizing a with
  | nil => rfl
  | cons e evs ih => rw [List.foldl_cons, ih, List.length_cons]; simp only [rateAdd]; omega

theorem total_accOf (size : Option Nat) (evs : List (Ev L K)) :
    (accOf (fun e : Ev L K => rateInit size e.now) (fun a e => rateAdd a e.value) evs).map RateAcc.total =
      if evs = [] then none else some evs.length := by
  cases evs with
  | nil => rfl
  | cons e es => simp only [accOf, Option.map_some, total_foldl]; simp [rateInit]

theorem map_one_sum {E : Type} (l : List E) : (l.map fun _ => 1).sum = l.length := by
  induction l with
  | nil => rfl
  | cons x l ih => simp [ih, Nat.add_comm]

/-- C57: the grand total is the number of events received, whatever the loggers and names are called. -/
theorem C57_grand_total (lname : L → String) (size : Option Nat) (evs : List (Ev L K)) :
    get? (totalCounts lname (evs.foldl (rateOnEnd size) [])) ALL = some (.inl evs.length) := by
  unfold totalCounts rateOnEnd
  rw [agg1_all, sum1_run _ _ _ _ _ RateAcc.total (fun _ => 1) (fun _ => rfl) (fun _ _ => rfl), map_one_sum]

theorem mem_keys_run (size : Option Nat) (evs : List (Ev L K)) (l : L) :
    l ∈ keys (evs.foldl (rateOnEnd size) []) ↔ ∃ e ∈ evs, e.logger = l := by
  rw [← get?_isSome]; exact logger_isSome_run _ _ _ _ _ evs l

/-- C57: for a logger that no other logger shares its name with, every cell and subtotal counts exactly the events with those
labels, and labels not seen have no entry.  What is missing for the full claim: loggers that share a name, and labels equal to
the special key. -/
theorem C57_cells_partial (lname : L → String) (size : Option Nat) (evs : List (Ev L K)) (l : L)
    (hl : ∃ e ∈ evs, e.logger = l) (ha : lname l ≠ "__all__") (hu : ∀ e ∈ evs, lname e.logger = lname l → e.logger = l) :
    ∃ d2, get? (totalCounts lname (evs.foldl (rateOnEnd size) [])) (lname l) = some (.inr d2) ∧
      get? d2 "__all__" = some (.inl (evs.countP fun e => decide (e.logger = l))) ∧
      ∀ n, n ≠ "__all__" →
        ((¬ ∃ e ∈ evs, e.logger = l ∧ e.name = n) → get? d2 n = none) ∧
        ((∃ e ∈ evs, e.logger = l ∧ e.name = n) → ∃ d3, get? d2 n = some (.inr d3) ∧
          get? d3 "__all__" = some (evs.countP fun e => decide (e.logger = l ∧ e.name = n)) ∧
          ∀ s, s ≠ "__all__" → get? d3 s =
            if ∃ e ∈ evs, e.logger = l ∧ e.name = n ∧ e.status = s then
              some (evs.countP fun e => decide (e.logger = l ∧ e.name = n ∧ e.status = s)) else none) := by
  have hwf : WF (evs.foldl (rateOnEnd size) []) := wf_run _ _ _ _ _ evs
  have hs := (logger_isSome_run Ev.logger Ev.name Ev.status (fun e : Ev L K => rateInit size e.now)
    (fun a e => rateAdd a e.value) evs l).2 hl
  change (get? (evs.foldl (rateOnEnd size) []) l).isSome at hs
  obtain ⟨d2, hd2⟩ := Option.isSome_iff_exists.1 hs
  refine ⟨agg2 RateAcc.total d2, ?_, ?_, ?_⟩
  · refine agg1_get lname RateAcc.total hwf.k1 hd2 ha ?_
    intro l' hl' e
    obtain ⟨ev, h1, rfl⟩ := (mem_keys_run size evs l').1 hl'
    exact hu ev h1 e
  · refine (agg2_all _ _).trans ?_
    have := sum2_run Ev.logger Ev.name Ev.status (fun e : Ev L K => rateInit size e.now) (fun a e => rateAdd a e.value)
      RateAcc.total (fun _ => 1) (fun _ => rfl) (fun _ _ => rfl) evs l
    change sum2 RateAcc.total ((get? (evs.foldl (rateOnEnd size) []) l).getD []) = _ at this
    rw [hd2, Option.getD_some] at this
    rw [this, map_one_sum, List.countP_eq_length_filter]
  · intro n hn
    have hiff := name_isSome_run Ev.logger Ev.name Ev.status (fun e : Ev L K => rateInit size e.now)
      (fun a e => rateAdd a e.value) evs l n
    change ((get? (evs.foldl (rateOnEnd size) []) l).bind fun d2 => get? d2 n).isSome ↔ _ at hiff
    rw [hd2, Option.bind_some] at hiff
    rw [agg2_get _ (hwf.k2 _ _ hd2) hn]
    constructor
    · intro hno
      rw [← hiff] at hno
      cases hg : get? d2 n with
      | none => rfl
      | some d3 => simp [hg] at hno
    · intro hyes
      obtain ⟨d3, hd3⟩ := Option.isSome_iff_exists.1 (hiff.2 hyes)
      refine ⟨agg3 RateAcc.total d3, by rw [hd3]; rfl, ?_, ?_⟩
      · refine (agg3_all _ _).trans ?_
        have := sum3_run Ev.logger Ev.name Ev.status (fun e : Ev L K => rateInit size e.now) (fun a e => rateAdd a e.value)
          RateAcc.total (fun _ => 1) (fun _ => rfl) (fun _ _ => rfl) evs l n
        change sum3 RateAcc.total ((get? ((get? (evs.foldl (rateOnEnd size) []) l).getD []) n).getD []) = _ at this
        rw [hd2, Option.getD_some, hd3, Option.getD_some] at this
        rw [this, map_one_sum, List.countP_eq_length_filter]
      · intro s hs
        rw [agg3_get _ (hwf.k3 _ _ _ _ hd2 hd3) hs]
        have := cell_run Ev.logger Ev.name Ev.status (fun e : Ev L K => rateInit size e.now) (fun a e => rateAdd a e.value)
          evs l n s
        change cell (evs.foldl (rateOnEnd size) []) l n s = _ at this
        unfold cell at this
        rw [hd2, Option.bind_some, hd3, Option.bind_some] at this
        rw [this, total_accOf, List.countP_eq_length_filter]
        by_cases hex : ∃ e ∈ evs, e.logger = l ∧ e.name = n ∧ e.status = s
        · rw [if_pos hex, if_neg]
          obtain ⟨e, he, h⟩ := hex
          exact List.ne_nil_of_mem (List.mem_filter.2 ⟨he, by simpa using h⟩)
        · rw [if_neg hex, if_pos]
          rw [List.filter_eq_nil_iff]
          intro e he hc
          exact hex ⟨e, he, by simpa using hc⟩

/-- Two loggers, three events. -/
def sampleEvs : List (Ev Nat ℚ) :=
  [⟨0, "load", "success", 10, 9⟩, ⟨1, "load", "failure", 11, 11⟩, ⟨0, "load", "success", 12, 12⟩]

example : ∃ d2, get? (totalCounts (fun n => if n = 0 then "app" else "db") (sampleEvs.foldl (rateOnEnd (some 128)) [])) "app"
    = some (.inr d2) ∧ get? d2 "__all__" = some (.inl 2) := by
  obtain ⟨d2, h1, h2, _⟩ := C57_cells_partial (fun n : Nat => if n = 0 then "app" else "db") (some 128) sampleEvs 0
    (by simp [sampleEvs]) (by simp) (by simp [sampleEvs])
  exact ⟨d2, by simpa using h1, by simpa [sampleEvs] using h2⟩

/-- C57 fails for loggers that share a name: of the two loggers only the later one is in the table. -/
theorem C57_violated_names :
    ∃ d2, get? (totalCounts (fun _ : Nat => "app") (sampleEvs.foldl (rateOnEnd (some 128)) [])) "app" = some (.inr d2) ∧
      get? d2 "__all__" = some (.inl 1) ∧ sampleEvs.length = 3 := by
  refine ⟨[("load", .inr [("failure", 1), ("__all__", 1)]), ("__all__", .inl 1)], ?_, ?_, rfl⟩
  · simp [sampleEvs, rateOnEnd, onEnd, upd, get?, Dct.set, totalCounts, agg1, agg2, agg3, sum1, sum2, sum3, values, ALL,
      rateAdd, rateInit]
  · simp [get?]

/-- C57 fails for an action called `__all__`: its row is overwritten by the subtotal. -/
theorem C57_violated_all :
    ∃ d2, get? (totalCounts (fun _ : Nat => "app") ([⟨0, "__all__", "success", 1, 1⟩].foldl (rateOnEnd (K := ℚ) (some 128)) []))
      "app" = some (.inr d2) ∧ get? d2 "__all__" = some (.inl 1) ∧ d2.length = 1 := by
  refine ⟨[("__all__", .inl 1)], ?_, ?_, rfl⟩
  · simp [rateOnEnd, onEnd, upd, get?, Dct.set, totalCounts, agg1, agg2, agg3, sum1, sum2, sum3, values, ALL,
      rateAdd, rateInit]
  · simp [get?]

end Counts

end Verif.Sinks
