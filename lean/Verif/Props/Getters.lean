import Verif.Model.Getters
import Verif.Props.Sinks
import Verif.Props.SinkTables
/-!
# C121: a getter that fails costs its event only
-/
namespace Verif.Sinks

open Verif.Dct

variable {K : Type} [Field K] [LinearOrder K] [IsStrictOrderedRing K]

/-- The events whose getter returned. -/
def kept {L V : Type} (evs : List (TryEv L V K)) : List (TryEv L V K) := evs.filter fun e => e.got.isSome

section Rates

variable {L : Type} [DecidableEq L]

omit [IsStrictOrderedRing K] in
theorem weight_sum {V : Type} (l : List (TryEv L V K)) :
    (l.map fun e => if e.got.isSome then 1 else 0).sum = l.countP fun e => e.got.isSome := by
  induction l with
  | nil => rfl
  | cons e l ih =>
    rw [List.map_cons, List.sum_cons, ih, List.countP_cons]; omega

omit [IsStrictOrderedRing K] in
theorem count_filter {V : Type} (l : List (TryEv L V K)) (p : TryEv L V K → Bool) :
    (l.filter p).countP (fun e => e.got.isSome) = (kept l).countP p := by
  unfold kept
  rw [List.countP_filter, List.countP_filter]
  exact List.countP_congr fun e _ => by simp [and_comm]

theorem total_addGot (a : RateAcc K) (e : TryEv L K K) :
    (addGot rateAdd a e.got).total = a.total + if e.got.isSome then 1 else 0 := by
  unfold addGot
  cases e.got <;> rfl

theorem total_try_foldl (evs : List (TryEv L K K)) (a : RateAcc K) :
    (evs.foldl (fun a e => addGot rateAdd a e.got) a).total = a.total + evs.countP fun e => e.got.isSome := by
  induction evs generalizing a with
  | nil => rfl
  | cons e evs ih => rw [List.foldl_cons, ih, total_addGot, List.countP_cons]; omega

theorem total_try_accOf (size : Option Nat) (evs : List (TryEv L K K)) :
    (accOf (fun e : TryEv L K K => rateInit size e.now) (fun a e => addGot rateAdd a e.got) evs).map RateAcc.total =
      if evs = [] then none else some (evs.countP fun e => e.got.isSome) := by
  cases evs with
  | nil => rfl
  | cons e es => simp only [accOf, Option.map_some, total_try_foldl]; simp [rateInit]

/-- C121: the grand total of a RateSink is the number of events whose getter returned. -/
theorem C121_rate_total (lname : L → String) (size : Option Nat) (evs : List (TryEv L K K)) :
    get? (totalCounts lname (evs.foldl (rateTry size) [])) "__all__" = some (.inl (kept evs).length) := by
  refine (agg1_all lname RateAcc.total _).trans ?_
  unfold rateTry
  rw [sum1_run _ _ _ _ _ RateAcc.total (fun e => if e.got.isSome then 1 else 0) (fun _ => rfl) (fun a e => total_addGot a e),
    weight_sum, List.countP_eq_length_filter]
  rfl

/-- C121: for a logger that no other logger shares its name with, the cells and subtotals of a RateSink count exactly the
events with those labels whose getter returned; labels of which the getter always failed have the count 0.  What is missing for
the full claim: loggers that share a name, and labels equal to the special key (as in C57). -/
theorem C121_rate_cells_partial (lname : L → String) (size : Option Nat) (evs : List (TryEv L K K)) (l : L)
    (hl : ∃ e ∈ evs, e.logger = l) (ha : lname l ≠ "__all__") (hu : ∀ e ∈ evs, lname e.logger = lname l → e.logger = l) :
    ∃ d2, get? (totalCounts lname (evs.foldl (rateTry size) [])) (lname l) = some (.inr d2) ∧
      get? d2 "__all__" = some (.inl ((kept evs).countP fun e => decide (e.logger = l))) ∧
      ∀ n, n ≠ "__all__" →
        ((¬ ∃ e ∈ evs, e.logger = l ∧ e.name = n) → get? d2 n = none) ∧
        ((∃ e ∈ evs, e.logger = l ∧ e.name = n) → ∃ d3, get? d2 n = some (.inr d3) ∧
          get? d3 "__all__" = some ((kept evs).countP fun e => decide (e.logger = l ∧ e.name = n)) ∧
          ∀ s, s ≠ "__all__" → get? d3 s =
            if ∃ e ∈ evs, e.logger = l ∧ e.name = n ∧ e.status = s then
              some ((kept evs).countP fun e => decide (e.logger = l ∧ e.name = n ∧ e.status = s)) else none) := by
  have hwf : WF (evs.foldl (rateTry size) []) := wf_run _ _ _ _ _ evs
  have hls := fun l => logger_isSome_run TryEv.logger TryEv.name TryEv.status (fun e : TryEv L K K => rateInit size e.now)
    (fun a e => addGot rateAdd a e.got) evs l
  have hs := (hls l).2 hl
  change (get? (evs.foldl (rateTry size) []) l).isSome at hs
  obtain ⟨d2, hd2⟩ := Option.isSome_iff_exists.1 hs
  refine ⟨agg2 RateAcc.total d2, ?_, ?_, ?_⟩
  · refine agg1_get lname RateAcc.total hwf.k1 hd2 ha ?_
    intro l' hl' e
    rw [← get?_isSome] at hl'
    obtain ⟨ev, h1, rfl⟩ := (hls l').1 hl'
    exact hu ev h1 e
  · refine (agg2_all _ _).trans ?_
    have := sum2_run TryEv.logger TryEv.name TryEv.status (fun e : TryEv L K K => rateInit size e.now)
      (fun a e => addGot rateAdd a e.got)
      RateAcc.total (fun e => if e.got.isSome then 1 else 0) (fun _ => rfl) (fun a e => total_addGot a e) evs l
    change sum2 RateAcc.total ((get? (evs.foldl (rateTry size) []) l).getD []) = _ at this
    rw [hd2, Option.getD_some] at this
    rw [this, weight_sum, count_filter]
  · intro n hn
    have hiff := name_isSome_run TryEv.logger TryEv.name TryEv.status (fun e : TryEv L K K => rateInit size e.now)
      (fun a e => addGot rateAdd a e.got) evs l n
    change ((get? (evs.foldl (rateTry size) []) l).bind fun d2 => get? d2 n).isSome ↔ _ at hiff
    rw [hd2, Option.bind_some] at hiff
    rw [agg2_get _ (hwf.k2 _ _ hd2) hn]
    constructor
    · intro hno
      rw [← hiff] at hno
      cases hg : get? d2 n with
      | none => rfl
      | some d3 => simp [hg] at hno
    · intro hyes
      obtain ⟨d3, hd3⟩ := Option.isSome_iff_exists.1 (hiff.2 hyes)
      refine ⟨agg3 RateAcc.total d3, by rw [hd3]; rfl, ?_, ?_⟩
      · refine (agg3_all _ _).trans ?_
        have := sum3_run TryEv.logger TryEv.name TryEv.status (fun e : TryEv L K K => rateInit size e.now)
          (fun a e => addGot rateAdd a e.got)
          RateAcc.total (fun e => if e.got.isSome then 1 else 0) (fun _ => rfl) (fun a e => total_addGot a e) evs l n
        change sum3 RateAcc.total ((get? ((get? (evs.foldl (rateTry size) []) l).getD []) n).getD []) = _ at this
        rw [hd2, Option.getD_some, hd3, Option.getD_some] at this
        rw [this, weight_sum, count_filter]
      · intro s hs
        rw [agg3_get _ (hwf.k3 _ _ _ _ hd2 hd3) hs]
        have := cell_run TryEv.logger TryEv.name TryEv.status (fun e : TryEv L K K => rateInit size e.now)
          (fun a e => addGot rateAdd a e.got) evs l n s
        change cell (evs.foldl (rateTry size) []) l n s = _ at this
        unfold cell at this
        rw [hd2, Option.bind_some, hd3, Option.bind_some] at this
        rw [this, total_try_accOf, count_filter]
        by_cases hex : ∃ e ∈ evs, e.logger = l ∧ e.name = n ∧ e.status = s
        · rw [if_pos hex, if_neg]
          obtain ⟨e, he, h⟩ := hex
          exact List.ne_nil_of_mem (List.mem_filter.2 ⟨he, by simpa using h⟩)
        · rw [if_neg hex, if_pos]
          rw [List.filter_eq_nil_iff]
          intro e he hc
          exact hex ⟨e, he, by simpa using hc⟩

/-- Two loggers, three events; the getter fails for the first. -/
def sampleTry : List (TryEv Nat ℚ ℚ) :=
  [⟨0, "load", "success", none, 9⟩, ⟨1, "load", "failure", some 11, 11⟩, ⟨0, "load", "success", some 12, 12⟩]

example : ∃ d2, get? (totalCounts (fun n => if n = 0 then "app" else "db") (sampleTry.foldl (rateTry (some 128)) [])) "app"
    = some (.inr d2) ∧ get? d2 "__all__" = some (.inl 1) := by
  obtain ⟨d2, h1, h2, _⟩ := C121_rate_cells_partial (fun n : Nat => if n = 0 then "app" else "db") (some 128) sampleTry 0
    (by simp [sampleTry]) (by simp) (by simp [sampleTry])
  exact ⟨d2, by simpa using h1, by simpa [sampleTry, kept] using h2⟩

end Rates

section Counters

variable {L : Type} [DecidableEq L] (b : Nat)

omit [Field K] [LinearOrder K] [IsStrictOrderedRing K] in
theorem foldl_addGot {A V : Type} (add : A → V → A) (evs : List (TryEv L V K)) (a : A) :
    evs.foldl (fun a e => addGot add a e.got) a = (evs.filterMap (·.got)).foldl add a := by
  induction evs generalizing a with
  | nil => rfl
  | cons e evs ih =>
    rw [List.foldl_cons, ih]
    cases hg : e.got with
    | none => rw [List.filterMap_cons_none hg]; rfl
    | some v => rw [List.filterMap_cons_some hg]; rfl

omit [LinearOrder K] [IsStrictOrderedRing K] [Field K] in
theorem counterTry_run (evs : List (TryEv L String K)) (l : L) :
    get? (evs.foldl (counterTry b) []) l =
      if ∃ e ∈ evs, e.logger = l then
        some (((evs.filter fun e => decide (e.logger = l)).filterMap (·.got)).foldl tcAdd (tcInit b)) else none := by
  rw [show (if ∃ e ∈ evs, e.logger = l then
        some (((evs.filter fun e => decide (e.logger = l)).filterMap (·.got)).foldl tcAdd (tcInit b)) else none) =
      if ∃ e ∈ evs, e.logger = l then
        some ((evs.filter fun e => decide (e.logger = l)).foldl (fun c e => addGot tcAdd c e.got) (tcInit b)) else none by
    rw [foldl_addGot]]
  induction evs using List.reverseRecOn with
  | nil => simp [get?]
  | append_singleton evs e ih =>
    rw [List.foldl_append, List.foldl_cons, List.foldl_nil, List.filter_append]
    unfold counterTry
    rw [get?_upd]
    by_cases h : e.logger = l
    · subst h
      rw [if_pos rfl, if_pos ⟨e, by simp, rfl⟩, List.filter_cons_of_pos (by simp), List.filter_nil, List.foldl_append]
      congr 1
      rw [List.foldl_cons, List.foldl_nil]
      change addGot tcAdd ((get? (evs.foldl (counterTry b) []) e.logger).getD (tcInit b)) e.got = _
      rw [ih]
      by_cases hx : ∃ x ∈ evs, x.logger = e.logger
      · rw [if_pos hx, Option.getD_some]
      · rw [if_neg hx, List.filter_eq_nil_iff.2]; · rfl
        intro x hm hc; exact hx ⟨x, hm, by simpa using hc⟩
    · rw [if_neg h, List.filter_cons_of_neg (by simpa using h), List.filter_nil, List.append_nil]
      refine ih.trans ?_
      congr 1
      simp only [List.mem_append, List.mem_singleton, or_and_right, exists_or, exists_eq_left, h, or_false]

/-- C121: a CounterSink has for a logger exactly what it would have had for the events whose getter returned, and a logger whose
getters all failed has a total of 0. -/
theorem C121_counter (evs : List (TryEv L String K)) (l : L) :
    ((∃ e ∈ evs, e.logger = l ∧ e.got.isSome) →
      get? (evs.foldl (counterTry b) []) l =
        get? ((kept evs).foldl (counterOnEnd b TryEv.logger fun e => e.got.getD "") []) l) ∧
    ((∃ e ∈ evs, e.logger = l) → (∀ e ∈ evs, e.logger = l → e.got = none) →
      ∃ c, get? (evs.foldl (counterTry b) []) l = some c ∧ counterDict c = [("__all__", 0)]) := by
  have hkey : ((kept evs).filter fun e => decide (e.logger = l)).foldl (fun c e => tcAdd c (e.got.getD "")) (tcInit b) =
      ((evs.filter fun e => decide (e.logger = l)).filterMap (·.got)).foldl tcAdd (tcInit b) := by
    rw [← foldl_addGot]
    generalize tcInit b = c
    unfold kept
    induction evs generalizing c with
    | nil => rfl
    | cons e evs ih =>
      cases hg : e.got with
      | none =>
        rw [List.filter_cons_of_neg (by simp [hg]), ih]
        by_cases h : e.logger = l
        · rw [List.filter_cons_of_pos (by simpa using h), List.foldl_cons, hg]; rfl
        · rw [List.filter_cons_of_neg (by simpa using h)]
      | some k =>
        rw [List.filter_cons_of_pos (by simp [hg])]
        by_cases h : e.logger = l
        · rw [List.filter_cons_of_pos (by simpa using h), List.filter_cons_of_pos (by simpa using h), List.foldl_cons,
            List.foldl_cons, ih, hg]; rfl
        · rw [List.filter_cons_of_neg (by simpa using h), List.filter_cons_of_neg (by simpa using h), ih]
  constructor
  · rintro ⟨e, he, h1, h2⟩
    rw [counterTry_run, counter_run, if_pos ⟨e, he, h1⟩, if_pos ⟨e, List.mem_filter.2 ⟨he, h2⟩, h1⟩, hkey]
  · rintro ⟨e, he, h1⟩ hn
    rw [counterTry_run, if_pos ⟨e, he, h1⟩]
    refine ⟨_, rfl, ?_⟩
    rw [show (evs.filter fun e => decide (e.logger = l)).filterMap (·.got) = [] by
      rw [List.filterMap_eq_nil_iff]
      intro x hx
      obtain ⟨hx1, hx2⟩ := List.mem_filter.1 hx
      exact hn x hx1 (by simpa using hx2)]
    simp [counterDict, tcInit, uncommon, common, values, ALL, Dct.set]

example : get? (([⟨0, "load", "success", some "a", 0⟩, ⟨0, "load", "success", none, 0⟩, ⟨1, "save", "failure", none, 0⟩] :
      List (TryEv Nat String ℚ)).foldl (counterTry 1000) []) 0 =
    get? (([⟨0, "load", "success", some "a", 0⟩] : List (TryEv Nat String ℚ)).foldl
      (counterOnEnd 1000 TryEv.logger fun e => e.got.getD "") []) 0 :=
  (C121_counter 1000 _ 0).1 ⟨⟨0, "load", "success", some "a", 0⟩, by simp, rfl, rfl⟩

end Counters

section Quantiles

variable [FloorRing K]

theorem run_of_vals (store : K → K) (vs : List K) :
    vs.foldl (fun r v => Quant.step store r (.add v 0)) (Quant.resInit none) =
      Quant.run store none (vs.map fun v => .add v 0) ∧ Quant.added (vs.map fun v => Quant.Op.add v 0) = vs := by
  constructor
  · unfold Quant.run; rw [List.foldl_map]
  · induction vs with
    | nil => rfl
    | cons e es ih => simp [Quant.added, ih]

/-- What a table says of an action of a logger. -/
def row {R : Type} (t : Dict String (Dict String R)) (l n : String) : Option R := (get? t l).bind fun d => get? d n

theorem mapDict_some {α β : Type} (f : α → Option β) (d : Dict String α) (r : Dict String β) (h : mapDict f d = some r) :
    ∀ p ∈ d, (f p.2).isSome := by
  induction d generalizing r with
  | nil => simp
  | cons p d ih =>
    rw [mapDict_cons] at h
    cases hp : f p.2 with
    | none => simp [hp] at h
    | some b =>
      cases hd : mapDict f d with
      | none => simp [hp, hd] at h
      | some r' =>
        intro q hq
        rcases List.mem_cons.1 hq with rfl | hq
        · rw [hp]; rfl
        · exact ih _ hd q hq

theorem keys2_run {E A : Type} (lg nm : E → String) (mk : A) (ad : A → E → A) (evs : List E) :
    (keys (evs.foldl (onEnd2 lg nm mk ad) [])).Nodup ∧
      ∀ l d, get? (evs.foldl (onEnd2 lg nm mk ad) []) l = some d → (keys d).Nodup := by
  induction evs using List.reverseRecOn with
  | nil => exact ⟨by simp [keys], by simp [get?]⟩
  | append_singleton evs e ih =>
    rw [List.foldl_append, List.foldl_cons, List.foldl_nil]
    generalize evs.foldl (onEnd2 lg nm mk ad) [] = m at ih
    refine ⟨nodup_set ih.1 _ _, fun l d hd => ?_⟩
    unfold onEnd2 at hd
    rw [get?_upd] at hd
    split at hd
    · cases hd
      refine nodup_set ?_ _ _
      cases hg : get? m (lg e) with
      | none => simp [keys]
      | some d' => exact ih.2 _ _ hg
    · exact ih.2 _ _ hd

/-- Reading a table of accumulators, each of which raises exactly if it was given no value. -/
theorem quant_reads (store : K → K) {R : Type} (out : Quant.Res K → Option R)
    (hout : ∀ vs : List K, (out (Quant.run store none (vs.map fun v => .add v 0))).isSome ↔ vs ≠ [])
    (evs : List (TryEv String K K)) :
    ((∃ t, toDict2 out (evs.foldl (quantTry store) []) = some t) ↔
      ∀ e ∈ evs, ∃ e' ∈ evs, e'.logger = e.logger ∧ e'.name = e.name ∧ e'.got.isSome) ∧
    ∀ t, toDict2 out (evs.foldl (quantTry store) []) = some t →
      ∃ t', toDict2 out ((kept evs).foldl (quantTry store) []) = some t' ∧ ∀ l n, row t l n = row t' l n := by
  have hcell : ∀ (evs : List (TryEv String K K)) l n,
      row (evs.foldl (quantTry store) []) l n =
        if ∃ e ∈ evs, e.logger = l ∧ e.name = n then
          some (Quant.run store none (((evs.filter fun e => decide (e.logger = l ∧ e.name = n)).filterMap (·.got)).map
            fun v => .add v 0)) else none := by
    intro evs l n
    have := cell2_run TryEv.logger TryEv.name (Quant.resInit none)
      (fun r (e : TryEv String K K) => addGot (fun r v => Quant.step store r (.add v 0)) r e.got) evs l n
    rw [foldl_addGot, (run_of_vals store _).1] at this
    exact this
  have hne : ∀ (evs : List (TryEv String K K)) l n,
      ((evs.filter fun e => decide (e.logger = l ∧ e.name = n)).filterMap (·.got)) ≠ [] ↔
        ∃ e' ∈ evs, e'.logger = l ∧ e'.name = n ∧ e'.got.isSome := by
    intro evs l n
    rw [Ne, List.filterMap_eq_nil_iff]
    constructor
    · intro h
      by_contra hc
      refine h fun e he => ?_
      obtain ⟨h1, h2⟩ := List.mem_filter.1 he
      have h2 := of_decide_eq_true h2
      by_contra hg
      exact hc ⟨e, h1, h2.1, h2.2, Option.isSome_iff_ne_none.2 hg⟩
    · rintro ⟨e, he, h1, h2, h3⟩ h
      have := h e (List.mem_filter.2 ⟨he, by simp [h1, h2]⟩)
      rw [this] at h3; cases h3
  have hrow : ∀ (evs : List (TryEv String K K)) t, toDict2 out (evs.foldl (quantTry store) []) = some t → ∀ l n,
      row t l n = (row (evs.foldl (quantTry store) []) l n).bind out := by
    intro evs t ht l n
    have h := (C59_routing TryEv.logger TryEv.name (Quant.resInit none)
      (fun r (e : TryEv String K K) => addGot (fun r v => Quant.step store r (.add v 0)) r e.got) evs out t ht l n).2
    rw [foldl_addGot, (run_of_vals store _).1] at h
    rw [hcell]
    refine h.trans ?_
    split <;> rfl
  have hret : ∀ evs : List (TryEv String K K), (∃ t, toDict2 out (evs.foldl (quantTry store) []) = some t) ↔
      ∀ e ∈ evs, ∃ e' ∈ evs, e'.logger = e.logger ∧ e'.name = e.name ∧ e'.got.isSome := by
    intro evs
    have hk := keys2_run TryEv.logger TryEv.name (Quant.resInit none)
      (fun r (e : TryEv String K K) => addGot (fun r v => Quant.step store r (.add v 0)) r e.got) evs
    change (keys (evs.foldl (quantTry store) [])).Nodup ∧
      ∀ l d, get? (evs.foldl (quantTry store) []) l = some d → (keys d).Nodup at hk
    constructor
    · rintro ⟨t, ht⟩ e he
      rw [← hne, ← hout]
      have h := hcell evs e.logger e.name
      rw [if_pos ⟨e, he, rfl, rfl⟩] at h
      unfold row at h
      obtain ⟨d, hd, hd'⟩ := Option.bind_eq_some_iff.1 h
      have h1 := mapDict_some _ _ _ ht _ (mem_of_get? hd)
      obtain ⟨r, hr⟩ := Option.isSome_iff_exists.1 h1
      exact mapDict_some _ _ _ hr _ (mem_of_get? hd')
    · intro h
      refine mapM_ok (mapDict out) _ fun p hp => ?_
      obtain ⟨r, hr⟩ := mapM_ok out p.2 fun q hq => by
        have h1 := get?_of_mem hk.1 (k := p.1) (v := p.2) hp
        have h2 := get?_of_mem (hk.2 _ _ h1) (k := q.1) (v := q.2) hq
        have h3 := hcell evs p.1 q.1
        unfold row at h3
        rw [h1, Option.bind_some, h2] at h3
        split at h3
        · rename_i hex
          obtain ⟨e, he, hl, hn⟩ := hex
          rw [Option.some.inj h3, hout, hne, ← hl, ← hn]
          exact h e he
        · cases h3
      rw [hr]; rfl
  refine ⟨hret evs, fun t ht => ?_⟩
  have hall := (hret evs).1 ⟨t, ht⟩
  obtain ⟨t', ht'⟩ := (hret (kept evs)).2 (by
    intro e he
    obtain ⟨h1, h2⟩ := List.mem_filter.1 he
    exact ⟨e, he, rfl, rfl, h2⟩)
  refine ⟨t', ht', fun l n => ?_⟩
  rw [hrow evs t ht, hrow (kept evs) t' ht', hcell, hcell]
  have hv : ((kept evs).filter fun e => decide (e.logger = l ∧ e.name = n)).filterMap (·.got) =
      (evs.filter fun e => decide (e.logger = l ∧ e.name = n)).filterMap (·.got) := by
    unfold kept
    rw [List.filter_filter, List.filterMap_filter, List.filterMap_filter]
    refine List.filterMap_congr fun e _ => ?_
    cases hg : e.got <;> simp
  rw [hv]
  congr 1
  refine if_congr ⟨?_, ?_⟩ rfl rfl
  · rintro ⟨e, he, rfl, rfl⟩
    obtain ⟨e', he', h1, h2, h3⟩ := hall e he
    exact ⟨e', List.mem_filter.2 ⟨he', h3⟩, h1, h2⟩
  · rintro ⟨e, he, h⟩
    exact ⟨e, (List.mem_filter.1 he).1, h⟩

/-- C121: `QuantileSink.to_dict` returns exactly if, for every action name of a logger seen, the getter returned at least once;
its rows then are those of the events whose getter returned.  What is missing for the full claim: it should return whatever the
getters did (see `C121_violated`). -/
theorem C121_to_dict_partial (store : K → K) (qs : List K) (hq : ∀ q ∈ qs, 0 < q ∧ q < 1) (evs : List (TryEv String K K)) :
    ((∃ t, quantDict qs (evs.foldl (quantTry store) []) = some t) ↔
      ∀ e ∈ evs, ∃ e' ∈ evs, e'.logger = e.logger ∧ e'.name = e.name ∧ e'.got.isSome) ∧
    ∀ t, quantDict qs (evs.foldl (quantTry store) []) = some t →
      ∃ t', quantDict qs ((kept evs).foldl (quantTry store) []) = some t' ∧ ∀ l n, row t l n = row t' l n := by
  refine quant_reads store (quantEntry qs) (fun vs => ?_) evs
  have hadd := (run_of_vals store vs).2
  constructor
  · rintro h rfl
    have h1 := (Quant.C50_raises store (([] : List K).map fun v => .add v 0) (1 / 4)).2 ⟨by norm_num, by norm_num⟩ rfl
    have h2 : Quant.trimean (Quant.run store none (([] : List K).map fun v => .add v 0)) = .error .index := by
      unfold Quant.trimean Quant.quartiles Quant.readAll
      simp only [h1]
    unfold quantEntry at h
    rw [h2] at h
    cases h
  · intro hne
    have hne' : Quant.added (vs.map fun v => Quant.Op.add v 0) ≠ [] := by rw [hadd]; exact hne
    obtain ⟨ws, _, h3⟩ := Quant.C50_get_quantiles store _ hne' qs hq
    obtain ⟨a, b, c, _, _, _, _, _, _, _, _, h4, _⟩ := Quant.C50_iqr_trimean store _ hne'
    unfold quantEntry
    rw [h4, h3]; rfl

/-- C121: the same for the `repr` of a QuantileSink. -/
theorem C121_repr_partial (store rnd : K → K) (evs : List (TryEv String K K)) :
    ((∃ t, quantRepr rnd (evs.foldl (quantTry store) []) = some t) ↔
      ∀ e ∈ evs, ∃ e' ∈ evs, e'.logger = e.logger ∧ e'.name = e.name ∧ e'.got.isSome) ∧
    ∀ t, quantRepr rnd (evs.foldl (quantTry store) []) = some t →
      ∃ t', quantRepr rnd ((kept evs).foldl (quantTry store) []) = some t' ∧ ∀ l n, row t l n = row t' l n := by
  refine quant_reads store (quantShow rnd) (fun vs => ?_) evs
  have hadd := (run_of_vals store vs).2
  constructor
  · rintro h rfl
    have h1 := (Quant.C50_raises store (([] : List K).map fun v => .add v 0) (1 / 2)).2 ⟨by norm_num, by norm_num⟩ rfl
    unfold quantShow Quant.median at h
    rw [h1] at h
    cases h
  · intro hne
    have hne' : Quant.added (vs.map fun v => Quant.Op.add v 0) ≠ [] := by rw [hadd]; exact hne
    obtain ⟨v, hv, _⟩ := Quant.C50_quantile store _ hne' (1 / 2) (by norm_num) (by norm_num)
    unfold quantShow Quant.median
    rw [hv]; rfl

/-- What `repr` shows for an action: the number of events whose getter returned, and the median of what it returned. -/
theorem C121_repr_shows (store rnd : K → K) (evs : List (TryEv String K K)) (t : Dict String (Dict String (Nat × K)))
    (ht : quantRepr rnd (evs.foldl (quantTry store) []) = some t) (e : TryEv String K K) (he : e ∈ evs) :
    ∃ m, row t e.logger e.name = some ((kept evs).countP fun x => decide (x.logger = e.logger ∧ x.name = e.name), rnd m) ∧
      Quant.Interp (Quant.sorted (((evs.filter fun x => decide (x.logger = e.logger ∧ x.name = e.name)).filterMap
          (·.got)).map store))
        (1 / 2 * ((((evs.filter fun x => decide (x.logger = e.logger ∧ x.name = e.name)).filterMap (·.got)).length : K) - 1))
        m := by
  have hcl := (C59_routing TryEv.logger TryEv.name (Quant.resInit none)
      (fun r (e : TryEv String K K) => addGot (fun r v => Quant.step store r (.add v 0)) r e.got) evs (quantShow rnd) t ht
      e.logger e.name).2
  rw [foldl_addGot, (run_of_vals store _).1, if_pos ⟨e, he, rfl, rfl⟩] at hcl
  obtain ⟨e', he', h1, h2, h3⟩ := (C121_repr_partial store rnd evs).1.1 ⟨t, ht⟩ e he
  generalize hvs : (evs.filter fun x => decide (x.logger = e.logger ∧ x.name = e.name)).filterMap (·.got) = vs at hcl ⊢
  have hne : vs ≠ [] := by
    rw [← hvs]
    obtain ⟨v, hv⟩ := Option.isSome_iff_exists.1 h3
    exact List.ne_nil_of_mem (List.mem_filterMap.2 ⟨e', List.mem_filter.2 ⟨he', by simp [h1, h2]⟩, hv⟩)
  have hadd := (run_of_vals store vs).2
  have hne' : Quant.added (vs.map fun v => Quant.Op.add v 0) ≠ [] := by rw [hadd]; exact hne
  obtain ⟨v, hv, hi⟩ := Quant.C50_quantile store _ hne' (1 / 2) (by norm_num) (by norm_num)
  rw [hadd] at hi
  refine ⟨v, ?_, hi⟩
  refine hcl.trans ?_
  unfold quantShow Quant.median
  rw [hv, (Quant.C50_count_min_max store _).1, hadd]
  dsimp only
  rw [← count_filter, List.countP_eq_length_filter, ← hvs, List.length_filterMap_eq_countP, List.countP_eq_length_filter]

/-- C121 fails: a getter that fails for the only event of an action keeps the statistics of all others from being read. -/
theorem C121_violated : ∃ evs : List (TryEv String ℚ ℚ),
    (kept evs).length = 2 ∧ quantDict [1 / 2] (evs.foldl (quantTry id) []) = none ∧
      quantRepr id (evs.foldl (quantTry id) []) = none := by
  let evs : List (TryEv String ℚ ℚ) :=
    [⟨"app", "load", "success", some 3, 0⟩, ⟨"app", "load", "success", some 5, 0⟩, ⟨"app", "save", "failure", none, 0⟩]
  have hno : ¬ ∀ e ∈ evs, ∃ e' ∈ evs, e'.logger = e.logger ∧ e'.name = e.name ∧ e'.got.isSome := by
    intro h
    obtain ⟨e', he', _, h2, h3⟩ := h ⟨"app", "save", "failure", none, 0⟩ (by simp [evs])
    simp only [evs, List.mem_cons, List.not_mem_nil, or_false] at he'
    rcases he' with rfl | rfl | rfl
    · simp at h2
    · simp at h2
    · simp at h3
  refine ⟨evs, rfl, ?_, ?_⟩
  · by_contra hc
    exact hno ((C121_to_dict_partial id [1 / 2] (by intro q hq; simp at hq; subst hq; norm_num) evs).1.1
      (Option.ne_none_iff_exists'.1 hc))
  · by_contra hc
    exact hno ((C121_repr_partial id id evs).1.1 (Option.ne_none_iff_exists'.1 hc))

example : ∃ t, quantDict [1 / 2] (([⟨"app", "load", "success", some 3, 0⟩, ⟨"app", "load", "success", none, 0⟩] :
    List (TryEv String ℚ ℚ)).foldl (quantTry id) []) = some t := by
  refine (C121_to_dict_partial id [1 / 2] (by intro q hq; simp at hq; subst hq; norm_num) _).1.2 ?_
  intro e he
  refine ⟨⟨"app", "load", "success", some 3, 0⟩, by simp, ?_⟩
  simp only [List.mem_cons, List.not_mem_nil, or_false] at he
  rcases he with rfl | rfl <;> simp

end Quantiles

end Verif.Sinks
