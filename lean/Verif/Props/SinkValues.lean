import Verif.Props.Rates
import Verif.Lemmas.SinkParts
/-!
# C60, C71: moving averages and rates by label
-/
namespace Verif.Sinks

open Verif.Dct
open scoped List

/-! ## C60: EWMASink -/

section Values

variable {P V : Type} [DecidableEq P] [AddCommMonoid V]

/-- Specification: the sum of the rates, for one period, of those accumulators that have one; nothing if none has. -/
def total {A : Type} (rates : A → Dict P (Option V)) (as : List A) (p : P) : Option V :=
  let vs := as.filterMap fun a => (get? (rates a) p).join
  if vs = [] then none else some vs.sum

theorem get?_updateAdd (o : Dict P (Option V)) (hn : (keys o).Nodup) (t : Dict P V) (p : P) :
    get? (updateAdd t o) p =
      match (get? o p).join with
      | none => get? t p
      | some v => some (match get? t p with | some x => x + v | none => v) := by
  induction o generalizing t with
  | nil => rfl
  | cons q o ih =>
    obtain ⟨a, x⟩ := q
    have hn' : (keys o).Nodup := (List.nodup_cons.1 hn).2
    have ha : a ∉ keys o := (List.nodup_cons.1 hn).1
    have hs : updateAdd t ((a, x) :: o) = updateAdd (match x with
        | none => t | some v => set t a (match get? t a with | some y => y + v | none => v)) o := by
      unfold updateAdd; rw [List.foldl_cons]; cases x <;> rfl
    rw [hs, ih hn']
    simp only [get?]
    by_cases hap : a = p
    · subst hap
      have h1 : get? o a = none := get?_none.2 ha
      rw [h1, if_pos rfl]
      cases x with
      | none => rfl
      | some v => simp [get?_set]
    · rw [if_neg hap]
      cases x with
      | none => rfl
      | some v => simp [get?_set, hap]

theorem get?_foldl_updateAdd (os : List (Dict P (Option V))) (hn : ∀ o ∈ os, (keys o).Nodup) (p : P) :
    get? (os.foldl updateAdd []) p =
      if (os.filterMap fun o => (get? o p).join) = [] then none else some (os.filterMap fun o => (get? o p).join).sum := by
  induction os using List.reverseRecOn with
  | nil => rfl
  | append_singleton os o ih =>
    have ih := ih fun o ho => hn o (List.mem_append_left _ ho)
    rw [List.foldl_append, List.foldl_cons, List.foldl_nil, get?_updateAdd _ (hn o (by simp)), ih, List.filterMap_append]
    cases ho : (get? o p).join with
    | none => rw [List.filterMap_cons_none (f := fun o => (get? o p).join) ho]; simp
    | some v =>
      rw [List.filterMap_cons_some (f := fun o => (get? o p).join) ho]
      by_cases he : (os.filterMap fun o => (get? o p).join) = []
      · simp [he]
      · rw [if_neg he]; simp

variable {E A : Type}

theorem foldl_total (rates : A → Dict P (Option V)) (hr : ∀ a, (keys (rates a)).Nodup) {as bs : List A} (h : as ~ bs) (p : P) :
    get? ((as.map rates).foldl updateAdd []) p = total rates bs p := by
  rw [get?_foldl_updateAdd _ (by simp only [List.mem_map]; rintro o ⟨a, _, rfl⟩; exact hr a)]
  unfold total
  have h1 : (as.map rates).filterMap (fun o => (get? o p).join) = as.filterMap fun a => (get? (rates a) p).join := by
    rw [List.filterMap_map]; rfl
  have h2 := h.filterMap fun a => (get? (rates a) p).join
  rw [h1]
  by_cases he : (as.filterMap fun a => (get? (rates a) p).join) = []
  · rw [if_pos he, if_pos]
    rw [he] at h2; exact h2.symm.eq_nil
  · rw [if_neg he, if_neg, h2.sum_eq]
    intro hx; rw [hx] at h2; exact he h2.eq_nil

theorem cells2_eq (rates : A → Dict P (Option V)) (d2 : Dict String (Dict String A)) :
    cells2 rates d2 = ((values d2).flatMap values).map rates := by
  unfold cells2
  rw [List.map_flatMap]; rfl

theorem cells1_eq {L : Type} (rates : A → Dict P (Option V)) (m : Map3 L A) : cells1 rates m = (accs m).map rates := by
  unfold cells1 accs
  rw [List.map_flatMap]
  congr 1
  funext d2; exact cells2_eq rates d2

/-- C60: for every period, the aggregate of everything, of a logger and of a logger's action name is the sum of the rates of the
accumulators below it (those that have a rate), and each of those accumulators was given exactly the events of its labels.
What is missing for the full claim: labels equal to the special key.  (`rates` is what `get_rates` returns for each accumulator at
the time of the call, each period once; that may raise, see C55.) -/
theorem C60_aggregates_partial (lg nm st : E → String) (mk : E → A) (ad : A → E → A) (rates : A → Dict P (Option V))
    (hr : ∀ a, (keys (rates a)).Nodup) (evs : List E)
    (hl : ∀ e ∈ evs, lg e ≠ "__all__") (hnm : ∀ e ∈ evs, nm e ≠ "__all__") (hst : ∀ e ∈ evs, st e ≠ "__all__") :
    (∃ d, get? (vals1 rates (evs.foldl (onEnd lg nm st mk ad) [])) "__all__" = some (.inl d) ∧
      ∀ p, get? d p = total rates (below1 lg nm st mk ad evs) p) ∧
    ∀ l, (∃ e ∈ evs, lg e = l) →
      ∃ d2, get? (vals1 rates (evs.foldl (onEnd lg nm st mk ad) [])) l = some (.inr d2) ∧
        (∃ d, get? d2 "__all__" = some (.inl d) ∧ ∀ p, get? d p = total rates (below2 lg nm st mk ad evs l) p) ∧
        ∀ n, (∃ e ∈ evs, lg e = l ∧ nm e = n) →
          ∃ d3, get? d2 n = some (.inr d3) ∧
            (∃ d, get? d3 "__all__" = some (.inl d) ∧ ∀ p, get? d p = total rates (below3 lg nm st mk ad evs l n) p) ∧
            ∀ s, (∃ e ∈ evs, lg e = l ∧ nm e = n ∧ st e = s) →
              get? d3 s = (part lg nm st mk ad evs l n s).map fun a => .inr (rates a) := by
  have hwf := wf_run lg nm st mk ad evs
  have hi1 := logger_isSome_run lg nm st mk ad evs
  have hi2 := name_isSome_run lg nm st mk ad evs
  have hc := cell_run lg nm st mk ad evs
  have hv1 := values1 (lg := lg) (nm := nm) (st := st) (mk := mk) (ad := ad) evs
  have hv2 := fun l d2 => values2 (lg := lg) (nm := nm) (st := st) (mk := mk) (ad := ad) (evs := evs) (l := l) (d2 := d2)
  have hv3 := fun l n d2 d3 => values3 (lg := lg) (nm := nm) (st := st) (mk := mk) (ad := ad) (evs := evs) (l := l) (n := n)
    (d2 := d2) (d3 := d3)
  unfold part
  obtain ⟨m, hm⟩ : ∃ m, m = evs.foldl (onEnd lg nm st mk ad) [] := ⟨_, rfl⟩
  rw [← hm] at hwf hi1 hi2 hc hv1 hv2 hv3 ⊢
  have hg1 := get?_foldl_nodup_from hwf.k1 (fun d2 => Sum.inr (vals2 rates d2))
    [(ALL, Sum.inl ((cells1 rates m).foldl updateAdd []))]
  have hnone : get? m ALL = none := by
    rw [← Option.not_isSome_iff_eq_none, hi1]
    rintro ⟨e, he, h⟩; exact hl e he h
  refine ⟨⟨(cells1 rates m).foldl updateAdd [], ?_, ?_⟩, ?_⟩
  · refine (hg1 "__all__").trans ?_
    rw [show ("__all__" : String) = ALL from rfl, hnone]
    simp [get?]
  · intro p
    rw [cells1_eq]
    exact foldl_total rates hr hv1 p
  · intro l hex
    obtain ⟨d2, h2⟩ := Option.isSome_iff_exists.1 ((hi1 l).2 hex)
    have hg2 := get?_foldl_nodup_from (hwf.k2 _ _ h2) (fun d3 => Sum.inr (vals3 rates d3))
      [(ALL, Sum.inl ((cells2 rates d2).foldl updateAdd []))]
    have hin : ∀ n, (get? d2 n).isSome ↔ ∃ e ∈ evs, lg e = l ∧ nm e = n := by
      intro n; have := hi2 l n; rw [h2] at this; exact this
    have hnone2 : get? d2 ALL = none := by
      rw [← Option.not_isSome_iff_eq_none, hin]
      rintro ⟨e, he, _, h⟩; exact hnm e he h
    refine ⟨vals2 rates d2, ?_, ⟨(cells2 rates d2).foldl updateAdd [], ?_, ?_⟩, ?_⟩
    · refine (hg1 l).trans ?_
      rw [h2]; rfl
    · refine (hg2 "__all__").trans ?_
      rw [show ("__all__" : String) = ALL from rfl, hnone2]
      simp [get?]
    · intro p
      rw [cells2_eq]
      exact foldl_total rates hr (hv2 l d2 h2) p
    · intro n hexn
      obtain ⟨d3, h3⟩ := Option.isSome_iff_exists.1 ((hin n).2 hexn)
      have hg3 := get?_foldl_nodup_from (hwf.k3 _ _ _ _ h2 h3) (fun a => (Sum.inr (rates a) : Entry P V))
        [(ALL, Sum.inl ((cells3 rates d3).foldl updateAdd []))]
      have hcs : ∀ s, get? d3 s = accOf mk ad (evs.filter fun e => decide (lg e = l ∧ nm e = n ∧ st e = s)) := by
        intro s; have := hc l n s; unfold cell at this; rw [h2, Option.bind_some, h3] at this; exact this
      have hnone3 : get? d3 ALL = none := by
        rw [hcs, List.filter_eq_nil_iff.2]; · rfl
        intro e he h
        simp only [decide_eq_true_eq] at h
        exact hst e he h.2.2
      refine ⟨vals3 rates d3, ?_, ⟨(cells3 rates d3).foldl updateAdd [], ?_, ?_⟩, ?_⟩
      · refine (hg2 n).trans ?_
        rw [h3]; rfl
      · refine (hg3 "__all__").trans ?_
        rw [show ("__all__" : String) = ALL from rfl, hnone3]
        simp [get?]
      · intro p
        exact foldl_total rates hr (hv3 l n d2 d3 h2 h3) p
      · intro s ⟨e, he, hes⟩
        refine (hg3 s).trans ?_
        have hsome : (get? d3 s).isSome := by
          rw [hcs, accOf_isSome]
          exact List.ne_nil_of_mem (List.mem_filter.2 ⟨he, by simpa using hes⟩)
        obtain ⟨a, ha⟩ := Option.isSome_iff_exists.1 hsome
        rw [← hcs, ha]; rfl

/-- C60, exactly, whatever the labels: each aggregate is there, as the sum of the rates below it, if and only if no label of its level
is the special key; the tables and the cells are always there. -/
theorem C60_aggregates_exact (lg nm st : E → String) (mk : E → A) (ad : A → E → A) (rates : A → Dict P (Option V))
    (hr : ∀ a, (keys (rates a)).Nodup) (evs : List E) :
    ((∃ d, get? (vals1 rates (evs.foldl (onEnd lg nm st mk ad) [])) "__all__" = some (.inl d) ∧
      ∀ p, get? d p = total rates (below1 lg nm st mk ad evs) p) ↔ ∀ e ∈ evs, lg e ≠ "__all__") ∧
    ∀ l, (∃ e ∈ evs, lg e = l) →
      ∃ d2, get? (vals1 rates (evs.foldl (onEnd lg nm st mk ad) [])) l = some (.inr d2) ∧
        ((∃ d, get? d2 "__all__" = some (.inl d) ∧ ∀ p, get? d p = total rates (below2 lg nm st mk ad evs l) p) ↔
          ∀ e ∈ evs, lg e = l → nm e ≠ "__all__") ∧
        ∀ n, (∃ e ∈ evs, lg e = l ∧ nm e = n) →
          ∃ d3, get? d2 n = some (.inr d3) ∧
            ((∃ d, get? d3 "__all__" = some (.inl d) ∧ ∀ p, get? d p = total rates (below3 lg nm st mk ad evs l n) p) ↔
              ∀ e ∈ evs, lg e = l → nm e = n → st e ≠ "__all__") ∧
            ∀ s, (∃ e ∈ evs, lg e = l ∧ nm e = n ∧ st e = s) →
              get? d3 s = (part lg nm st mk ad evs l n s).map fun a => .inr (rates a) := by
  have hwf := wf_run lg nm st mk ad evs
  have hi1 := logger_isSome_run lg nm st mk ad evs
  have hi2 := name_isSome_run lg nm st mk ad evs
  have hc := cell_run lg nm st mk ad evs
  have hv1 := values1 (lg := lg) (nm := nm) (st := st) (mk := mk) (ad := ad) evs
  have hv2 := fun l d2 => values2 (lg := lg) (nm := nm) (st := st) (mk := mk) (ad := ad) (evs := evs) (l := l) (d2 := d2)
  have hv3 := fun l n d2 d3 => values3 (lg := lg) (nm := nm) (st := st) (mk := mk) (ad := ad) (evs := evs) (l := l) (n := n)
    (d2 := d2) (d3 := d3)
  unfold part
  obtain ⟨m, hm⟩ : ∃ m, m = evs.foldl (onEnd lg nm st mk ad) [] := ⟨_, rfl⟩
  rw [← hm] at hwf hi1 hi2 hc hv1 hv2 hv3 ⊢
  have hg1 := get?_foldl_nodup_from hwf.k1 (fun d2 => Sum.inr (vals2 rates d2))
    [(ALL, Sum.inl ((cells1 rates m).foldl updateAdd []))]
  refine ⟨⟨?_, fun hl => ⟨(cells1 rates m).foldl updateAdd [], ?_, ?_⟩⟩, ?_⟩
  · rintro ⟨d, hd, -⟩ e he h
    have hd := (hg1 "__all__").symm.trans hd
    obtain ⟨d2, h2⟩ := Option.isSome_iff_exists.1 ((hi1 "__all__").2 ⟨e, he, h⟩)
    rw [h2] at hd; cases hd
  · have hnone : get? m ALL = none := by
      rw [← Option.not_isSome_iff_eq_none, hi1]
      rintro ⟨e, he, h⟩; exact hl e he h
    refine (hg1 "__all__").trans ?_
    rw [show ("__all__" : String) = ALL from rfl, hnone]
    simp [get?]
  · intro p
    rw [cells1_eq]
    exact foldl_total rates hr hv1 p
  · intro l hex
    obtain ⟨d2, h2⟩ := Option.isSome_iff_exists.1 ((hi1 l).2 hex)
    have hg2 := get?_foldl_nodup_from (hwf.k2 _ _ h2) (fun d3 => Sum.inr (vals3 rates d3))
      [(ALL, Sum.inl ((cells2 rates d2).foldl updateAdd []))]
    have hin : ∀ n, (get? d2 n).isSome ↔ ∃ e ∈ evs, lg e = l ∧ nm e = n := by
      intro n; have := hi2 l n; rw [h2] at this; exact this
    refine ⟨vals2 rates d2, ?_, ⟨?_, fun hnm => ⟨(cells2 rates d2).foldl updateAdd [], ?_, ?_⟩⟩, ?_⟩
    · refine (hg1 l).trans ?_
      rw [h2]; rfl
    · rintro ⟨d, hd, -⟩ e he hel h
      have hd := (hg2 "__all__").symm.trans hd
      obtain ⟨d3, h3⟩ := Option.isSome_iff_exists.1 ((hin "__all__").2 ⟨e, he, hel, h⟩)
      rw [h3] at hd; cases hd
    · have hnone2 : get? d2 ALL = none := by
        rw [← Option.not_isSome_iff_eq_none, hin]
        rintro ⟨e, he, h', h⟩; exact hnm e he h' h
      refine (hg2 "__all__").trans ?_
      rw [show ("__all__" : String) = ALL from rfl, hnone2]
      simp [get?]
    · intro p
      rw [cells2_eq]
      exact foldl_total rates hr (hv2 l d2 h2) p
    · intro n hexn
      obtain ⟨d3, h3⟩ := Option.isSome_iff_exists.1 ((hin n).2 hexn)
      have hg3 := get?_foldl_nodup_from (hwf.k3 _ _ _ _ h2 h3) (fun a => (Sum.inr (rates a) : Entry P V))
        [(ALL, Sum.inl ((cells3 rates d3).foldl updateAdd []))]
      have hcs : ∀ s, get? d3 s = accOf mk ad (evs.filter fun e => decide (lg e = l ∧ nm e = n ∧ st e = s)) := by
        intro s; have := hc l n s; unfold cell at this; rw [h2, Option.bind_some, h3] at this; exact this
      have hsm : ∀ s, (∃ e ∈ evs, lg e = l ∧ nm e = n ∧ st e = s) → (get? d3 s).isSome := by
        rintro s ⟨e, he, hes⟩
        rw [hcs, accOf_isSome]
        exact List.ne_nil_of_mem (List.mem_filter.2 ⟨he, by simpa using hes⟩)
      refine ⟨vals3 rates d3, ?_, ⟨?_, fun hst => ⟨(cells3 rates d3).foldl updateAdd [], ?_, ?_⟩⟩, ?_⟩
      · refine (hg2 n).trans ?_
        rw [h3]; rfl
      · rintro ⟨d, hd, -⟩ e he hel hen h
        have hd := (hg3 "__all__").symm.trans hd
        obtain ⟨a, ha⟩ := Option.isSome_iff_exists.1 (hsm "__all__" ⟨e, he, hel, hen, h⟩)
        rw [ha] at hd; cases hd
      · have hnone3 : get? d3 ALL = none := by
          rw [hcs, List.filter_eq_nil_iff.2]; · rfl
          intro e he h
          simp only [decide_eq_true_eq] at h
          exact hst e he h.1 h.2.1 h.2.2
        refine (hg3 "__all__").trans ?_
        rw [show ("__all__" : String) = ALL from rfl, hnone3]
        simp [get?]
      · intro p
        exact foldl_total rates hr (hv3 l n d2 d3 h2 h3) p
      · intro s hs
        refine (hg3 s).trans ?_
        obtain ⟨a, ha⟩ := Option.isSome_iff_exists.1 (hsm s hs)
        rw [← hcs, ha]; rfl

/-- C60 fails for a logger called `__all__`: its own table takes the place of the aggregate. -/
theorem C60_violated (rates : A → Dict P (Option V)) (mk : A) (ad : A → Unit → A) :
    ∃ d2, get? (vals1 rates ([()].foldl (onEnd (fun _ => "__all__") (fun _ => "load") (fun _ => "success") (fun _ => mk) ad) []))
      "__all__" = some (.inr d2) := by
  refine ⟨vals2 rates [("load", [("success", ad mk ())])], ?_⟩
  simp [onEnd, upd, get?, vals1, Dct.set, ALL]

end Values

/-- Two loggers, three accumulators, one of them without a rate yet. -/
example : ∃ d, get? (vals1 (fun n : Nat => [(60, if n = 0 then none else some (n : Int))])
      ([("app", "load", 3), ("app", "save", 4), ("db", "load", 0)].foldl
        (onEnd (·.1) (·.2.1) (fun _ => "success") (fun _ => 0) (fun _ e => e.2.2)) [])) "__all__" = some (.inl d) ∧
    get? d 60 = some 7 := by
  obtain ⟨⟨d, h1, h2⟩, _⟩ := C60_aggregates_partial (fun e : String × String × Nat => e.1) (fun e => e.2.1)
    (fun _ => "success") (fun _ => 0) (fun _ e => e.2.2)
    (fun n : Nat => [((60 : Nat), if n = 0 then none else some (n : Int))]) (by simp [keys])
    [("app", "load", 3), ("app", "save", 4), ("db", "load", 0)] (by simp) (by simp) (by simp)
  refine ⟨d, h1, ?_⟩
  rw [h2]
  decide

/-! ## C71: RateSink.get_rates -/

section Rates

variable {K : Type} [Field K] [LinearOrder K] [IsStrictOrderedRing K] {L : Type} [DecidableEq L]

/-- The accumulator of a label, as the sink keeps it. -/
def ratePart (size : Option Nat) (evs : List (Ev L K)) (l : L) (n s : String) : Option (RateAcc K) :=
  part Ev.logger Ev.name Ev.status (fun e : Ev L K => rateInit size e.now) (fun a e => rateAdd a e.value) evs l n s

/-- The accumulators of a logger's action name, of a logger, of all. -/
def rateBelow3 (size : Option Nat) (evs : List (Ev L K)) (l : L) (n : String) : List (RateAcc K) :=
  (statuses Ev.logger Ev.name Ev.status evs l n).filterMap (ratePart size evs l n)
def rateBelow2 (size : Option Nat) (evs : List (Ev L K)) (l : L) : List (RateAcc K) :=
  (names Ev.logger Ev.name evs l).flatMap (rateBelow3 size evs l)
def rateBelow1 (size : Option Nat) (evs : List (Ev L K)) : List (RateAcc K) :=
  (loggers Ev.logger evs).flatMap (rateBelow2 size evs)

omit [LinearOrder K] [IsStrictOrderedRing K] in
/-- C71: the accumulator of a label has exactly the timestamps of its events. -/
theorem C71_parts (size : Option Nat) (evs : List (Ev L K)) (l : L) (n s : String) (a : RateAcc K)
    (h : ratePart size evs l n s = some a) :
    a.times = lastN size ((evs.filter fun e => decide (e.logger = l ∧ e.name = n ∧ e.status = s)).map Ev.value) ∧
    a.total = (evs.filter fun e => decide (e.logger = l ∧ e.name = n ∧ e.status = s)).length ∧
    ((evs.filter fun e => decide (e.logger = l ∧ e.name = n ∧ e.status = s)).head?.map Ev.now) = some a.creation := by
  unfold ratePart part at h
  cases hf : evs.filter fun e => decide (e.logger = l ∧ e.name = n ∧ e.status = s) with
  | nil => rw [hf] at h; cases h
  | cons e es =>
    rw [hf] at h
    simp only [accOf, Option.some.injEq] at h
    obtain ⟨h1, h2, h3, _⟩ := C56_tracked size e.now ((e :: es).map Ev.value)
    rw [List.foldl_map, h] at h1 h2 h3
    exact ⟨h1, by rw [h2, List.length_map], by simp [h3]⟩

/-- The rates of accumulators that can all be read. -/
theorem C71_reads {lname : L → String} {m : Map3 L (RateAcc K)} {start stop now : K} {t}
    (h : getRates lname m start stop now = some t) :
    (∀ a ∈ accs m, ∃ r, getRate a (some start) (some stop) now = some r) ∧
      t = agg1 lname (fun a => (getRate a (some start) (some stop) now).getD 0) m := by
  unfold getRates at h
  split at h
  · rename_i hall
    rw [List.all_eq_true] at hall
    exact ⟨fun a ha => Option.isSome_iff_exists.1 (hall a ha), (Option.some.inj h).symm⟩
  · cases h

/-- C71: the overall rate is the sum of the rates of all accumulators. -/
theorem C71_grand_total (lname : L → String) (size : Option Nat) (evs : List (Ev L K)) (start stop now : K) (t)
    (h : getRates lname (evs.foldl (rateOnEnd size) []) start stop now = some t) :
    get? t "__all__" = some (.inl ((rateBelow1 size evs).map fun a => (getRate a (some start) (some stop) now).getD 0).sum) := by
  obtain ⟨_, rfl⟩ := C71_reads h
  refine (agg1_all _ _ _).trans ?_
  rw [sum1_eq]
  congr 2
  exact ((values1 (lg := Ev.logger) (nm := Ev.name) (st := Ev.status) (mk := fun e : Ev L K => rateInit size e.now)
    (ad := fun a e => rateAdd a e.value) evs).map _).sum_eq

/-- C71: for a logger that no other logger shares its name with, each cell is the rate of its own events, and each subtotal the
sum of the rates below it.  What is missing for the full claim: loggers that share a name, and labels equal to the special key. -/
theorem C71_cells_partial (lname : L → String) (size : Option Nat) (evs : List (Ev L K)) (start stop now : K) (t)
    (h : getRates lname (evs.foldl (rateOnEnd size) []) start stop now = some t) (l : L)
    (hl : ∃ e ∈ evs, e.logger = l) (ha : lname l ≠ "__all__") (hu : ∀ e ∈ evs, lname e.logger = lname l → e.logger = l) :
    ∃ d2, get? t (lname l) = some (.inr d2) ∧
      get? d2 "__all__" =
        some (.inl ((rateBelow2 size evs l).map fun a => (getRate a (some start) (some stop) now).getD 0).sum) ∧
      ∀ n, n ≠ "__all__" → (∃ e ∈ evs, e.logger = l ∧ e.name = n) → ∃ d3, get? d2 n = some (.inr d3) ∧
        get? d3 "__all__" =
          some ((rateBelow3 size evs l n).map fun a => (getRate a (some start) (some stop) now).getD 0).sum ∧
        ∀ s, s ≠ "__all__" → get? d3 s = (ratePart size evs l n s).bind fun a => getRate a (some start) (some stop) now := by
  obtain ⟨hread, rfl⟩ := C71_reads h
  have hwf : WF (evs.foldl (rateOnEnd size) []) := wf_run _ _ _ _ _ evs
  have hs := (logger_isSome_run Ev.logger Ev.name Ev.status (fun e : Ev L K => rateInit size e.now)
    (fun a e => rateAdd a e.value) evs l).2 hl
  change (get? (evs.foldl (rateOnEnd size) []) l).isSome at hs
  obtain ⟨d2, hd2⟩ := Option.isSome_iff_exists.1 hs
  refine ⟨agg2 _ d2, agg1_get lname _ hwf.k1 hd2 ha ?_, ?_, ?_⟩
  · intro l' hl' e
    obtain ⟨ev, h1, rfl⟩ := (mem_keys_run size evs l').1 hl'
    exact hu ev h1 e
  · refine (agg2_all _ _).trans ?_
    rw [sum2_eq]
    congr 2
    exact ((values2 hd2).map _).sum_eq
  · intro n hn hyes
    have hiff := name_isSome_run Ev.logger Ev.name Ev.status (fun e : Ev L K => rateInit size e.now)
      (fun a e => rateAdd a e.value) evs l n
    change ((get? (evs.foldl (rateOnEnd size) []) l).bind fun d2 => get? d2 n).isSome ↔ _ at hiff
    rw [hd2, Option.bind_some] at hiff
    obtain ⟨d3, hd3⟩ := Option.isSome_iff_exists.1 (hiff.2 hyes)
    rw [agg2_get _ (hwf.k2 _ _ hd2) hn]
    refine ⟨agg3 _ d3, by rw [hd3]; rfl, ?_, ?_⟩
    · refine (agg3_all _ _).trans ?_
      congr 1
      exact ((values3 hd2 hd3).map _).sum_eq
    · intro s hs
      rw [agg3_get _ (hwf.k3 _ _ _ _ hd2 hd3) hs]
      have := cell_run Ev.logger Ev.name Ev.status (fun e : Ev L K => rateInit size e.now) (fun a e => rateAdd a e.value)
        evs l n s
      change cell (evs.foldl (rateOnEnd size) []) l n s = _ at this
      unfold cell at this
      rw [hd2, Option.bind_some, hd3, Option.bind_some] at this
      unfold ratePart part
      rw [← this]
      cases hg : get? d3 s with
      | none => rfl
      | some a =>
        have hmem : a ∈ accs (evs.foldl (rateOnEnd size) []) := by
          unfold accs values
          refine List.mem_flatMap.2 ⟨d2, List.mem_map.2 ⟨_, mem_of_get? hd2, rfl⟩, ?_⟩
          refine List.mem_flatMap.2 ⟨d3, List.mem_map.2 ⟨_, mem_of_get? hd3, rfl⟩, ?_⟩
          exact List.mem_map.2 ⟨_, mem_of_get? hg, rfl⟩
        obtain ⟨r, hr⟩ := hread a hmem
        simp [hr]

theorem sum_div {ι : Type} (l : List ι) (f : ι → Nat) (c : K) : (l.map fun a => ((f a : Nat) : K) / c).sum = (((l.map f).sum : Nat) : K) / c := by
  induction l with
  | nil => simp
  | cons a l ih => simp only [List.map_cons, List.sum_cons, ih]; push_cast; ring

/-- C71: read from the creation of the sink (or earlier) to a later moment, the overall rate is the number of events received over
that time, and nothing raises. -/
theorem C71_lifetime (lname : L → String) (size : Option Nat) (hsize : size ≠ some 0) (evs : List (Ev L K))
    (start stop now : K) (hs0 : start ≠ 0) (he0 : stop ≠ 0) (hlt : start ≠ stop) (hnow : ∀ e ∈ evs, start ≤ e.now) :
    ∃ t, getRates lname (evs.foldl (rateOnEnd size) []) start stop now = some t ∧
      get? t "__all__" = some (.inl ((evs.length : K) / (stop - start))) := by
  have hacc : ∀ a ∈ accs (evs.foldl (rateOnEnd size) []),
      getRate a (some start) (some stop) now = some ((a.total : K) / (stop - start)) := by
    intro a ha
    have ha' := (values1 (lg := Ev.logger) (nm := Ev.name) (st := Ev.status) (mk := fun e : Ev L K => rateInit size e.now)
      (ad := fun a e => rateAdd a e.value) evs).subset ha
    unfold below1 below2 below3 at ha'
    simp only [List.mem_flatMap, List.mem_filterMap] at ha'
    obtain ⟨l, _, n, _, s, _, hp⟩ := ha'
    obtain ⟨h1, h2, h3⟩ := C71_parts size evs l n s a hp
    cases hf : evs.filter fun e => decide (e.logger = l ∧ e.name = n ∧ e.status = s) with
    | nil => rw [hf] at h3; cases h3
    | cons e es =>
      rw [hf] at h1 h3
      have hc : start ≤ a.creation := by
        simp only [List.head?_cons, Option.map_some, Option.some.injEq] at h3
        rw [← h3]
        exact hnow e (List.mem_of_mem_filter (p := fun e => decide (e.logger = l ∧ e.name = n ∧ e.status = s))
          (by rw [hf]; exact List.mem_cons_self))
      have hne : a.times ≠ [] := by
        rw [h1]
        cases size with
        | none => simp [lastN]
        | some k =>
          have : k ≠ 0 := fun h => hsize (by rw [h])
          unfold lastN
          intro hd
          have := congrArg List.length hd
          simp only [List.length_drop, List.length_map, List.length_cons, List.length_nil] at this
          omega
      obtain ⟨x, y, hx, hy⟩ := heads hne
      unfold getRate
      simp only [hx, hy, orElse, if_neg hs0, if_neg he0, if_pos hc]
      rw [if_neg (sub_ne_zero.2 (Ne.symm hlt))]
  have hall : (accs (evs.foldl (rateOnEnd size) [])).all (fun a => (getRate a (some start) (some stop) now).isSome) = true := by
    rw [List.all_eq_true]; intro a ha; rw [hacc a ha]; rfl
  unfold getRates
  rw [if_pos hall]
  refine ⟨_, rfl, ?_⟩
  refine (agg1_all _ _ _).trans ?_
  rw [sum1_eq]
  congr 2
  have hm : (accs (evs.foldl (rateOnEnd size) [])).map (fun a => (getRate a (some start) (some stop) now).getD 0) =
      (accs (evs.foldl (rateOnEnd size) [])).map (fun a => ((a.total : Nat) : K) / (stop - start)) := by
    refine List.map_congr_left fun a ha => ?_
    rw [hacc a ha]; rfl
  rw [hm, sum_div, ← sum1_eq]
  have := sum1_run Ev.logger Ev.name Ev.status (fun e : Ev L K => rateInit size e.now) (fun a e => rateAdd a e.value)
    RateAcc.total (fun _ => 1) (fun _ => rfl) (fun _ _ => rfl) evs
  change sum1 RateAcc.total (evs.foldl (rateOnEnd size) []) = _ at this
  rw [this, map_one_sum]

end Rates

example : ∃ t, getRates (fun n : Nat => if n = 0 then "app" else "db") (sampleEvs.foldl (rateOnEnd (some 128)) []) 5 20 20 = some t ∧
    get? t "__all__" = some (.inl (3 / 15)) := by
  obtain ⟨t, h1, h2⟩ := C71_lifetime (fun n : Nat => if n = 0 then "app" else "db") (some 128) (by simp) sampleEvs 5 20 20
    (by norm_num) (by norm_num) (by norm_num) (by simp [sampleEvs]; norm_num)
  refine ⟨t, h1, ?_⟩
  rw [h2]; norm_num [sampleEvs]

/-- C71 fails for loggers that share a name: over the sink's lifetime of 15 seconds three events came from loggers called "app",
and the table says that one did. -/
theorem C71_violated_names :
    ∃ t d2, getRates (fun _ : Nat => "app") (sampleEvs.foldl (rateOnEnd (some 128)) []) 5 20 20 = some t ∧
      get? t "app" = some (.inr d2) ∧ get? d2 "__all__" = some (.inl (1 / 15)) ∧ get? t "__all__" = some (.inl (3 / 15)) := by
  obtain ⟨t, h1, h2⟩ := C71_lifetime (fun _ : Nat => "app") (some 128) (by simp) sampleEvs 5 20 20
    (by norm_num) (by norm_num) (by norm_num) (by simp [sampleEvs]; norm_num)
  refine ⟨t, [("load", .inr [("failure", 1 / 15), ("__all__", 1 / 15)]), ("__all__", .inl (1 / 15))], h1, ?_, by simp [get?], ?_⟩
  · obtain ⟨_, rfl⟩ := C71_reads h1
    norm_num [sampleEvs, rateOnEnd, onEnd, upd, get?, Dct.set, agg1, agg2, agg3, sum1, sum2, sum3, values, ALL,
      rateAdd, rateInit, getRate, append, orElse]
    rw [if_neg (by decide), if_neg (by decide), if_neg (by decide)]
    simp [get?]
  · rw [h2]; norm_num [sampleEvs]

/-- What `C71_parts`, `C71_reads`, `C71_grand_total` and `C71_cells_partial` say of the events above. -/
example : ∃ t, getRates (fun n : Nat => if n = 0 then "app" else "db") (sampleEvs.foldl (rateOnEnd (some 128)) []) 5 20 20 = some t ∧
    t = agg1 (fun n : Nat => if n = 0 then "app" else "db") (fun a => (getRate a (some 5) (some 20) 20).getD 0)
      (sampleEvs.foldl (rateOnEnd (some 128)) []) ∧
    get? t "__all__" = some (.inl ((rateBelow1 (some 128) sampleEvs).map fun a => (getRate a (some 5) (some 20) 20).getD 0).sum) ∧
    ∃ d2, get? t "app" = some (.inr d2) := by
  obtain ⟨t, h1, -⟩ := C71_lifetime (fun n : Nat => if n = 0 then "app" else "db") (some 128) (by simp) sampleEvs 5 20 20
    (by norm_num) (by norm_num) (by norm_num) (by simp [sampleEvs]; norm_num)
  obtain ⟨d2, hd, -⟩ := C71_cells_partial _ _ _ _ _ _ t h1 0 (by simp [sampleEvs]) (by simp)
    (by intro e he h; by_contra hne; simp [hne] at h)
  exact ⟨t, h1, (C71_reads h1).2, C71_grand_total _ _ _ _ _ _ t h1, d2, by simpa using hd⟩

end Verif.Sinks
