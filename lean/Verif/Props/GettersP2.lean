import Verif.Model.GettersP2
import Verif.Props.Getters
import Verif.Props.P2Sink
import Verif.Props.Ewma
/-!
# C121: getters that fail, with P2 accumulators and moving averages
-/
namespace Verif.Sinks

open Verif.Dct Verif.P2Sink

variable {K : Type} [Field K] [LinearOrder K] [IsStrictOrderedRing K] [FloorRing K]

/-- What the getter returned for the events of logger `l` called `n`, in order. -/
def returned (evs : List (TryEv String K K)) (l n : String) : List K :=
  (evs.filter fun e => decide (e.logger = l ∧ e.name = n)).filterMap TryEv.got

/-- The events whose getter returned, as the sink of C139 would get them. -/
def answered (evs : List (TryEv String K K)) : List (Op K) :=
  evs.filterMap fun e => e.got.map fun v => .end_ e.logger e.name v

omit [Field K] [LinearOrder K] [IsStrictOrderedRing K] [FloorRing K] in
theorem values_answered (evs : List (TryEv String K K)) (l n : String) : P2Sink.values (answered evs) l n = returned evs l n := by
  unfold P2Sink.values answered returned
  induction evs with
  | nil => rfl
  | cons e evs ih =>
    rw [List.filterMap_cons, List.filter_cons]
    cases hg : e.got with
    | none =>
      simp only [Option.map_none]
      rw [ih]
      split
      · rw [List.filterMap_cons, hg]
      · rfl
    | some v =>
      simp only [Option.map_some, List.filterMap_cons]
      rw [ih]
      by_cases h : e.logger = l ∧ e.name = n
      · rw [if_pos h, if_pos (by simpa using h), List.filterMap_cons, hg]
      · rw [if_neg h, if_neg (by simpa using h)]

theorem hist_run (store : K → K) (points : List K) (es : List (TryEv String K K)) (vals : List K) (a : P2.Acc K)
    (h : Hist store points vals a) :
    Hist store points (vals ++ es.filterMap TryEv.got)
      (es.foldl (fun a e => addGot (fun a v => (P2.accAdd store a v).getD a) a e.got) a) := by
  induction es generalizing vals a with
  | nil => simpa using h
  | cons e es ih =>
    rw [List.foldl_cons, List.filterMap_cons]
    cases hg : e.got with
    | none => exact ih vals a h
    | some v =>
      obtain ⟨b, hb, hh⟩ := hist_add h v
      have := ih (vals ++ [v]) b hh
      simp only [addGot, hb, Option.getD_some]
      rw [List.append_assoc] at this
      exact this

theorem p2_cell (store : K → K) (points : List K) (evs : List (TryEv String K K)) (l n : String) :
    ((¬ ∃ e ∈ evs, e.logger = l ∧ e.name = n) → ((get? (evs.foldl (p2Try store points) []) l).bind fun d => get? d n) = none) ∧
    ((∃ e ∈ evs, e.logger = l ∧ e.name = n) → ∃ a, ((get? (evs.foldl (p2Try store points) []) l).bind fun d => get? d n) = some a ∧
      Hist store points (returned evs l n) a) := by
  have h := cell2_run TryEv.logger TryEv.name (P2.accInit points)
    (fun a (e : TryEv String K K) => addGot (fun a v => (P2.accAdd store a v).getD a) a e.got) evs l n
  constructor
  · intro hn; exact h.trans (if_neg hn)
  · intro hs
    refine ⟨_, h.trans (if_pos hs), ?_⟩
    have := hist_run store points (evs.filter fun e => decide (e.logger = l ∧ e.name = n)) [] _ (hist_init store points)
    rwa [List.nil_append] at this

theorem p2_nodup (store : K → K) (points : List K) (evs : List (TryEv String K K)) :
    (keys (evs.foldl (p2Try store points) [])).Nodup ∧
    ∀ l d, get? (evs.foldl (p2Try store points) []) l = some d → (keys d).Nodup ∧ ∃ n, ∃ e ∈ evs, e.logger = l ∧ e.name = n := by
  induction evs using List.reverseRecOn with
  | nil => exact ⟨by simp [keys], by simp [get?]⟩
  | append_singleton evs e ih =>
    rw [List.foldl_append, List.foldl_cons, List.foldl_nil]
    generalize evs.foldl (p2Try store points) [] = t at ih
    refine ⟨nodup_set ih.1 _ _, fun l d hd => ?_⟩
    simp only [p2Try, onEnd2, get?_upd] at hd
    split at hd
    · rename_i he
      cases hd
      refine ⟨nodup_set ?_ _ _, e.name, e, by simp, he, rfl⟩
      cases hg : get? t e.logger with
      | none => simp [keys]
      | some d' => exact (ih.2 _ _ hg).1
    · obtain ⟨h1, n, x, hx, h2⟩ := ih.2 _ _ hd
      exact ⟨h1, n, x, by simp [hx], h2⟩

omit [Field K] [LinearOrder K] [IsStrictOrderedRing K] [FloorRing K] in
theorem returned_seen {evs : List (TryEv String K K)} {l n : String} (hne : returned evs l n ≠ []) :
    ∃ e ∈ evs, e.logger = l ∧ e.name = n := by
  by_contra hc
  refine hne ?_
  have : (evs.filter fun e => decide (e.logger = l ∧ e.name = n)) = [] :=
    List.filter_eq_nil_iff.2 fun e he hx => hc ⟨e, he, by simpa using hx⟩
  rw [returned, this]; rfl

/-- Every pair of labels seen has got a value. -/
def EachReturned (evs : List (TryEv String K K)) : Prop := ∀ e ∈ evs, returned evs e.logger e.name ≠ []

theorem p2_tabOk (store : K → K) (points : List K) (evs : List (TryEv String K K)) (hr : EachReturned evs) :
    TabOk store points (answered evs) (evs.foldl (p2Try store points) []) := by
  obtain ⟨h1, h2⟩ := p2_nodup store points evs
  have hseen := fun l n => returned_seen (evs := evs) (l := l) (n := n)
  refine ⟨h1, fun l d hd => (h2 l d hd).1, ?_, ?_, ?_⟩
  · intro l n hv
    rw [values_answered] at hv
    refine (p2_cell store points evs l n).1 ?_
    rintro ⟨e, he, rfl, rfl⟩
    exact hr e he hv
  · intro l n hv
    rw [values_answered] at hv ⊢
    exact (p2_cell store points evs l n).2 (hseen l n hv)
  · intro l hl
    obtain ⟨d, hd⟩ := Option.isSome_iff_exists.1 hl
    obtain ⟨n, e, he, rfl, rfl⟩ := (h2 l d hd).2
    exact ⟨e.name, by rw [values_answered]; exact hr e he⟩

theorem mapAcc_raises {A R : Type} (f : A → Except Quant.Exc R × A) (d : Dict String A) {p : String × A} (hp : p ∈ d)
    (h : ∃ x, (f p.2).1 = .error x) : ∃ x, (mapAcc f d).1 = .error x := by
  induction d with
  | nil => cases hp
  | cons q d ih =>
    obtain ⟨k, b⟩ := q
    rw [mapAcc]
    split
    · exact ⟨_, rfl⟩
    · rename_i r c e
      have hp' : p ∈ d := by
        rcases List.mem_cons.1 hp with rfl | hp
        · rw [e] at h; obtain ⟨x, hx⟩ := h; cases hx
        · exact hp
      obtain ⟨x, hx⟩ := ih hp'
      split
      · exact ⟨_, rfl⟩
      · rename_i e2; rw [e2] at hx; cases hx

/-- C121 with P2 accumulators, `to_dict`: if the getter returned at least once for every action name seen (by each logger), and the
quartiles are tracked or there is too little for estimates, `to_dict` returns, and has for each pair of labels the count, trimean and
quantiles of an accumulator that was given exactly what the getter returned.  If it never returned for one that was seen, `to_dict` and
`repr` raise. -/
theorem C121_p2_partial (store : K → K) (points : List K) (hp : ∀ p ∈ points, 0 < p ∧ p < 1) (evs : List (TryEv String K K)) :
    (EachReturned evs → (∀ e ∈ evs, Quartiles points (returned evs e.logger e.name)) →
      ∃ d, (P2Sink.toDict (evs.foldl (p2Try store points) [])).1 = .ok d ∧
        ∀ l n, ((¬ ∃ e ∈ evs, e.logger = l ∧ e.name = n) → ((get? d l).bind fun r => get? r n) = none) ∧
          ((∃ e ∈ evs, e.logger = l ∧ e.name = n) → ∃ a r, Hist store points (returned evs l n) a ∧
            Tells points (returned evs l n).length a r ∧ ((get? d l).bind fun r => get? r n) = some r)) ∧
    (¬ EachReturned evs → ∃ x y, (P2Sink.toDict (evs.foldl (p2Try store points) [])).1 = .error x ∧
      (P2Sink.repr (evs.foldl (p2Try store points) [])).1 = .error y) := by
  constructor
  · intro hr hq
    have key := table_map (p2_tabOk store points evs hr) entry (Quartiles points)
      (fun vals a hne h hq => let ⟨r, e, _⟩ := (entry_spec hp hne h).2.1 hq; ⟨r, e⟩)
      (fun vals a hne h hq => (entry_spec hp hne h).2.2 hq)
    simp only [values_answered] at key
    have hseen := fun l n => returned_seen (evs := evs) (l := l) (n := n)
    have hq' : ∀ l n, returned evs l n ≠ [] → Quartiles points (returned evs l n) := by
      intro l n hne
      obtain ⟨e, he, rfl, rfl⟩ := hseen l n hne
      exact hq e he
    obtain ⟨d, hd, hc⟩ := key.1 hq'
    refine ⟨d, hd, fun l n => ⟨fun hn => (hc l n).1 ?_, fun hs => ?_⟩⟩
    · by_contra hne; exact hn (hseen l n hne)
    · obtain ⟨e, he, rfl, rfl⟩ := hs
      have hne := hr e he
      obtain ⟨a, r, hok, hr', hcell⟩ := (hc e.logger e.name).2 hne
      obtain ⟨r2, e2, ht⟩ := (entry_spec hp hne hok).2.1 (hq e he)
      rw [hr'] at e2
      cases e2
      exact ⟨a, r, hok, ht, hcell⟩
  · intro hn
    simp only [EachReturned, not_forall, not_not] at hn
    obtain ⟨e, he, hv⟩ := hn
    obtain ⟨a, ha, hh⟩ := (p2_cell store points evs e.logger e.name).2 ⟨e, he, rfl, rfl⟩
    rw [hv] at hh
    have hempty : ∀ q, ∃ x b, P2.accQuantile a q = (.error x, b) := by
      intro q
      obtain ⟨hest, hi⟩ := hh.ok.collecting (by simp)
      have hd : a.tmp.data = [] := List.length_eq_zero_iff.1 (hi.none_len rfl).2
      have hd' : (Quant.sortData a.tmp).data = [] := by unfold Quant.sortData; split <;> simp [hd]
      have hitem : ∀ i : Int, Quant.item ([] : List K) i = .error .index := by
        intro i; simp only [Quant.item, List.length_nil, List.getElem?_nil, ite_self]
      have : ∃ x, (Quant.resQuantile a.tmp q).1 = .error x := by
        unfold Quant.resQuantile
        split
        · exact ⟨_, rfl⟩
        · dsimp only
          rw [hd', hitem]
          split
          · exact ⟨_, rfl⟩
          · exact ⟨_, rfl⟩
      obtain ⟨x, hx⟩ := this
      exact ⟨x, { a with tmp := (Quant.resQuantile a.tmp q).2 }, by simp only [P2.accQuantile, hest, hx]⟩
    have raises : ∀ {R : Type} (f : P2.Acc K → Except Quant.Exc R × P2.Acc K), (∃ x, (f a).1 = .error x) →
        ∃ x, (mapAcc (mapAcc f) (evs.foldl (p2Try store points) [])).1 = .error x := by
      intro R f hf
      cases hl : get? (evs.foldl (p2Try store points) []) e.logger with
      | none => rw [hl] at ha; cases ha
      | some d =>
        rw [hl, Option.bind_some] at ha
        exact mapAcc_raises _ _ (mem_of_get? hl) (mapAcc_raises f _ (mem_of_get? ha) hf)
    obtain ⟨x, hx⟩ := raises entry (by
      obtain ⟨x, b, hb⟩ := hempty (1 / 4)
      exact ⟨x, by simp only [entry, trimean, readAll, hb]⟩)
    obtain ⟨y, hy⟩ := raises brief (by
      obtain ⟨x, b, hb⟩ := hempty (1 / 2)
      exact ⟨x, by simp only [brief, hb]⟩)
    exact ⟨x, y, hx, hy⟩

/-- C121 with P2 accumulators, `repr`, likewise: what it shows are the counts and medians of what the getter returned. -/
theorem C121_p2_repr_partial (store : K → K) (points : List K) (evs : List (TryEv String K K)) (hr : EachReturned evs)
    (hm : ∀ e ∈ evs, (returned evs e.logger e.name).length < points.length + 2 ∨ (1 / 2 : K) ∈ points) :
    ∃ d, (P2Sink.repr (evs.foldl (p2Try store points) [])).1 = .ok d ∧
      ∀ l n, ((¬ ∃ e ∈ evs, e.logger = l ∧ e.name = n) → ((get? d l).bind fun r => get? r n) = none) ∧
        ((∃ e ∈ evs, e.logger = l ∧ e.name = n) → ∃ a m, Hist store points (returned evs l n) a ∧
          (P2.accQuantile a (1 / 2)).1 = .ok m ∧
          ((get? d l).bind fun r => get? r n) = some ((returned evs l n).length - (points.length + 2), m)) := by
  have key := table_map (p2_tabOk store points evs hr) brief (fun vals => vals.length < points.length + 2 ∨ (1 / 2 : K) ∈ points)
    (fun vals a hne h hq => let ⟨_, _, e⟩ := (brief_spec hne h).2.1 hq; ⟨_, e⟩)
    (fun vals a hne h hq => (brief_spec hne h).2.2 hq)
  simp only [values_answered] at key
  obtain ⟨d, hd, hc⟩ := key.1 fun l n hne => by
    obtain ⟨e, he, rfl, rfl⟩ := returned_seen hne
    exact hm e he
  refine ⟨d, hd, fun l n => ⟨fun hn => (hc l n).1 ?_, ?_⟩⟩
  · by_contra hne; exact hn (returned_seen hne)
  · rintro ⟨e, he, rfl, rfl⟩
    have hne := hr e he
    obtain ⟨a, r, hok, hr', hcell⟩ := (hc e.logger e.name).2 hne
    obtain ⟨m, h1, h2⟩ := (brief_spec hne hok).2.1 (hm e he)
    rw [hr'] at h2
    cases h2
    exact ⟨a, m, hok, h1, hcell⟩

/-- C121, EWMASink: the accumulator of some labels is the one made when the first event with these labels came, its getter failing
or not, and has been given what the getter returned for those of them for which it did; the other labels have none. -/
theorem C121_ewma (periods : List ℝ) (interval : ℝ) (mk : ℝ → Ewma.Ewma)
    (hm : ∀ now, Ewma.make periods interval now = some (mk now)) (evs : List (TryEv String ℝ ℝ)) (l n s : String) :
    cell (evs.foldl (ewmaTry mk) []) l n s =
      let own := evs.filter fun e => decide (e.logger = l ∧ e.name = n ∧ e.status = s)
      own.head?.map fun first => { mk first.now with uncounted := (own.filterMap TryEv.got).sum } := by
  unfold ewmaTry
  rw [cell_run]
  dsimp only
  cases evs.filter fun e => decide (e.logger = l ∧ e.name = n ∧ e.status = s) with
  | nil => rfl
  | cons e es =>
    simp only [accOf, List.head?_cons, Option.map_some, Option.some.injEq]
    have h0 := ((Ewma.C55_make periods interval e.now).2 _ (hm e.now)).2.1
    have : ∀ (es : List (TryEv String ℝ ℝ)) (a : Ewma.Ewma), es.foldl (fun a e => addGot Ewma.add a e.got) a =
        { a with uncounted := a.uncounted + (es.filterMap TryEv.got).sum } := by
      intro es
      induction es with
      | nil => intro a; simp
      | cons x es ih =>
        intro a
        rw [List.foldl_cons, ih, List.filterMap_cons]
        cases x.got <;> simp [addGot, Ewma.add, add_assoc]
    rw [this, h0, zero_add]

/-! ## Cases -/

/-- The getter fails for the first of two events, then returns 3. -/
def someFail : List (TryEv String ℚ ℚ) := [⟨"app", "load", "success", none, 1⟩, ⟨"app", "load", "success", some 3, 2⟩]

example : ∃ d, (P2Sink.toDict (someFail.foldl (p2Try id P2Sink.prag) [])).1 = .ok d := by
  obtain ⟨d, hd, -⟩ := (C121_p2_partial id P2Sink.prag (by unfold prag; norm_num) someFail).1
    (by intro e he; simp only [someFail, List.mem_cons, List.not_mem_nil, or_false] at he
        rcases he with rfl | rfl <;> simp [returned, someFail])
    (fun _ _ => .inr ⟨by unfold prag; norm_num, by unfold prag; norm_num, by unfold prag; norm_num⟩)
  exact ⟨d, hd⟩

example := C121_p2_repr_partial id P2Sink.prag someFail
  (by intro e he; simp only [someFail, List.mem_cons, List.not_mem_nil, or_false] at he
      rcases he with rfl | rfl <;> simp [returned, someFail])
  (fun _ _ => .inr (by unfold prag; norm_num))

/-- After the first event alone, the sink cannot be shown. -/
example : ∃ x y, (P2Sink.toDict ((someFail.take 1).foldl (p2Try id P2Sink.prag) [])).1 = .error x ∧
    (P2Sink.repr ((someFail.take 1).foldl (p2Try id P2Sink.prag) [])).1 = .error y :=
  (C121_p2_partial id P2Sink.prag (by unfold prag; norm_num) (someFail.take 1)).2
    (fun h => h ⟨"app", "load", "success", none, 1⟩ (by simp [someFail]) (by simp [returned, someFail]))

example := C121_ewma [60] 5 (fun now => ⟨5, [(60, none)], 0, now, true⟩) (by intro now; simp [Ewma.make])
  [⟨"app", "load", "success", none, 1⟩, ⟨"app", "load", "success", some 3, 2⟩] "app" "load" "success"

end Verif.Sinks
