import Verif.Model.MakeSink
import Verif.Props.P2Sink
import Verif.Props.Getters
/-!
# C144: the options of a QuantileSink
-/
namespace Verif.MakeSink

open Verif.Dct Verif.P2

variable {K : Type} [Field K] [LinearOrder K] [IsStrictOrderedRing K] [FloorRing K]

/-! ## Specification -/

/-- All points are numbers strictly between 0 and 1. -/
def Inside (points : List (Option K)) : Prop := ∀ p ∈ points, ∃ x, p = some x ∧ 0 < x ∧ x < 1

/-- The full claim: a sink that could be made takes every event, and `to_dict` returns. -/
def Usable : Prop :=
  ∀ (K : Type) [Field K] [LinearOrder K] [IsStrictOrderedRing K] [FloorRing K] (store : K → K) (a : Args K) (c : Conf K)
    (_ : make a = some c) (evs : List (Ev K)), (∀ r ∈ (run store c evs).2, r = false) ∧ (toDict c (run store c evs).1).isSome

/-! ## Making -/

omit [LinearOrder K] [IsStrictOrderedRing K] [FloorRing K] in
/-- C144: a sink is made exactly if the getter, if there is one, can be called, and there are no other keywords; its accumulators are
of the class asked for, and its points are those asked for, the default ones if there are none. -/
theorem C144_made (a : Args K) :
    ((make a).isSome ↔ a.getter ≠ some false ∧ a.others = []) ∧
    ∀ c, make a = some c →
      (∀ k, a.accType = some k → c.kind = k) ∧ (a.accType = none → (c.kind = .p2 ↔ a.useP2 = true)) ∧
      (∀ ps, a.qPoints = some (some ps) → ps ≠ [] → c.points = ps) ∧
      (a.qPoints = none ∨ a.qPoints = some none ∨ a.qPoints = some (some []) → c.points = QP_PRAG.map some) := by
  obtain ⟨g, u, t, q, o⟩ := a
  unfold make
  constructor
  · rcases g with - | (- | -) <;> by_cases ho : o = [] <;> simp [ho]
  · intro c hc
    have hc' : c = ⟨t.getD (if u then Kind.p2 else .reservoir), orDefault (q.getD (some (QP_PRAG.map some)))⟩ := by
      rcases g with - | (- | -) <;> by_cases ho : o = [] <;> simp [ho] at hc <;> exact hc.symm
    subst hc'
    refine ⟨?_, ?_, ?_, ?_⟩
    · rintro k h; simp only at h; subst h; rfl
    · rintro h; simp only at h; subst h; cases u <;> simp
    · rintro ps h hne
      simp only at h; subst h
      cases ps with
      | nil => exact absurd rfl hne
      | cons p ps => rfl
    · rintro (h | h | h) <;> simp only at h <;> subst h <;> rfl

/-! ## Events -/

theorem run_snoc (store : K → K) (c : Conf K) (evs : List (Ev K)) (e : Ev K) :
    run store c (evs ++ [e]) = ((onEnd store c (run store c evs).1 e).1,
      (run store c evs).2 ++ [(onEnd store c (run store c evs).1 e).2]) := by
  simp [run, List.foldl_append]

theorem onEnd_raises (store : K → K) (c : Conf K) (t : Table K) (e : Ev K) :
    (onEnd store c t e).2 = decide (c.kind = .p2 ∧ (processPoints c.points).isNone) := by
  unfold onEnd
  cases c.kind with
  | reservoir => simp
  | p2 => cases processPoints c.points <;> simp

/-- C144: either every event is taken or every event raises ValueError: the latter exactly for P2 with points that are not valid, that is,
if one is not a number from 0 to 1 or none is strictly between. -/
theorem C144_takes (store : K → K) (c : Conf K) (evs : List (Ev K)) :
    (c.kind = .reservoir ∨ Valid c.points → (run store c evs).2 = List.replicate evs.length false) ∧
    (c.kind = .p2 → ¬ Valid c.points → (run store c evs).2 = List.replicate evs.length true) := by
  have h : (run store c evs).2 = List.replicate evs.length (decide (c.kind = .p2 ∧ (processPoints c.points).isNone)) := by
    induction evs using List.reverseRecOn with
    | nil => rfl
    | append_singleton evs e ih =>
      rw [run_snoc, onEnd_raises, ih, List.length_append, List.length_singleton, List.replicate_succ']
  rw [h]
  have ha := C54_accepts c.points
  constructor
  · rintro (hk | hv)
    · simp [hk]
    · have := ha.2 hv
      cases hp : processPoints c.points with
      | none => rw [hp] at this; cases this
      | some ps => simp
  · intro hk hv
    have : processPoints c.points = none := by
      cases hp : processPoints c.points with
      | none => rfl
      | some ps => exact absurd (ha.1 (by rw [hp]; rfl)) hv
    simp [hk, this]

/-! ## Reading -/

theorem readAll_outside (qs : List K) (h : ∃ q ∈ qs, ¬ (0 < q ∧ q < 1)) : ∀ r : Quant.Res K,
    ∃ x, (Quant.readAll Quant.resQuantile r qs).1 = .error x := by
  induction qs with
  | nil => obtain ⟨q, hq, _⟩ := h; cases hq
  | cons q qs ih =>
    intro r
    simp only [Quant.readAll]
    cases hq : (Quant.resQuantile r q).1 with
    | error x => exact ⟨x, rfl⟩
    | ok v =>
      obtain ⟨q', hq', ho⟩ := h
      rcases List.mem_cons.1 hq' with rfl | hm
      · unfold Quant.resQuantile at hq; rw [if_pos ho] at hq; cases hq
      · obtain ⟨x, hx⟩ := ih ⟨q', hm, ho⟩ (Quant.resQuantile r q).2
        exact ⟨x, by simp only [hx]⟩

theorem resEntry_outside (points : List (Option K)) (h : ¬ Inside points) (r : Quant.Res K) : resEntry points r = none := by
  unfold resEntry
  cases hp : points.mapM id with
  | none => rfl
  | some qs =>
    have hq := mapM_id_eq hp
    have : ∃ q ∈ qs, ¬ (0 < q ∧ q < 1) := by
      by_contra hc
      refine h fun p hm => ?_
      rw [hq] at hm
      obtain ⟨x, hx, rfl⟩ := List.mem_map.1 hm
      exact ⟨x, rfl, by by_contra hn; exact hc ⟨x, hx, hn⟩⟩
    obtain ⟨x, hx⟩ := readAll_outside qs this r
    simp only [Sinks.quantEntry, Quant.getQuantiles, hx]
    cases Quant.trimean r <;> rfl

/-- The events as the sink of `Model/Getters.lean` sees them. -/
def asTry (e : Ev K) : Sinks.TryEv String K K := ⟨e.l, e.n, "success", some e.v, 0⟩

/-- C144: with the default accumulators the sink is the one of C121, given the values of the getter. -/
theorem C144_reservoir_is (store : K → K) (c : Conf K) (hk : c.kind = .reservoir) (evs : List (Ev K)) :
    (run store c evs).1.res = (evs.map asTry).foldl (Sinks.quantTry store) [] := by
  induction evs using List.reverseRecOn with
  | nil => rfl
  | append_singleton evs e ih =>
    rw [run_snoc, List.map_append, List.foldl_append]
    simp only [onEnd, hk, ih, List.map_cons, List.map_nil, List.foldl_cons, List.foldl_nil, asTry]

/-- C144: with the default accumulators, after events, `to_dict` returns exactly if all points are strictly between 0 and 1.  What is
missing for the full claim: points that are not (see `C144_violated`). -/
theorem C144_reservoir_partial (store : K → K) (c : Conf K) (hk : c.kind = .reservoir) (evs : List (Ev K)) :
    (toDict c (run store c evs).1).isSome ↔ evs = [] ∨ Inside c.points := by
  unfold toDict
  rw [hk]
  simp only [C144_reservoir_is store c hk evs]
  constructor
  · intro h
    rw [or_iff_not_imp_left]
    intro hne
    by_contra hi
    obtain ⟨t, ht⟩ := Option.isSome_iff_exists.1 h
    obtain ⟨e, he⟩ := List.exists_mem_of_ne_nil _ hne
    have hr : ∀ l n, Sinks.row t l n = none := fun l n => by
      have := (Sinks.C59_routing Sinks.TryEv.logger Sinks.TryEv.name (Quant.resInit none)
        (fun r (e : Sinks.TryEv String K K) => Sinks.addGot (fun r v => Quant.step store r (.add v 0)) r e.got)
        (evs.map asTry) (resEntry c.points) t ht l n).2
      unfold Sinks.row
      rw [this, resEntry_outside _ hi, ite_self]
    have hrow := (Sinks.cell2_run Sinks.TryEv.logger Sinks.TryEv.name (Quant.resInit none)
        (fun r (e : Sinks.TryEv String K K) => Sinks.addGot (fun r v => Quant.step store r (.add v 0)) r e.got)
        (evs.map asTry) e.l e.n)
    rw [if_pos ⟨asTry e, List.mem_map_of_mem he, rfl, rfl⟩] at hrow
    change ((get? ((evs.map asTry).foldl (Sinks.quantTry store) []) e.l).bind fun d => get? d e.n) = _ at hrow
    cases hg : get? ((evs.map asTry).foldl (Sinks.quantTry store) []) e.l with
    | none => rw [hg] at hrow; cases hrow
    | some d =>
      rw [hg, Option.bind_some] at hrow
      have h1 := Sinks.mapDict_some _ _ _ ht (e.l, d) (mem_of_get? hg)
      obtain ⟨r, hr1⟩ := Option.isSome_iff_exists.1 h1
      have h2 := Sinks.mapDict_some _ _ _ hr1 (e.n, _) (mem_of_get? hrow)
      rw [resEntry_outside _ hi] at h2
      cases h2
  · rintro (rfl | hi)
    · rfl
    · cases hp : c.points.mapM id with
      | none =>
        exfalso
        have : ∀ l : List (Option K), Inside l → l.mapM id ≠ none := by
          intro l
          induction l with
          | nil => intro _ h; cases h
          | cons p l ih =>
            intro h hn
            obtain ⟨x, rfl, -⟩ := h p (by simp)
            rw [List.mapM_cons] at hn
            cases hm : l.mapM id with
            | none => exact ih (fun p hp => h p (by simp [hp])) hm
            | some y => rw [hm] at hn; cases hn
        exact this _ hi hp
      | some qs =>
        have hq := mapM_id_eq hp
        have hin : ∀ q ∈ qs, 0 < q ∧ q < 1 := fun q hm => by
          obtain ⟨x, hx, h⟩ := hi (some q) (by rw [hq]; exact List.mem_map_of_mem hm)
          cases hx; exact h
        have he : resEntry c.points = Sinks.quantEntry qs := by funext r; simp only [resEntry, hp]
        rw [he]
        obtain ⟨t, ht⟩ := (Sinks.C121_to_dict_partial store qs hin (evs.map asTry)).1.2 (fun e he => by
          obtain ⟨x, hx, rfl⟩ := List.mem_map.1 he
          exact ⟨asTry x, he, rfl, rfl, rfl⟩)
        unfold Sinks.quantDict at ht
        rw [ht]; rfl

/-- C144: with P2 and valid points the sink is the one of C139, with the distinct points strictly between 0 and 1, in order. -/
theorem C144_p2 (store : K → K) (c : Conf K) (hk : c.kind = .p2) (ps : List K) (hp : processPoints c.points = some ps)
    (evs : List (Ev K)) :
    (run store c evs).1.p2 = P2Sink.run store ps (evs.map fun e => .end_ e.l e.n e.v) ∧
      ps.Pairwise (· < ·) ∧ ∀ x, x ∈ ps ↔ some x ∈ c.points ∧ 0 < x ∧ x < 1 := by
  refine ⟨?_, (C54_result _ _ hp).2⟩
  induction evs using List.reverseRecOn with
  | nil => rfl
  | append_singleton evs e ih =>
    rw [run_snoc, List.map_append]
    simp only [onEnd, hk, hp, ih, P2Sink.run, List.foldl_append, List.map_cons, List.map_nil, List.foldl_cons, List.foldl_nil]

/-- C144: with P2 and valid points that include the quartiles, `to_dict` returns. -/
theorem C144_p2_shown_partial (store : K → K) (c : Conf K) (hk : c.kind = .p2) (hv : Valid c.points)
    (hq : some (1 / 4) ∈ c.points ∧ some (1 / 2) ∈ c.points ∧ some (3 / 4) ∈ c.points) (evs : List (Ev K)) :
    (toDict c (run store c evs).1).isSome := by
  obtain ⟨ps, hp⟩ := Option.isSome_iff_exists.1 ((C54_accepts c.points).2 hv)
  obtain ⟨h1, h2, h3⟩ := C144_p2 store c hk ps hp evs
  obtain ⟨⟨d, hd⟩, -⟩ := P2Sink.C139_quartiles store ps (fun p hm => ((h3 p).1 hm).2)
    ((h3 _).2 ⟨hq.1, by norm_num, by norm_num⟩) ((h3 _).2 ⟨hq.2.1, by norm_num, by norm_num⟩)
    ((h3 _).2 ⟨hq.2.2, by norm_num, by norm_num⟩) (evs.map fun e => .end_ e.l e.n e.v)
  unfold toDict
  rw [hk, h1]
  simp only [hd, Option.isSome_some]

/-- C144: with P2 and points that are not valid nothing is ever counted: `to_dict` has an empty row for each logger seen. -/
theorem C144_p2_nothing (store : K → K) (c : Conf K) (hk : c.kind = .p2) (hv : ¬ Valid c.points) (evs : List (Ev K)) :
    ∃ d, toDict c (run store c evs).1 = some d ∧ ∀ l, get? d l = if ∃ e ∈ evs, e.l = l then some [] else none := by
  have hp : processPoints c.points = none := by
    cases hp : processPoints c.points with
    | none => rfl
    | some ps => exact absurd ((C54_accepts c.points).1 (by rw [hp]; rfl)) hv
  have ht : ∀ l, get? (run store c evs).1.p2 l = if ∃ e ∈ evs, e.l = l then some [] else none := by
    induction evs using List.reverseRecOn with
    | nil => intro l; simp [run, get?]
    | append_singleton evs e ih =>
      intro l
      rw [run_snoc]
      simp only [onEnd, hk, hp, get?_upd, id]
      by_cases hl : e.l = l
      · subst hl
        rw [if_pos rfl, ih, if_pos (c := ∃ x ∈ evs ++ [e], x.l = e.l) ⟨e, by simp, rfl⟩]
        split <;> rfl
      · rw [if_neg hl, ih]
        refine if_congr ?_ rfl rfl
        simp [hl]
  have hnd : (keys (run store c evs).1.p2).Nodup := by
    clear ht
    induction evs using List.reverseRecOn with
    | nil => simp [run, keys]
    | append_singleton evs e ih =>
      rw [run_snoc]
      simp only [onEnd, hk, hp]
      exact nodup_set ih _ _
  have key : ∀ t : P2Sink.Table K, (∀ p ∈ t, p.2 = []) →
      (P2Sink.toDict t).1 = .ok (t.map fun p => (p.1, [])) := by
    intro t
    induction t with
    | nil => intro _; rfl
    | cons p t ih =>
      obtain ⟨k, a⟩ := p
      intro h
      have ha : a = [] := h (k, a) (by simp)
      subst ha
      unfold P2Sink.toDict at ih ⊢
      simp only [P2Sink.mapAcc]
      rw [show P2Sink.mapAcc (P2Sink.mapAcc P2Sink.entry) t =
        (.ok (t.map fun p => (p.1, [])), (P2Sink.mapAcc (P2Sink.mapAcc P2Sink.entry) t).2) from
          Prod.ext (ih fun p hp => h p (by simp [hp])) rfl]
      rfl
  have hget : ∀ (t : P2Sink.Table K) l, get? (t.map fun p => (p.1, ([] : Dict String (Nat × K × List (K × Accum.Ext K))))) l =
      (get? t l).map fun _ => [] := by
    intro t l
    induction t with
    | nil => rfl
    | cons p t ih =>
      simp only [List.map_cons, get?]
      split
      · rfl
      · exact ih
  have hd := key (run store c evs).1.p2 fun p hm => by
    have := get?_of_mem hnd (k := p.1) (v := p.2) hm
    rw [ht] at this
    split at this
    · exact (Option.some.inj this).symm
    · cases this
  refine ⟨(run store c evs).1.p2.map fun p => (p.1, []), by unfold toDict; rw [hk]; simp only [hd], fun l => ?_⟩
  rw [hget, ht]
  split <;> rfl

/-! ## Examples and counterexamples -/

example : make (K := ℚ) {} = some ⟨.reservoir, QP_PRAG.map some⟩ ∧ (make (K := ℚ) { others := ["points"] }) = none ∧
    make (K := ℚ) { getter := some false } = none ∧
    make (K := ℚ) { useP2 := true, qPoints := some (some [some (1 / 2)]) } = some ⟨.p2, [some (1 / 2)]⟩ := ⟨rfl, rfl, rfl, rfl⟩

omit [FloorRing K] in
theorem prag_inside : Inside (K := K) (QP_PRAG.map some) := by
  intro p hp
  simp only [QP_PRAG, List.map_cons, List.map_nil, List.mem_cons, List.not_mem_nil, or_false] at hp
  rcases hp with rfl | rfl | rfl | rfl | rfl | rfl | rfl | rfl <;> exact ⟨_, rfl, by norm_num, by norm_num⟩

/-- C144: with the default points the sink takes every event and `to_dict` returns, with either class. -/
theorem C144_default (store : K → K) (a : Args K) (hq : a.qPoints = none) (c : Conf K) (hc : make a = some c) (evs : List (Ev K)) :
    (run store c evs).2 = List.replicate evs.length false ∧ (toDict c (run store c evs).1).isSome := by
  have hp : c.points = QP_PRAG.map some := ((C144_made a).2 c hc).2.2.2 (.inl hq)
  have hv : Valid c.points := by
    rw [hp]
    refine ⟨fun p hm => ?_, 1 / 2, ?_, by norm_num, by norm_num⟩
    · obtain ⟨x, rfl, h0, h1⟩ := prag_inside p hm
      exact ⟨x, rfl, h0.le, h1.le⟩
    · refine List.mem_map_of_mem ?_
      norm_num [QP_PRAG]
  refine ⟨(C144_takes store c evs).1 (.inr hv), ?_⟩
  cases hk : c.kind with
  | reservoir => exact (C144_reservoir_partial store c hk evs).2 (.inr (by rw [hp]; exact prag_inside))
  | p2 =>
    refine C144_p2_shown_partial store c hk hv ?_ evs
    rw [hp]
    refine ⟨List.mem_map_of_mem ?_, List.mem_map_of_mem ?_, List.mem_map_of_mem ?_⟩ <;> norm_num [QP_PRAG]

/-- C144 fails: points may include 1, which P2 leaves out, but with the default accumulators, once there is any event, `to_dict` raises;
and with P2 and a point above 1 every event raises, although making the sink did not. -/
theorem C144_violated : ¬ Usable ∧
    (∀ (evs : List (Ev ℚ)), evs ≠ [] →
      ∃ c, make (K := ℚ) { qPoints := some (some [some (1 / 2), some 1]) } = some c ∧ toDict c (run id c evs).1 = none) ∧
    ∀ (evs : List (Ev ℚ)), ∃ c, make (K := ℚ) { useP2 := true, qPoints := some (some [some (1 / 2), some 95]) } = some c ∧
      (run id c evs).2 = List.replicate evs.length true := by
  have h1 : ∀ (evs : List (Ev ℚ)), evs ≠ [] →
      ∃ c, make (K := ℚ) { qPoints := some (some [some (1 / 2), some 1]) } = some c ∧ toDict c (run id c evs).1 = none := by
    intro evs hne
    refine ⟨⟨.reservoir, [some (1 / 2), some 1]⟩, rfl, ?_⟩
    rw [← Option.not_isSome_iff_eq_none, C144_reservoir_partial _ _ rfl]
    rintro (h | h)
    · exact hne h
    · obtain ⟨x, hx, -, h⟩ := h (some (1 : ℚ)) (by simp)
      cases hx
      norm_num at h
  refine ⟨fun h => ?_, h1, fun evs => ⟨⟨.p2, [some (1 / 2), some 95]⟩, rfl, ?_⟩⟩
  · obtain ⟨c, hc, hn⟩ := h1 [(⟨"app", "load", 3⟩ : Ev ℚ)] (by simp)
    have := (h ℚ id _ c hc [(⟨"app", "load", 3⟩ : Ev ℚ)]).2
    rw [hn] at this
    cases this
  · refine (C144_takes id _ evs).2 rfl ?_
    rintro ⟨h, -⟩
    obtain ⟨x, hx, -, h⟩ := h (some (95 : ℚ)) (by simp)
    cases hx
    norm_num at h

end Verif.MakeSink
