import Verif.Props.Rates
import Verif.Props.Quantile
import Verif.Model.Getters
/-!
# C58-C60, C71: counters, quantile tables, moving averages and rates by label
-/
namespace Verif.Sinks

open Verif.Dct

variable {K : Type} [Field K] [LinearOrder K] [IsStrictOrderedRing K]

/-! ## C59: QuantileSink -/

section Quant

variable {E A R : Type} (lg nm : E → String) (mk : A) (ad : A → E → A)

theorem cell2_onEnd (m : Dict String (Dict String A)) (e : E) (l n : String) :
    ((get? (onEnd2 lg nm mk ad m e) l).bind fun d => get? d n) =
      if lg e = l ∧ nm e = n then some (ad (((get? m l).bind fun d => get? d n).getD mk) e)
      else (get? m l).bind fun d => get? d n := by
  unfold onEnd2
  rw [get?_upd]
  by_cases h1 : lg e = l
  · subst h1
    rw [if_pos rfl, Option.bind_some, get?_upd]
    have hg : ∀ n, get? ((get? m (lg e)).getD []) n = (get? m (lg e)).bind fun d2 => get? d2 n := by
      intro n; cases get? m (lg e) <;> rfl
    by_cases h2 : nm e = n
    · subst h2; simp [hg]
    · simp [h2, hg]
  · simp [h1]

theorem cell2_run (evs : List E) (l n : String) :
    ((get? (evs.foldl (onEnd2 lg nm mk ad) []) l).bind fun d => get? d n) =
      if ∃ e ∈ evs, lg e = l ∧ nm e = n then
        some ((evs.filter fun e => decide (lg e = l ∧ nm e = n)).foldl ad mk) else none := by
  induction evs using List.reverseRecOn with
  | nil => simp [get?]
  | append_singleton evs e ih =>
    rw [List.foldl_append, List.foldl_cons, List.foldl_nil, cell2_onEnd, ih, List.filter_append]
    by_cases h : lg e = l ∧ nm e = n
    · have hex : ∃ x ∈ evs ++ [e], lg x = l ∧ nm x = n := ⟨e, by simp, h⟩
      rw [if_pos h, if_pos hex, List.filter_cons_of_pos (by simpa using h), List.filter_nil, List.foldl_append]
      by_cases hx : ∃ e ∈ evs, lg e = l ∧ nm e = n
      · rw [if_pos hx]; rfl
      · rw [if_neg hx, List.filter_eq_nil_iff.2]; · rfl
        intro x hm hc; exact hx ⟨x, hm, by simpa using hc⟩
    · rw [if_neg h, List.filter_cons_of_neg (by simpa using h), List.filter_nil, List.append_nil]
      congr 1
      simp only [List.mem_append, List.mem_singleton, or_and_right, exists_or, exists_eq_left, h, or_false]

theorem logger2_run (evs : List E) (l : String) :
    (get? (evs.foldl (onEnd2 lg nm mk ad) []) l).isSome ↔ ∃ e ∈ evs, lg e = l := by
  induction evs using List.reverseRecOn with
  | nil => simp [get?]
  | append_singleton evs e ih =>
    rw [List.foldl_append, List.foldl_cons, List.foldl_nil]
    have : get? (onEnd2 lg nm mk ad (evs.foldl (onEnd2 lg nm mk ad) []) e) l =
        if lg e = l then some (upd ((get? (evs.foldl (onEnd2 lg nm mk ad) []) (lg e)).getD []) (nm e) mk fun a => ad a e)
        else get? (evs.foldl (onEnd2 lg nm mk ad) []) l := by
      conv_lhs => unfold onEnd2
      rw [get?_upd]
      rfl
    rw [this]
    simp only [List.mem_append, List.mem_singleton, or_and_right, exists_or, exists_eq_left]
    by_cases h : lg e = l
    · simp [h]
    · rw [if_neg h, ih]; simp [h]

theorem mapDict_cons {α β : Type} (f : α → Option β) (p : String × α) (d : Dict String α) :
    mapDict f (p :: d) = (f p.2).bind fun b => (mapDict f d).map fun r => (p.1, b) :: r := by
  unfold mapDict
  rw [List.mapM_cons]
  cases f p.2 with
  | none => rfl
  | some b =>
    cases hd : d.mapM fun q => (f q.2).map fun x => (q.1, x) <;> rfl

theorem get?_mapM {α β : Type} (f : α → Option β) (d : Dict String α) (r : Dict String β)
    (h : mapDict f d = some r) (k : String) : get? r k = (get? d k).bind f := by
  induction d generalizing r with
  | nil => cases h; rfl
  | cons p d ih =>
    rw [mapDict_cons] at h
    cases hp : f p.2 with
    | none => simp [hp] at h
    | some b =>
      cases hd : mapDict f d with
      | none => simp [hp, hd] at h
      | some r' =>
        simp only [hp, hd, Option.bind_some, Option.map_some, Option.some.injEq] at h
        subst h
        obtain ⟨a, x⟩ := p
        simp only [get?]
        by_cases hk : a = k
        · simp only [if_pos hk, Option.bind_some]; exact hp.symm
        · simp only [if_neg hk]; exact ih _ hd

theorem mapM_ok {α β : Type} (f : α → Option β) (d : Dict String α) (h : ∀ p ∈ d, (f p.2).isSome) :
    ∃ r, mapDict f d = some r := by
  induction d with
  | nil => exact ⟨[], rfl⟩
  | cons p d ih =>
    obtain ⟨r, hr⟩ := ih fun q hq => h q (List.mem_cons_of_mem _ hq)
    obtain ⟨b, hb⟩ := Option.isSome_iff_exists.1 (h p List.mem_cons_self)
    exact ⟨(p.1, b) :: r, by rw [mapDict_cons, hb, hr]; rfl⟩

/-- C59: `to_dict` has exactly the (logger name, action name) pairs seen, and the entry of a pair is made from an accumulator
that was given exactly the pair's events, in order. -/
theorem C59_routing (evs : List E) (out : A → Option R) (t : Dict String (Dict String R))
    (ht : toDict2 out (evs.foldl (onEnd2 lg nm mk ad) []) = some t) (l n : String) :
    ((get? t l).isSome ↔ ∃ e ∈ evs, lg e = l) ∧
    ((get? t l).bind fun d => get? d n) =
      if ∃ e ∈ evs, lg e = l ∧ nm e = n then
        out ((evs.filter fun e => decide (lg e = l ∧ nm e = n)).foldl ad mk) else none := by
  have h1 := get?_mapM (mapDict out) _ t ht l
  have h2 := cell2_run lg nm mk ad evs l n
  rw [← logger2_run lg nm mk ad evs l]
  cases hg : get? (evs.foldl (onEnd2 lg nm mk ad) []) l with
  | none =>
    rw [hg] at h1 h2
    simp only [Option.bind_none] at h1 h2
    rw [h1]
    refine ⟨by simp, ?_⟩
    split at h2
    · cases h2
    · rename_i hn; rw [if_neg hn]; rfl
  | some d =>
    rw [hg] at h1 h2
    simp only [Option.bind_some] at h1 h2
    have hm : (mapDict out d).isSome := by
      by_contra hc
      have hmem := mem_of_get? hg
      clear h1 h2 hg
      unfold toDict2 at ht
      revert ht hmem
      generalize evs.foldl (onEnd2 lg nm mk ad) [] = m
      intro ht hmem
      induction m generalizing t with
      | nil => simp at hmem
      | cons p m ih =>
        rw [mapDict_cons] at ht
        cases hp : mapDict out p.2 with
        | none => simp [hp] at ht
        | some b =>
          cases hd : mapDict (mapDict out) m with
          | none => simp [hd, hp] at ht
          | some t' =>
            rcases List.mem_cons.1 hmem with rfl | hmem
            · rw [hp] at hc; simp at hc
            · exact ih t' hd hmem
    obtain ⟨r, hr⟩ := Option.isSome_iff_exists.1 hm
    rw [h1, hr, Option.bind_some]
    refine ⟨by simp, ?_⟩
    rw [get?_mapM out d r hr n, h2]
    split <;> rfl

theorem wf2_run (evs : List E) : ∀ p ∈ evs.foldl (onEnd2 lg nm mk ad) [], ∀ q ∈ p.2, ∃ es : List E, es ≠ [] ∧
    q.2 = es.foldl ad mk := by
  intro p hp q hq
  -- keys are distinct at both levels, so the cell is found by lookup
  have hk : (keys (evs.foldl (onEnd2 lg nm mk ad) [])).Nodup ∧
      ∀ l d, get? (evs.foldl (onEnd2 lg nm mk ad) []) l = some d → (keys d).Nodup := by
    clear hp hq
    induction evs using List.reverseRecOn with
    | nil => exact ⟨by simp [keys], by simp [get?]⟩
    | append_singleton evs e ih =>
      rw [List.foldl_append, List.foldl_cons, List.foldl_nil]
      refine ⟨nodup_set ih.1 _ _, ?_⟩
      intro l d hd
      conv at hd => lhs; unfold onEnd2
      rw [get?_upd] at hd
      split at hd
      · cases hd
        refine nodup_set ?_ _ _
        cases hg : get? (evs.foldl (onEnd2 lg nm mk ad) []) (lg e) with
        | none => unfold onEnd2 at hg; rw [hg]; simp [keys]
        | some d' => have := ih.2 _ _ hg; unfold onEnd2 at hg; rw [hg]; exact this
      · exact ih.2 _ _ hd
  have h1 := get?_of_mem hk.1 (k := p.1) (v := p.2) hp
  have h2 := get?_of_mem (hk.2 _ _ h1) (k := q.1) (v := q.2) hq
  have h3 := cell2_run lg nm mk ad evs p.1 q.1
  rw [h1, Option.bind_some, h2] at h3
  split at h3
  · rename_i hex
    refine ⟨_, ?_, Option.some.inj h3⟩
    obtain ⟨e, he, h⟩ := hex
    exact List.ne_nil_of_mem (List.mem_filter.2 ⟨he, by simpa using h⟩)
  · cases h3

/-- C59: `to_dict` does not raise, if no accumulator that was given at least one event does. -/
theorem C59_no_raise (evs : List E) (out : A → Option R) (h : ∀ es : List E, es ≠ [] → (out (es.foldl ad mk)).isSome) :
    ∃ t, toDict2 out (evs.foldl (onEnd2 lg nm mk ad) []) = some t := by
  unfold toDict2
  refine mapM_ok (mapDict out) _ fun p hp => ?_
  obtain ⟨r, hr⟩ := mapM_ok out p.2 fun q hq => by
    obtain ⟨es, h1, h2⟩ := wf2_run lg nm mk ad evs p hp q hq
    rw [h2]; exact h es h1
  rw [hr]; rfl

end Quant

section Reservoir

variable [FloorRing K] {E : Type}

theorem run_map (store : K → K) (value : E → K) (rnd : E → Nat) (es : List E) :
    es.foldl (fun r e => Quant.step store r (.add (value e) (rnd e))) (Quant.resInit none) =
      Quant.run store none (es.map fun e => .add (value e) (rnd e)) ∧
    Quant.added (es.map fun e => Quant.Op.add (value e) (rnd e)) = es.map value := by
  constructor
  · unfold Quant.run; rw [List.foldl_map]
  · induction es with
    | nil => rfl
    | cons e es ih => simp [Quant.added, ih]

/-- C59: a `QuantileSink` with the default accumulators never fails to make its table, for quantile points strictly between 0
and 1, and each entry has the count, the trimean and the quantiles of the durations of the events of its pair. -/
theorem C59_reservoir (store : K → K) (lg nm : E → String) (value : E → K) (rnd : E → Nat) (qs : List K)
    (hq : ∀ q ∈ qs, 0 < q ∧ q < 1) (evs : List E) :
    ∃ t, quantDict qs (evs.foldl (onEnd2 lg nm (Quant.resInit none)
        (fun r e => Quant.step store r (.add (value e) (rnd e)))) []) = some t ∧
      ∀ l n, (∃ e ∈ evs, lg e = l ∧ nm e = n) → ∃ d c tri q, get? t l = some d ∧ get? d n = some (c, tri, q) ∧
        c = evs.countP (fun e => decide (lg e = l ∧ nm e = n)) ∧
        Quant.trimean (Quant.run store none ((evs.filter fun e => decide (lg e = l ∧ nm e = n)).map
          fun e => .add (value e) (rnd e))) = .ok tri ∧
        Quant.getQuantiles (Quant.run store none ((evs.filter fun e => decide (lg e = l ∧ nm e = n)).map
          fun e => .add (value e) (rnd e))) qs = .ok q := by
  have hok : ∀ es : List E, es ≠ [] →
      ∃ tri q, quantEntry qs (es.foldl (fun r e => Quant.step store r (.add (value e) (rnd e))) (Quant.resInit none)) =
        some (es.length, tri, q) ∧
        Quant.trimean (Quant.run store none (es.map fun e => .add (value e) (rnd e))) = .ok tri ∧
        Quant.getQuantiles (Quant.run store none (es.map fun e => .add (value e) (rnd e))) qs = .ok q := by
    intro es hne
    obtain ⟨h1, h2⟩ := run_map store value rnd es
    rw [h1]
    have hne' : Quant.added (es.map fun e => Quant.Op.add (value e) (rnd e)) ≠ [] := by rw [h2]; simpa using hne
    obtain ⟨vs, _, h3⟩ := Quant.C50_get_quantiles store _ hne' qs hq
    obtain ⟨a, b, c, _, _, _, _, _, _, _, _, h4, _⟩ := Quant.C50_iqr_trimean store _ hne'
    have h5 := (Quant.C50_count_min_max store (es.map fun e => Quant.Op.add (value e) (rnd e))).1
    obtain ⟨q, hq'⟩ : ∃ q, Quant.getQuantiles (Quant.run store none (es.map fun e => .add (value e) (rnd e))) qs = .ok q :=
      ⟨_, h3⟩
    refine ⟨(a + 2 * b + c) / 4, q, ?_, h4, hq'⟩
    unfold quantEntry
    rw [h4, hq', h5, h2, List.length_map]
  obtain ⟨t, ht⟩ := C59_no_raise lg nm (Quant.resInit none) (fun r e => Quant.step store r (.add (value e) (rnd e))) evs
    (quantEntry qs) (fun es h => by obtain ⟨tri, q, h, _⟩ := hok es h; rw [h]; rfl)
  refine ⟨t, ht, fun l n hex => ?_⟩
  have h := (C59_routing lg nm _ _ evs (quantEntry qs) t ht l n).2
  rw [if_pos hex] at h
  obtain ⟨tri, q, h1, htri, hqs⟩ := hok (evs.filter fun e => decide (lg e = l ∧ nm e = n)) (by
    obtain ⟨e, he, h⟩ := hex
    exact List.ne_nil_of_mem (List.mem_filter.2 ⟨he, by simpa using h⟩))
  rw [h1] at h
  cases hg : get? t l with
  | none => rw [hg] at h; simp at h
  | some d =>
    rw [hg, Option.bind_some] at h
    exact ⟨d, _, tri, q, rfl, h, by rw [List.countP_eq_length_filter], htri, hqs⟩

end Reservoir

example : ∃ t d c tri q, toDict2 (quantEntry [(1 / 2 : ℚ)]) ([("app", "load", (3 : ℚ)), ("app", "load", 5), ("db", "load", 1)].foldl
      (onEnd2 (·.1) (·.2.1) (Quant.resInit none) (fun r e => Quant.step id r (.add e.2.2 0))) []) = some t ∧
    get? t "app" = some d ∧ get? d "load" = some (c, tri, q) ∧ c = 2 := by
  obtain ⟨t, h1, h2⟩ := C59_reservoir (K := ℚ) id (fun e : String × String × ℚ => e.1) (fun e => e.2.1) (fun e => e.2.2)
    (fun _ => 0) [1 / 2] (by intro q hq; simp at hq; subst hq; norm_num)
    [("app", "load", (3 : ℚ)), ("app", "load", 5), ("db", "load", 1)]
  obtain ⟨d, c, tri, q, h3, h4, h5, _⟩ := h2 "app" "load" ⟨("app", "load", 3), by simp, rfl, rfl⟩
  exact ⟨t, d, c, tri, q, h1, h3, h4, by simpa using h5⟩

/-! ## C58: CounterSink -/

section Counter

variable {L E : Type} [DecidableEq L] (b : Nat) (lg : E → L) (key : E → String)

theorem tcAdd_total (c : TCounter) (k : String) : (tcAdd c k).total = c.total + 1 := by
  unfold tcAdd; dsimp only; split <;> rfl

theorem tc_foldl_total (es : List E) (c : TCounter) : (es.foldl (fun c e => tcAdd c (key e)) c).total = c.total + es.length := by
  induction es generalizing c with
  | nil => rfl
  | cons e es ih => rw [List.foldl_cons, ih, tcAdd_total, List.length_cons]; omega

theorem keys_filter {α β : Type} (d : Dict α β) (p : α × β → Bool) : (keys (d.filter p)).Sublist (keys d) :=
  List.filter_sublist.map _

theorem tc_foldl_nodup (es : List E) (c : TCounter) (h : (keys c.counts).Nodup) :
    (keys (es.foldl (fun c e => tcAdd c (key e)) c).counts).Nodup := by
  induction es generalizing c with
  | nil => exact h
  | cons e es ih =>
    rw [List.foldl_cons]
    refine ih _ ?_
    unfold tcAdd; dsimp only
    split
    · exact (nodup_set h _ _).sublist (keys_filter _ _)
    · exact nodup_set h _ _

theorem counter_run (evs : List E) (l : L) :
    get? (evs.foldl (counterOnEnd b lg key) []) l =
      if ∃ e ∈ evs, lg e = l then
        some ((evs.filter fun e => decide (lg e = l)).foldl (fun c e => tcAdd c (key e)) (tcInit b)) else none := by
  induction evs using List.reverseRecOn with
  | nil => simp [get?]
  | append_singleton evs e ih =>
    have h0 : get? (counterOnEnd b lg key (evs.foldl (counterOnEnd b lg key) []) e) l =
        if lg e = l then some (tcAdd ((get? (evs.foldl (counterOnEnd b lg key) []) (lg e)).getD (tcInit b)) (key e))
        else get? (evs.foldl (counterOnEnd b lg key) []) l := by
      conv_lhs => unfold counterOnEnd
      rw [get?_upd]; rfl
    rw [List.foldl_append, List.foldl_cons, List.foldl_nil, h0, List.filter_append]
    by_cases h : lg e = l
    · have hex : ∃ x ∈ evs ++ [e], lg x = l := ⟨e, by simp, h⟩
      rw [if_pos h, if_pos hex, List.filter_cons_of_pos (by simpa using h), List.filter_nil, List.foldl_append, h, ih]
      by_cases hx : ∃ e ∈ evs, lg e = l
      · rw [if_pos hx]; rfl
      · rw [if_neg hx, List.filter_eq_nil_iff.2]; · rfl
        intro x hm hc; exact hx ⟨x, hm, by simpa using hc⟩
    · rw [if_neg h, List.filter_cons_of_neg (by simpa using h), List.filter_nil, List.append_nil, ih]
      congr 1
      simp only [List.mem_append, List.mem_singleton, or_and_right, exists_or, exists_eq_left, h, or_false]

theorem counterDict_all (c : TCounter) (h : uncommon c = 0 ∨ MISSING ∉ keys c.counts) :
    get? (counterDict c) ALL = some (c.total : Int) := by
  unfold counterDict
  dsimp only
  rw [get?_set, if_pos rfl]
  congr 1
  have hv : (values (c.counts.map fun p => (p.1, (p.2.1 : Int)))).sum = (common c : Int) := by
    unfold common values
    induction c.counts with
    | nil => rfl
    | cons p d ih =>
      simp only [List.map_cons, List.sum_cons, List.map_map] at ih ⊢
      push_cast
      rw [ih]
  by_cases hu : uncommon c = 0
  · rw [if_pos hu, hv]
    unfold uncommon at hu; omega
  · rw [if_neg hu]
    have hn := h.resolve_left hu
    have h2 := sum_set (fun x : Int => x) (c.counts.map fun p => (p.1, (p.2.1 : Int))) MISSING (uncommon c)
    have h3 : get? (c.counts.map fun p => (p.1, (p.2.1 : Int))) MISSING = none := by
      rw [get?_none]
      unfold keys
      rw [List.map_map]
      exact hn
    rw [h3] at h2
    simp only [Option.elim_none, List.map_id', hv, add_zero] at h2
    rw [h2]; unfold uncommon; omega

/-- C58: a logger's total is the number of its end events, whatever the counter forgot, if no other logger has its name and no
event is keyed by the special name `__missing__`.  What is missing for the full claim: those cases. -/
theorem C58_total_partial (lname : L → String) (evs : List E) (l : L) (hl : ∃ e ∈ evs, lg e = l)
    (hu : ∀ e ∈ evs, lname (lg e) = lname l → lg e = l) (hm : ∀ e ∈ evs, key e ≠ "__missing__") :
    ∃ d, get? (counterToDict lname (evs.foldl (counterOnEnd b lg key) [])) (lname l) = some d ∧
      get? d "__all__" = some ((evs.countP fun e => decide (lg e = l) : Nat) : Int) := by
  have h1 := counter_run b lg key evs l
  rw [if_pos hl] at h1
  refine ⟨counterDict ((evs.filter fun e => decide (lg e = l)).foldl (fun c e => tcAdd c (key e)) (tcInit b)), ?_, ?_⟩
  · unfold counterToDict
    refine get?_build _ counterDict _ _ (List.mem_map.2 ⟨(l, _), mem_of_get? h1, rfl⟩) ?_
    intro p hp e
    obtain ⟨q, hq, rfl⟩ := List.mem_map.1 hp
    have hk : (keys (evs.foldl (counterOnEnd b lg key) [])).Nodup := by
      clear h1 hl hu hm hp hq
      induction evs using List.reverseRecOn with
      | nil => simp [keys]
      | append_singleton evs e ih => rw [List.foldl_append]; exact nodup_set ih _ _
    have h2 := get?_of_mem hk (k := q.1) (v := q.2) hq
    have h3 := counter_run b lg key evs q.1
    rw [h2] at h3
    by_cases hx : ∃ e ∈ evs, lg e = q.1
    · obtain ⟨ev, hev, hq1⟩ := hx
      have h4 := hu ev hev (by rw [hq1]; exact e)
      rw [← hq1, h4, h1] at h2
      exact (Option.some.inj h2).symm
    · rw [if_neg hx] at h3; cases h3
  · refine (counterDict_all _ (Or.inr ?_)).trans ?_
    · intro hc
      have : ∀ (es : List E) (c : TCounter), (∀ e ∈ es, key e ≠ MISSING) → MISSING ∉ keys c.counts →
          MISSING ∉ keys (es.foldl (fun c e => tcAdd c (key e)) c).counts := by
        intro es
        induction es with
        | nil => intro c _ h; exact h
        | cons e es ih =>
          intro c he h
          rw [List.foldl_cons]
          refine ih _ (fun x hx => he x (List.mem_cons_of_mem _ hx)) ?_
          have hn : MISSING ∉ keys (upd c.counts (key e) (0, c.bucket - 1) fun p => (p.1 + 1, p.2)) := by
            unfold upd
            rw [mem_keys_set]
            rintro (hx | hx)
            · exact he e List.mem_cons_self hx.symm
            · exact h hx
          unfold tcAdd; dsimp only
          split
          · exact fun hx => hn ((keys_filter _ _).subset hx)
          · exact hn
      exact this _ (tcInit b) (fun e he => hm e (List.mem_of_mem_filter he)) (by simp [tcInit, keys]) hc
    · rw [tc_foldl_total, List.countP_eq_length_filter]; simp [tcInit]

/-- C58: forgotten or not, counts are never invented: a tracked count is at most the number of events with that key. -/
theorem C58_counts (evs : List E) (l : L) (c : TCounter) (h : get? (evs.foldl (counterOnEnd b lg key) []) l = some c)
    (k : String) (n d : Nat) (hk : get? c.counts k = some (n, d)) :
    n ≤ evs.countP fun e => decide (lg e = l ∧ key e = k) := by
  rw [counter_run] at h
  split at h
  rotate_left
  · cases h
  cases h
  have : ∀ es : List E, (keys (es.foldl (fun c e => tcAdd c (key e)) (tcInit b)).counts).Nodup ∧
      ∀ k n d, get? (es.foldl (fun c e => tcAdd c (key e)) (tcInit b)).counts k = some (n, d) →
        n ≤ es.countP fun e => decide (key e = k) := by
    intro es
    induction es using List.reverseRecOn with
    | nil => exact ⟨by simp [tcInit, keys], by simp [tcInit, get?]⟩
    | append_singleton es e ih =>
      rw [List.foldl_append, List.foldl_cons, List.foldl_nil]
      obtain ⟨c, hc⟩ : ∃ c, c = es.foldl (fun c e => tcAdd c (key e)) (tcInit b) := ⟨_, rfl⟩
      rw [← hc] at ih ⊢
      have hu : ∀ k n d, get? (upd c.counts (key e) (0, c.bucket - 1) fun p => (p.1 + 1, p.2)) k = some (n, d) →
          n ≤ (es ++ [e]).countP fun e => decide (key e = k) := by
        intro k n d hg
        rw [get?_upd] at hg
        rw [List.countP_append, List.countP_singleton]
        split at hg
        · rename_i hk
          rw [if_pos (by simpa using hk)]
          cases hx : get? c.counts (key e) with
          | none => rw [hx] at hg; simp at hg; omega
          | some p =>
            rw [hx] at hg; simp at hg
            have := ih.2 (key e) p.1 p.2 hx
            rw [hk] at this; omega
        · have := ih.2 k n d hg; omega
      have hn := nodup_set ih.1 (key e) ((fun p : Nat × Nat => (p.1 + 1, p.2)) ((get? c.counts (key e)).getD (0, c.bucket - 1)))
      unfold tcAdd; dsimp only
      split
      · refine ⟨hn.sublist (keys_filter _ _), fun k n d hg => ?_⟩
        exact hu k n d (get?_of_mem hn (List.mem_of_mem_filter (mem_of_get? hg)))
      · exact ⟨hn, hu⟩
  have h2 := (this _).2 k n d hk
  refine h2.trans (le_of_eq ?_)
  rw [List.countP_filter]
  congr 1
  funext e
  by_cases h1 : lg e = l <;> by_cases h2 : key e = k <;> simp [h1, h2]

end Counter

example : ∃ d, get? (counterToDict (fun n : Nat => if n = 0 then "app" else "db")
      ([(0, "a"), (0, "b"), (1, "c"), (0, "d")].foldl (counterOnEnd 2 Prod.fst Prod.snd) [])) "app" = some d ∧
    get? d "__all__" = some 3 := by
  obtain ⟨d, h1, h2⟩ := C58_total_partial 2 (Prod.fst : Nat × String → Nat) Prod.snd (fun n : Nat => if n = 0 then "app" else "db")
    [(0, "a"), (0, "b"), (1, "c"), (0, "d")] 0 (by simp) (by simp) (by simp)
  exact ⟨d, by simpa using h1, by simpa using h2⟩

/-- C58 fails for an action called `__missing__`: its count is replaced by the number of forgotten events.  (Bucket size 2, a
threshold of 0.5; three events, a total of 2.) -/
theorem C58_violated_missing :
    counterToDict (fun _ : Nat => "app") ([(0, "a"), (0, "b"), (0, "__missing__")].foldl (counterOnEnd 2 Prod.fst Prod.snd) []) =
      [("app", [("__missing__", 2), ("__all__", 2)])] := by
  simp [counterOnEnd, upd, get?, Dct.set, tcAdd, tcInit, counterToDict, counterDict, uncommon, common, values, MISSING, ALL]

/-- C58 fails for loggers that share a name: only the later one is in the table. -/
theorem C58_violated_names :
    counterToDict (fun _ : Nat => "app") ([(0, "a"), (0, "a"), (1, "a")].foldl (counterOnEnd 1000 Prod.fst Prod.snd) []) =
      [("app", [("a", 1), ("__all__", 1)])] := by
  simp [counterOnEnd, upd, get?, Dct.set, tcAdd, tcInit, counterToDict, counterDict, uncommon, common, values, MISSING, ALL]

/-- Counting per logger and name. -/
example : ∃ t, toDict2 some ([("app", "a"), ("db", "a"), ("app", "a")].foldl
    (onEnd2 (fun e : String × String => e.1) (fun e => e.2) 0 (fun n _ => n + 1)) []) = some t ∧
    ((get? t "app").bind fun d => get? d "a") = some 2 := by
  obtain ⟨t, h⟩ := C59_no_raise (fun e : String × String => e.1) (fun e => e.2) 0 (fun n _ => n + 1)
    [("app", "a"), ("db", "a"), ("app", "a")] some (by simp)
  exact ⟨t, h, by rw [(C59_routing _ _ _ _ _ _ t h "app" "a").2]; decide⟩

end Verif.Sinks
