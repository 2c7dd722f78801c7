import Verif.Props.SinkValues
import Verif.Props.Getters
import Verif.Props.Lossy
import Mathlib.Tactic.ByContra
/-!
# C57, C58, C71, C121: loggers that share a name

The tables of sinks have one row for each name.  When loggers share it, the row is that of one of them: the one that was heard of
last for the first time.
-/
namespace Verif.Sinks

open Verif.Dct Verif.Accum

variable {L E : Type} [DecidableEq L]

/-- Among the loggers of its name, `l` is the one whose first event came last. -/
def Prevails (lg : E → L) (lname : L → String) (evs : List E) (l : L) : Prop :=
  (∃ e ∈ evs, lg e = l) ∧
  ∀ l', l' ≠ l → lname l' = lname l → (∃ e ∈ evs, lg e = l') →
    ∃ pre post, evs = pre ++ post ∧ (∃ e ∈ pre, lg e = l') ∧ ∀ e ∈ pre, lg e ≠ l

theorem keys_set {β : Type} (d : Dict L β) (k : L) (v : β) :
    keys (set d k v) = if k ∈ keys d then keys d else keys d ++ [k] := by
  induction d with
  | nil => simp [Dct.set, keys]
  | cons p d ih =>
    obtain ⟨a, b⟩ := p
    simp only [Dct.set]
    by_cases h : a = k
    · subst h; simp [keys]
    · rw [if_neg h]
      have hc : ∀ d' : Dict L β, keys ((a, b) :: d') = a :: keys d' := fun _ => rfl
      rw [hc, hc, ih]
      by_cases hk : k ∈ keys d
      · rw [if_pos hk, if_pos (List.mem_cons_of_mem _ hk)]
      · rw [if_neg hk, if_neg (by rw [List.mem_cons]; rintro (e | e); exacts [h e.symm, hk e])]
        rfl

/-- A table of loggers that grows by `setdefault`. -/
def Grows {β : Type} (lg : E → L) (step : Dict L β → E → Dict L β) : Prop :=
  ∀ d e, keys (step d e) = if lg e ∈ keys d then keys d else keys d ++ [lg e]

theorem grows_upd {β : Type} (lg : E → L) (init : E → β) (f : E → β → β) :
    Grows lg fun d e => upd d (lg e) (init e) (f e) := fun d e => by
  unfold upd; exact keys_set _ _ _

theorem grows_prefix {β : Type} {lg : E → L} {step : Dict L β → E → Dict L β} (h : Grows lg step) (es : List E) :
    ∀ d, keys d <+: keys (es.foldl step d) := by
  induction es with
  | nil => intro d; exact List.prefix_rfl
  | cons e es ih =>
    intro d
    refine List.IsPrefix.trans ?_ (ih (step d e))
    rw [h]; split
    · exact List.prefix_rfl
    · exact List.prefix_append _ _

theorem grows_mem {β : Type} {lg : E → L} {step : Dict L β → E → Dict L β} (h : Grows lg step) (es : List E) (l : L) :
    l ∈ keys (es.foldl step []) ↔ ∃ e ∈ es, lg e = l := by
  induction es using List.reverseRecOn with
  | nil => simp [keys]
  | append_singleton es e ih =>
    rw [List.foldl_append, List.foldl_cons, List.foldl_nil, h]
    have : (∃ x ∈ es ++ [e], lg x = l) ↔ (∃ x ∈ es, lg x = l) ∨ lg e = l := by
      simp only [List.mem_append, List.mem_singleton]
      constructor
      · rintro ⟨x, hx | rfl, h⟩
        · exact .inl ⟨x, hx, h⟩
        · exact .inr h
      · rintro (⟨x, hx, h⟩ | h)
        · exact ⟨x, .inl hx, h⟩
        · exact ⟨e, .inr rfl, h⟩
    rw [this, ← ih]
    split
    · rename_i hm
      exact ⟨.inl, fun hh => hh.elim id fun e => e ▸ hm⟩
    · simp [eq_comm]

theorem grows_nodup {β : Type} {lg : E → L} {step : Dict L β → E → Dict L β} (h : Grows lg step) (es : List E) :
    (keys (es.foldl step [])).Nodup := by
  induction es using List.reverseRecOn with
  | nil => simp [keys]
  | append_singleton es e ih =>
    rw [List.foldl_append, List.foldl_cons, List.foldl_nil, h]
    split
    · exact ih
    · rename_i hn
      exact List.nodup_append.2 ⟨ih, by simp, by simp; rintro a ha rfl; exact hn ha⟩

theorem key_mem {β : Type} {d : Dict L β} {p : L × β} (h : p ∈ d) : p.1 ∈ keys d := List.mem_map_of_mem h

/-- The place of the logger that prevails: none of its name comes after it. -/
theorem prevails_split {β : Type} {lg : E → L} {step : Dict L β → E → Dict L β} (h : Grows lg step) {lname : L → String}
    {evs : List E} {l : L} (hp : Prevails lg lname evs l) :
    ∃ m1 m2 v, evs.foldl step [] = m1 ++ (l, v) :: m2 ∧ ∀ p ∈ m2, lname p.1 ≠ lname l := by
  obtain ⟨⟨b, v⟩, hb, rfl⟩ := List.mem_map.1 ((grows_mem h evs l).2 hp.1)
  obtain ⟨m1, m2, hm⟩ := List.append_of_mem hb
  refine ⟨m1, m2, v, hm, fun p hpm hn => ?_⟩
  have hnd := grows_nodup h evs
  rw [hm] at hnd
  simp only [keys, List.map_append, List.map_cons] at hnd
  have hnd2 := (List.nodup_append.1 hnd)
  have hne : p.1 ≠ b := by
    rintro e
    exact (List.nodup_cons.1 hnd2.2.1).1 (e ▸ List.mem_map_of_mem hpm)
  have hin : p.1 ∈ keys (evs.foldl step []) := by
    rw [hm]; exact key_mem (by simp [hpm])
  obtain ⟨pre, post, he, hx, hno⟩ := hp.2 p.1 hne hn ((grows_mem h evs p.1).1 hin)
  have hpre := grows_prefix h post (pre.foldl step [])
  rw [← List.foldl_append, ← he, hm] at hpre
  simp only [keys, List.map_append, List.map_cons] at hpre
  obtain ⟨r, hr⟩ := hpre
  have h1 : p.1 ∈ keys (pre.foldl step []) := (grows_mem h pre p.1).2 hx
  have h2 : b ∉ keys (pre.foldl step []) := fun hh => by
    obtain ⟨e, he, hl⟩ := (grows_mem h pre b).1 hh
    exact hno e he hl
  simp only [keys] at h1 h2
  have h3 : p.1 ∈ List.map Prod.fst m1 := by
    rcases List.append_eq_append_iff.1 hr with ⟨a, e1, e2⟩ | ⟨a, e1, e2⟩
    · rw [e1]; simp only [List.mem_append]; exact .inl h1
    · cases a with
      | nil => rw [List.append_nil] at e1; rw [← e1]; exact h1
      | cons x a =>
        simp only [List.cons_append, List.cons.injEq] at e2
        exfalso; apply h2
        rw [e1, e2.1]; simp
  exact hnd2.2.2 p.1 h3 p.1 (by simp only [List.mem_cons]; exact .inr (List.mem_map_of_mem hpm)) rfl

/-- For every name heard of there is a logger that prevails, and only one. -/
theorem C57_prevails (lg : E → L) (lname : L → String) (evs : List E) (e : E) (he : e ∈ evs) :
    ∃! l, lname l = lname (lg e) ∧ Prevails lg lname evs l := by
  refine existsUnique_of_exists_of_unique ?_ ?_
  · induction evs using List.reverseRecOn generalizing e with
    | nil => cases he
    | append_singleton evs x ih =>
      have later : ∀ l, lname l = lname (lg e) → Prevails lg lname evs l →
          (∀ l', l' ≠ l → lname l' = lname l → (∃ z ∈ evs ++ [x], lg z = l') → ∃ z ∈ evs, lg z = l') →
          ∃ l, lname l = lname (lg e) ∧ Prevails lg lname (evs ++ [x]) l := by
        intro l h1 ⟨h2, h3⟩ h4
        refine ⟨l, h1, h2.imp fun z hz => ⟨by simp [hz.1], hz.2⟩, fun l' hl hn hh => ?_⟩
        obtain ⟨pre, post, e1, e2, e3⟩ := h3 l' hl hn (h4 l' hl hn hh)
        exact ⟨pre, post ++ [x], by rw [e1, List.append_assoc], e2, e3⟩
      by_cases hx : ∃ y ∈ evs, lg y = lg x
      · have old : ∀ z ∈ evs ++ [x], ∃ y ∈ evs, lg y = lg z := by
          intro z hz
          rcases List.mem_append.1 hz with h | h
          · exact ⟨z, h, rfl⟩
          · rw [List.mem_singleton.1 h]; exact hx
        obtain ⟨y, hy, hye⟩ := old e he
        obtain ⟨l, h1, h2⟩ := ih y hy
        exact later l (by rw [h1, hye]) h2 fun l' _ _ ⟨z, hz, hl⟩ => hl ▸ old z hz
      · by_cases hn : lname (lg x) = lname (lg e)
        · refine ⟨lg x, hn, ⟨x, by simp, rfl⟩, fun l' hl _ hh => ⟨evs, [x], rfl, ?_, fun z hz hc => hx ⟨z, hz, hc⟩⟩⟩
          obtain ⟨z, hz, rfl⟩ := hh
          rcases List.mem_append.1 hz with h | h
          · exact ⟨z, h, rfl⟩
          · rw [List.mem_singleton.1 h] at hl; exact absurd rfl hl
        · have hee : e ∈ evs := by
            rcases List.mem_append.1 he with h | h
            · exact h
            · rw [List.mem_singleton.1 h] at hn; exact absurd rfl hn
          obtain ⟨l, h1, h2⟩ := ih e hee
          refine later l h1 h2 ?_
          rintro l' hl hnn ⟨z, hz, rfl⟩
          rcases List.mem_append.1 hz with h | h
          · exact ⟨z, h, rfl⟩
          · rw [List.mem_singleton.1 h, h1] at hnn; exact absurd hnn hn
  · rintro l l' ⟨hl, hp⟩ ⟨hl', hp'⟩
    by_contra hne
    obtain ⟨p, q, e1, ⟨x, hx, ex⟩, n1⟩ := hp.2 l' (Ne.symm hne) (by rw [hl, hl']) hp'.1
    obtain ⟨p', q', e2, ⟨y, hy, ey⟩, n2⟩ := hp'.2 l hne (by rw [hl, hl']) hp.1
    rw [e1] at e2
    rcases List.append_eq_append_iff.1 e2 with ⟨a, h1, -⟩ | ⟨a, h1, -⟩
    · exact n2 x (by rw [h1]; simp [hx]) ex
    · exact n1 y (by rw [h1]; simp [hy]) ey

/-! ## The rows -/

section Rows

variable {A V : Type} [AddCommMonoid V]

theorem get?_build_last {β γ : Type} (items1 items2 : List (String × γ)) (g : γ → β) (k : String) (v : γ)
    (h : ∀ p ∈ items2, p.1 ≠ k) :
    get? ((items1 ++ (k, v) :: items2).foldl (fun d p => set d p.1 (g p.2)) []) k = some (g v) := by
  rw [get?_foldl_set]
  have : (items1 ++ (k, v) :: items2).reverse.find? (fun p => decide (p.1 = k)) = some (k, v) := by
    rw [List.reverse_append, List.reverse_cons, List.find?_append, List.find?_append]
    have : items2.reverse.find? (fun p => decide (p.1 = k)) = none := by
      rw [List.find?_eq_none]
      intro p hp
      simpa using h p (List.mem_reverse.1 hp)
    rw [this]
    simp
  rw [this]

theorem agg1_last (lname : L → String) (val : A → V) {m1 m2 : Map3 L A} {l : L} {d2 : Dict String (Dict String A)}
    (ha : lname l ≠ ALL) (h : ∀ p ∈ m2, lname p.1 ≠ lname l) :
    get? (agg1 lname val (m1 ++ (l, d2) :: m2)) (lname l) = some (.inr (agg2 val d2)) := by
  unfold agg1
  rw [get?_set, if_neg (Ne.symm ha), List.map_append, List.map_cons]
  refine get?_build_last _ _ (fun d => Sum.inr (agg2 val d)) _ d2 ?_
  intro p hp
  obtain ⟨q, hq, rfl⟩ := List.mem_map.1 hp
  exact h q hq

/-- A logger's own name. -/
def own (l : L) : L → String := fun l' => if l' = l then "own" else "other"

theorem own_unique {l l' : L} (h : own l l' = own l l) : l' = l := by
  by_contra hn
  simp [own, hn] at h

/-- The row of a name is the one its prevailing logger would have if it had a name of its own. -/
theorem agg1_row {lg : E → L} {step : Map3 L A → E → Map3 L A} (h : Grows lg step) (lname : L → String) (val : A → V)
    {evs : List E} {l : L} (hp : Prevails lg lname evs l) (ha : lname l ≠ "__all__") :
    get? (agg1 lname val (evs.foldl step [])) (lname l) = get? (agg1 (own l) val (evs.foldl step [])) (own l l) := by
  obtain ⟨m1, m2, d2, hm, hn⟩ := prevails_split h hp
  have hnd := grows_nodup h evs
  rw [hm] at hnd ⊢
  rw [agg1_last lname val ha hn, agg1_last (own l) val (by simp [own, ALL])]
  intro p hpm e
  have := own_unique e
  simp only [keys, List.map_append, List.map_cons] at hnd
  have hnd2 := (List.nodup_append.1 hnd).2.1
  exact (List.nodup_cons.1 hnd2).1 (this ▸ List.mem_map_of_mem hpm)

theorem grows_onEnd (lg : E → L) (nm st : E → String) (mk : E → A) (ad : A → E → A) : Grows lg (onEnd lg nm st mk ad) :=
  grows_upd lg (fun _ => []) fun e d2 => upd d2 (nm e) [] fun d3 => upd d3 (st e) (mk e) fun a => ad a e

end Rows

variable {K : Type} [Field K] [LinearOrder K] [IsStrictOrderedRing K]

/-- C57, also for loggers that share a name: the row of a name counts exactly the events of the logger that prevails; those of the
others of that name are in the grand total only. -/
theorem C57_rows (lname : L → String) (size : Option Nat) (evs : List (Ev L K)) (l : L)
    (hl : Prevails Ev.logger lname evs l) (ha : lname l ≠ "__all__") :
    ∃ d2, get? (totalCounts lname (evs.foldl (rateOnEnd size) [])) (lname l) = some (.inr d2) ∧
      get? d2 "__all__" = some (.inl (evs.countP fun e => decide (e.logger = l))) ∧
      ∀ n, n ≠ "__all__" →
        ((¬ ∃ e ∈ evs, e.logger = l ∧ e.name = n) → get? d2 n = none) ∧
        ((∃ e ∈ evs, e.logger = l ∧ e.name = n) → ∃ d3, get? d2 n = some (.inr d3) ∧
          get? d3 "__all__" = some (evs.countP fun e => decide (e.logger = l ∧ e.name = n)) ∧
          ∀ s, s ≠ "__all__" → get? d3 s =
            if ∃ e ∈ evs, e.logger = l ∧ e.name = n ∧ e.status = s then
              some (evs.countP fun e => decide (e.logger = l ∧ e.name = n ∧ e.status = s)) else none) := by
  unfold totalCounts
  rw [agg1_row (step := rateOnEnd size) (grows_onEnd Ev.logger Ev.name Ev.status _ _) lname RateAcc.total hl ha]
  exact C57_cells_partial (own l) size evs l hl.1 (by simp [own]) fun e _ h => own_unique h

/-- C121, also for loggers that share a name. -/
theorem C121_rate_rows (lname : L → String) (size : Option Nat) (evs : List (TryEv L K K)) (l : L)
    (hl : Prevails TryEv.logger lname evs l) (ha : lname l ≠ "__all__") :
    ∃ d2, get? (totalCounts lname (evs.foldl (rateTry size) [])) (lname l) = some (.inr d2) ∧
      get? d2 "__all__" = some (.inl ((kept evs).countP fun e => decide (e.logger = l))) ∧
      ∀ n, n ≠ "__all__" →
        ((¬ ∃ e ∈ evs, e.logger = l ∧ e.name = n) → get? d2 n = none) ∧
        ((∃ e ∈ evs, e.logger = l ∧ e.name = n) → ∃ d3, get? d2 n = some (.inr d3) ∧
          get? d3 "__all__" = some ((kept evs).countP fun e => decide (e.logger = l ∧ e.name = n)) ∧
          ∀ s, s ≠ "__all__" → get? d3 s =
            if ∃ e ∈ evs, e.logger = l ∧ e.name = n ∧ e.status = s then
              some ((kept evs).countP fun e => decide (e.logger = l ∧ e.name = n ∧ e.status = s)) else none) := by
  unfold totalCounts
  rw [agg1_row (step := rateTry size) (grows_onEnd TryEv.logger TryEv.name TryEv.status _ _) lname RateAcc.total hl ha]
  exact C121_rate_cells_partial (own l) size evs l hl.1 (by simp [own]) fun e _ h => own_unique h

/-- C71, also for loggers that share a name: the row of a name has the rates of the logger that prevails. -/
theorem C71_rows (lname : L → String) (size : Option Nat) (evs : List (Ev L K)) (start stop now : K) (t)
    (h : getRates lname (evs.foldl (rateOnEnd size) []) start stop now = some t) (l : L)
    (hl : Prevails Ev.logger lname evs l) (ha : lname l ≠ "__all__") :
    ∃ d2, get? t (lname l) = some (.inr d2) ∧
      get? d2 "__all__" =
        some (.inl ((rateBelow2 size evs l).map fun a => (getRate a (some start) (some stop) now).getD 0).sum) ∧
      ∀ n, n ≠ "__all__" → (∃ e ∈ evs, e.logger = l ∧ e.name = n) → ∃ d3, get? d2 n = some (.inr d3) ∧
        get? d3 "__all__" =
          some ((rateBelow3 size evs l n).map fun a => (getRate a (some start) (some stop) now).getD 0).sum ∧
        ∀ s, s ≠ "__all__" → get? d3 s = (ratePart size evs l n s).bind fun a => getRate a (some start) (some stop) now := by
  obtain ⟨hr, rfl⟩ := C71_reads h
  rw [agg1_row (step := rateOnEnd size) (grows_onEnd Ev.logger Ev.name Ev.status _ _) lname _ hl ha]
  refine C71_cells_partial (own l) size evs start stop now _ ?_ l hl.1 (by simp [own]) fun e _ h => own_unique h
  unfold getRates at h ⊢
  split at h
  · rename_i hall; rw [if_pos hall]
  · cases h

/-- The table of a CounterSink, also for loggers that share a name: a name's row is that of the logger that prevails. -/
theorem counter_row (b : Nat) (lg : E → L) (key : E → String) (lname : L → String) (evs : List E) (l : L)
    (hl : Prevails lg lname evs l) :
    get? (counterToDict lname (evs.foldl (counterOnEnd b lg key) [])) (lname l) =
      get? (counterToDict (own l) (evs.foldl (counterOnEnd b lg key) [])) (own l l) := by
  have hg : Grows lg (counterOnEnd b lg key) := grows_upd lg (fun _ => tcInit b) fun e c => tcAdd c (key e)
  obtain ⟨m1, m2, d2, hm, hn⟩ := prevails_split hg hl
  have hnd := grows_nodup hg evs
  rw [hm] at hnd ⊢
  have : ∀ f : L → String, (∀ p ∈ m2, f p.1 ≠ f l) → get? (counterToDict f (m1 ++ (l, d2) :: m2)) (f l) = some (counterDict d2) := by
    intro f hf
    unfold counterToDict
    rw [List.map_append, List.map_cons]
    refine get?_build_last _ _ counterDict _ d2 ?_
    intro p hp
    obtain ⟨q, hq, rfl⟩ := List.mem_map.1 hp
    exact hf q hq
  rw [this lname hn, this (own l)]
  intro p hpm e
  have := own_unique e
  simp only [keys, List.map_append, List.map_cons] at hnd
  exact (List.nodup_cons.1 (List.nodup_append.1 hnd).2.1).1 (this ▸ List.mem_map_of_mem hpm)

/-- C58, also for loggers that share a name: the total of a name is the number of end events of the logger that prevails. -/
theorem C58_rows (b : Nat) (lg : E → L) (key : E → String) (lname : L → String) (evs : List E) (l : L)
    (hl : Prevails lg lname evs l) (hm : ∀ e ∈ evs, key e ≠ "__missing__") :
    ∃ d, get? (counterToDict lname (evs.foldl (counterOnEnd b lg key) [])) (lname l) = some d ∧
      get? d "__all__" = some ((evs.countP fun e => decide (lg e = l) : Nat) : Int) := by
  rw [counter_row b lg key lname evs l hl]
  exact C58_total_partial b lg key (own l) evs l hl.1 (fun e _ h => own_unique h) hm

/-- C58, whatever the names and keys: the total of a name is never more than the number of end events of the logger that prevails,
and short by at most those of its events whose key is `__missing__`. -/
theorem C58_bounds (b : Nat) (lg : E → L) (key : E → String) (lname : L → String) (evs : List E) (l : L)
    (hl : Prevails lg lname evs l) :
    ∃ d total, get? (counterToDict lname (evs.foldl (counterOnEnd b lg key) [])) (lname l) = some d ∧
      get? d "__all__" = some total ∧
      total ≤ ((evs.countP fun e => decide (lg e = l) : Nat) : Int) ∧
      ((evs.countP fun e => decide (lg e = l) : Nat) : Int) ≤
        total + ((evs.countP fun e => decide (lg e = l ∧ key e = "__missing__") : Nat) : Int) := by
  rw [counter_row b lg key lname evs l hl, counter_entry b lg key (own l) evs l hl.1 fun e _ h => own_unique h]
  have h1 := counter_run b lg key evs l
  rw [if_pos hl.1] at h1
  rw [List.foldl_map]
  obtain ⟨c, hc⟩ : ∃ c, c = (evs.filter fun e => decide (lg e = l)).foldl (fun c e => tcAdd c (key e)) (tcInit b) := ⟨_, rfl⟩
  rw [← hc] at h1 ⊢
  have ht : c.total = evs.countP fun e => decide (lg e = l) := by
    rw [hc, tc_foldl_total, List.countP_eq_length_filter]; simp [tcInit]
  rw [← ht]
  by_cases hm : uncommon c = 0 ∨ MISSING ∉ keys c.counts
  · exact ⟨_, _, rfl, counterDict_all c hm, le_refl _, by omega⟩
  · push Not at hm
    obtain ⟨hu, hk⟩ := hm
    obtain ⟨⟨n, x⟩, hg⟩ := Option.ne_none_iff_exists'.1 (fun h => (get?_none.1 h) hk : get? c.counts MISSING ≠ none)
    have hn := C58_counts b lg key evs l c h1 MISSING n x hg
    refine ⟨_, (c.total : Int) - n, rfl, ?_, by omega, ?_⟩
    · unfold counterDict
      dsimp only
      rw [get?_set, if_pos (show ALL = "__all__" from rfl), if_neg hu]
      congr 1
      have hv : (values (c.counts.map fun p => (p.1, (p.2.1 : Int)))).sum = (common c : Int) := by
        unfold common values
        induction c.counts with
        | nil => rfl
        | cons p d ih =>
          simp only [List.map_cons, List.sum_cons, List.map_map] at ih ⊢
          push_cast
          rw [ih]
      have h2 := sum_set (fun x : Int => x) (c.counts.map fun p => (p.1, (p.2.1 : Int))) MISSING (uncommon c)
      have h3 : get? (c.counts.map fun p => (p.1, (p.2.1 : Int))) MISSING = some (n : Int) := by
        have : ∀ d : Dict String (Nat × Nat), get? (d.map fun p => (p.1, (p.2.1 : Int))) MISSING =
            (get? d MISSING).map fun p => (p.1 : Int) := by
          intro d
          induction d with
          | nil => rfl
          | cons x d ih => simp only [List.map_cons, get?]; split <;> simp_all
        rw [this, hg]; rfl
      rw [h3] at h2
      simp only [Option.elim_some, List.map_id', hv] at h2
      unfold uncommon at h2 ⊢
      omega
    · have : evs.countP (fun e => decide (lg e = l ∧ key e = MISSING)) =
          evs.countP (fun e => decide (lg e = l ∧ key e = "__missing__")) := rfl
      omega

/-! ## A case -/

/-- Loggers 0 and 1 are both called `app`; 1 was heard of later, although 0 was heard of again. -/
theorem sample_prevails : Prevails Ev.logger (fun _ : Nat => "app") sampleEvs 1 := by
  refine ⟨⟨⟨1, "load", "failure", 11, 11⟩, by simp [sampleEvs], rfl⟩, fun l' hl _ hh =>
    ⟨sampleEvs.take 1, sampleEvs.drop 1, (List.take_append_drop 1 _).symm, ?_, by simp [sampleEvs]⟩⟩
  have h0 : l' = 0 := by
    obtain ⟨e, he, rfl⟩ := hh
    simp only [sampleEvs, List.mem_cons, List.not_mem_nil, or_false] at he
    rcases he with rfl | rfl | rfl
    · rfl
    · exact absurd rfl hl
    · rfl
  exact ⟨⟨0, "load", "success", 10, 9⟩, by simp [sampleEvs], h0.symm⟩

example : ∃ d2, get? (totalCounts (fun _ : Nat => "app") (sampleEvs.foldl (rateOnEnd (some 128)) [])) "app" = some (.inr d2) ∧
    get? d2 "__all__" = some (.inl 1) := by
  obtain ⟨d2, h1, h2, -⟩ := C57_rows (fun _ : Nat => "app") (some 128) sampleEvs 1 sample_prevails (by decide)
  exact ⟨d2, h1, by rw [h2]; simp [sampleEvs]⟩

example := C58_rows 2 (Ev.logger : Ev Nat ℚ → Nat) Ev.name (fun _ => "app") sampleEvs 1 sample_prevails (by simp [sampleEvs])

/-- The case of `C58_violated_missing`: the total is 2 of 3 events, one of them a `__missing__`. -/
example := C58_bounds 2 (fun _ : String => (0 : Nat)) id (fun _ => "app") ["a", "b", "__missing__"] 0
  ⟨⟨"a", by simp, rfl⟩, fun l' hl _ ⟨_, _, h⟩ => absurd h.symm hl⟩

end Verif.Sinks
