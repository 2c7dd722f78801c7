import Verif.Model.MakeStats
import Verif.Props.Sinks
import Verif.Props.SinkTables
import Verif.Props.Ewma
/-!
# C149: the options of RateSink, CounterSink and EWMASink
-/
namespace Verif.MakeStats

open Verif.Dct Verif.Sinks

variable {L K : Type} [DecidableEq L]

/-! ## Making -/

/-- C149: each of the three sinks is made exactly if the getter, if there is one, can be called; it then uses that getter, and
without one the end time (RateSink), the action name (CounterSink), the duration (EWMASink). -/
theorem C149_made (g : Getter (End L K) K) (c : Getter (End L K) String) :
    (makeRate g = none ↔ g = .other) ∧ (makeEwma g = none ↔ g = .other) ∧ (makeCounter c = none ↔ c = .other) ∧
    (∀ f, g = .callable f → makeRate g = some f ∧ makeEwma g = some f) ∧ (∀ f, c = .callable f → makeCounter c = some f) ∧
    (g = .absent → makeRate g = some (fun e => e.etime) ∧ makeEwma g = some (fun e => e.duration)) ∧
    (c = .absent → makeCounter c = some (fun e => e.name)) := by
  refine ⟨?_, ?_, ?_, ?_, ?_, ?_, ?_⟩
  · cases g <;> simp [makeRate, chosen]
  · cases g <;> simp [makeEwma, chosen]
  · cases c <;> simp [makeCounter, chosen]
  · rintro f rfl; exact ⟨rfl, rfl⟩
  · rintro f rfl; rfl
  · rintro rfl; exact ⟨rfl, rfl⟩
  · rintro rfl; rfl

/-! ## Events -/

theorem history_snoc {S E : Type} (step : S → E → S × Bool) (s : S) (evs : List E) (e : E) :
    history step s (evs ++ [e]) = ((step (history step s evs).1 e).1, (history step s evs).2 ++ [(step (history step s evs).1 e).2]) := by
  simp [history, List.foldl_append]

theorem history_takes {S E : Type} (step : S → E → S × Bool) (good : S → E → S) (h : ∀ s e, step s e = (good s e, false)) (s : S)
    (evs : List E) : history step s evs = (evs.foldl good s, List.replicate evs.length false) := by
  induction evs using List.reverseRecOn with
  | nil => rfl
  | append_singleton evs e ih =>
    rw [history_snoc, ih, h, List.foldl_append, List.length_append, List.length_singleton, List.replicate_succ']
    rfl

section Rate

variable [Field K] [LinearOrder K] [IsStrictOrderedRing K]

/-- C149: a RateSink with a sample size that is None or not negative takes every event, and keeps what the getter returns: its tables
are those of C57 and C71. -/
theorem C149_rate_partial (size : Option Int) (hs : ∀ n, size = some n → 0 ≤ n) (getter : End L K → K) (evs : List (End L K)) :
    history (rateEnd size getter) [] evs =
      (((evs.map fun e => (⟨e.logger, e.name, e.status, getter e, e.now⟩ : Ev L K)).foldl (rateOnEnd (size.map Int.toNat)) []),
        List.replicate evs.length false) := by
  rw [List.foldl_map]
  refine history_takes _ (fun m e => rateOnEnd (size.map Int.toNat) m (toEv getter e)) ?_ _ _
  intro m e
  unfold rateEnd
  dsimp only
  split
  · exact absurd (hs _ rfl) (by simp)
  · rfl

/-- No accumulators anywhere. -/
def Bare {A : Type} (m : Map3 L A) : Prop := ∀ p ∈ m, ∀ q ∈ p.2, q.2 = []

theorem bare_upd {A : Type} {m : Map3 L A} (h : Bare m) (l : L) (n : String) : Bare (upd m l [] fun d2 => upd d2 n [] id) := by
  have hset : ∀ {α β : Type} [DecidableEq α] (d : Dict α β) (k : α) (v : β), ∀ p ∈ Dct.set d k v, p ∈ d ∨ p = (k, v) := by
    intro α β _ d k v
    induction d with
    | nil => intro p hp; exact .inr (by simpa [Dct.set] using hp)
    | cons x d ih =>
      obtain ⟨a, b⟩ := x
      intro p hp
      simp only [Dct.set] at hp
      split at hp
      · rename_i hk
        rcases List.mem_cons.1 hp with rfl | hp
        · exact .inr rfl
        · exact .inl (List.mem_cons_of_mem _ hp)
      · rcases List.mem_cons.1 hp with rfl | hp
        · exact .inl List.mem_cons_self
        · exact (ih p hp).imp (List.mem_cons_of_mem _) id
  intro p hp
  unfold upd at hp
  rcases hset _ _ _ p hp with hp | rfl
  · exact h p hp
  · intro q hq
    have hrow : ∀ q ∈ (get? m l).getD [], q.2 = [] := by
      cases hg : get? m l with
      | none => simp
      | some d2 => exact h (l, d2) (mem_of_get? hg)
    rcases hset _ _ _ q hq with hq | rfl
    · exact hrow q hq
    · dsimp only [id]
      cases hg : get? ((get? m l).getD []) n with
      | none => rfl
      | some d3 => exact hrow (n, d3) (mem_of_get? hg)

theorem bare_cell {A : Type} {m : Map3 L A} (h : Bare m) (l : L) (n s : String) : cell m l n s = none := by
  unfold cell
  cases h1 : get? m l with
  | none => rfl
  | some d2 =>
    simp only [Option.bind_some]
    cases h2 : get? d2 n with
    | none => rfl
    | some d3 =>
      have := h (l, d2) (mem_of_get? h1) (n, d3) (mem_of_get? h2)
      dsimp only at this
      subst this
      rfl

omit [DecidableEq L] in
theorem bare_sum {A : Type} {m : Map3 L A} (h : Bare m) (val : A → Nat) : sum1 val m = 0 := by
  unfold sum1
  refine List.sum_eq_zero fun x hx => ?_
  simp only [values, List.map_map, List.mem_map, Function.comp] at hx
  obtain ⟨p, hp, rfl⟩ := hx
  unfold sum2
  refine List.sum_eq_zero fun y hy => ?_
  simp only [values, List.map_map, List.mem_map, Function.comp] at hy
  obtain ⟨q, hq, rfl⟩ := hy
  rw [h p hp q hq]
  rfl

/-- If every step that finds no accumulators raises and makes none, all do. -/
theorem history_raises {A E : Type} (step : Map3 L A → E → Map3 L A × Bool) (lg : E → L) (nm : E → String)
    (h : ∀ m e, Bare m → step m e = (upd m (lg e) [] fun d2 => upd d2 (nm e) [] id, true)) (evs : List E) :
    Bare (history step [] evs).1 ∧ (history step [] evs).2 = List.replicate evs.length true := by
  induction evs using List.reverseRecOn with
  | nil => exact ⟨fun p hp => absurd hp (by simp [history]), rfl⟩
  | append_singleton evs e ih =>
    rw [history_snoc, h _ _ ih.1, ih.2, List.length_append, List.length_singleton, List.replicate_succ']
    exact ⟨bare_upd ih.1 _ _, rfl⟩

omit [LinearOrder K] [IsStrictOrderedRing K] in
/-- C149: a RateSink with a negative sample size is made, too, but then raises ValueError for every event and counts none. -/
theorem C149_rate_refuses (n : Int) (hn : n < 0) (getter : End L K → K) (lname : L → String) (evs : List (End L K)) :
    (history (rateEnd (some n) getter) [] evs).2 = List.replicate evs.length true ∧
    get? (totalCounts lname (history (rateEnd (some n) getter) [] evs).1) "__all__" = some (.inl 0) := by
  have h := history_raises (rateEnd (some n) getter) End.logger End.name (fun m e hb => ?_) evs
  · refine ⟨h.2, ?_⟩
    unfold totalCounts
    rw [show "__all__" = ALL from rfl, agg1_all, bare_sum h.1]
  · have hc := bare_cell hb e.logger e.name e.status
    unfold cell at hc
    unfold rateEnd
    rw [hc]
    cases n with
    | ofNat k => exact absurd hn (by simp)
    | negSucc k => rfl

end Rate

section Counter

variable [Field K] [LinearOrder K]

/-- C149: a CounterSink with a threshold between 0 and 1 takes every event and counts what the getter returns: its tables are those
of C58 and C72. -/
theorem C149_counter_partial (bucket : K → Nat) (threshold : K) (h0 : 0 < threshold) (h1 : threshold < 1)
    (getter : End L K → String) (evs : List (End L K)) :
    history (counterEnd bucket threshold getter) [] evs =
      (evs.foldl (counterOnEnd (bucket threshold) (fun e => e.logger) getter) [], List.replicate evs.length false) := by
  refine history_takes _ (counterOnEnd (bucket threshold) End.logger getter) ?_ _ _
  intro m e
  unfold counterEnd
  split
  · rfl
  · rw [if_pos ⟨h0, h1⟩]

/-- C149: with any other threshold a CounterSink is made, too, but then raises ValueError for every event, and `to_dict()` is empty. -/
theorem C149_counter_refuses (bucket : K → Nat) (threshold : K) (h : ¬ (0 < threshold ∧ threshold < 1))
    (getter : End L K → String) (lname : L → String) (evs : List (End L K)) :
    (history (counterEnd bucket threshold getter) [] evs).2 = List.replicate evs.length true ∧
    counterToDict lname (history (counterEnd bucket threshold getter) [] evs).1 = [] := by
  suffices hs : history (counterEnd bucket threshold getter) [] evs = ([], List.replicate evs.length true) by
    rw [hs]; exact ⟨rfl, rfl⟩
  induction evs using List.reverseRecOn with
  | nil => rfl
  | append_singleton evs e ih =>
    rw [history_snoc, ih, List.length_append, List.length_singleton, List.replicate_succ']
    simp [counterEnd, get?, h]

end Counter

/-! ## EWMASink -/

/-- C149: an EWMASink with an interval that is not negative takes every event: the accumulator of some labels is the one made when the
first event with these labels came, and has since been given what the getter returned for each of them. -/
theorem C149_ewma_partial (periods : List ℝ) (interval : ℝ) (hi : 0 ≤ interval) (getter : End String ℝ → ℝ)
    (evs : List (End String ℝ)) :
    (history (ewmaEnd periods interval getter) [] evs).2 = List.replicate evs.length false ∧
    ∀ l n s, cell (history (ewmaEnd periods interval getter) [] evs).1 l n s =
      let own := evs.filter fun e => decide (e.logger = l ∧ e.name = n ∧ e.status = s)
      own.head?.bind fun first => (Ewma.make periods interval first.now).map fun new =>
        { new with uncounted := (own.map getter).sum } := by
  have hmk : ∀ now, ∃ new, Ewma.make periods interval now = some new := by
    intro now
    rw [← Option.ne_none_iff_exists', Ne, (Ewma.C55_make periods interval now).1, not_lt]
    exact hi
  choose mk hmk using hmk
  have hstep : ∀ m e, ewmaEnd periods interval getter m e =
      (onEnd End.logger End.name End.status (fun e => mk e.now) (fun a e => Ewma.add a (getter e)) m e, false) := by
    intro m e
    unfold ewmaEnd onEnd
    rw [hmk]
    dsimp only
    have hd : ∀ (d2 : Dict String (Dict String Ewma.Ewma)), d2 = (get? m e.logger).getD [] →
        ((get? m e.logger).bind fun d2 => (get? d2 e.name).bind fun d3 => get? d3 e.status) =
          get? ((get? d2 e.name).getD []) e.status := by
      rintro d2 rfl
      cases get? m e.logger with
      | none => rfl
      | some d => simp only [Option.bind_some, Option.getD_some]; cases get? d e.name <;> rfl
    have hd := hd _ rfl
    cases hc : (get? m e.logger).bind fun d2 => (get? d2 e.name).bind fun d3 => get? d3 e.status with
    | none =>
      rw [hc] at hd
      dsimp only
      unfold upd
      dsimp only
      rw [← hd]
      rfl
    | some a =>
      rw [hc] at hd
      dsimp only
      unfold upd
      dsimp only
      rw [← hd]
      rfl
  rw [history_takes _ _ hstep]
  refine ⟨rfl, fun l n s => ?_⟩
  dsimp only
  rw [cell_run]
  cases evs.filter fun e => decide (e.logger = l ∧ e.name = n ∧ e.status = s) with
  | nil => rfl
  | cons e es =>
    simp only [accOf, List.head?_cons, Option.bind_some, hmk, Option.map_some, Option.some.injEq]
    have h0 := ((Ewma.C55_make periods interval e.now).2 _ (hmk e.now)).2.1
    have : ∀ (es : List (End String ℝ)) (a : Ewma.Ewma), es.foldl (fun a e => Ewma.add a (getter e)) a =
        { a with uncounted := a.uncounted + (es.map getter).sum } := by
      intro es
      induction es with
      | nil => intro a; simp
      | cons x es ih => intro a; rw [List.foldl_cons, ih]; simp [Ewma.add, add_assoc]
    rw [this, h0, zero_add]

/-- C149: an EWMASink with a negative interval is made, too, but then raises ValueError for every event and has no accumulators. -/
theorem C149_ewma_refuses (periods : List ℝ) (interval : ℝ) (hi : interval < 0) (getter : End String ℝ → ℝ)
    (evs : List (End String ℝ)) :
    (history (ewmaEnd periods interval getter) [] evs).2 = List.replicate evs.length true ∧
    ∀ l n s, cell (history (ewmaEnd periods interval getter) [] evs).1 l n s = none := by
  have h := history_raises (ewmaEnd periods interval getter) End.logger End.name (fun m e hb => ?_) evs
  · exact ⟨h.2, fun l n s => bare_cell h.1 l n s⟩
  · have hc := bare_cell hb e.logger e.name e.status
    unfold cell at hc
    unfold ewmaEnd
    rw [hc, (Ewma.C55_make periods interval e.now).1.2 hi]

/-! ## The full claim -/

/-- The full claim: sinks that could be made take every event. -/
def Usable : Prop :=
  (∀ (g : Getter (End Nat ℚ) ℚ) (f) (_ : makeRate g = some f) (size : Option Int) (evs : List (End Nat ℚ)),
    ∀ r ∈ (history (rateEnd size f) [] evs).2, r = false) ∧
  (∀ (g : Getter (End Nat ℚ) String) (f) (_ : makeCounter g = some f) (threshold : ℚ) (evs : List (End Nat ℚ)),
    ∀ r ∈ (history (counterEnd (fun t => ⌊1 / t⌋.toNat) threshold f) [] evs).2, r = false) ∧
  (∀ (g : Getter (End String ℝ) ℝ) (f) (_ : makeEwma g = some f) (periods : List ℝ) (interval : ℝ) (evs : List (End String ℝ)),
    ∀ r ∈ (history (ewmaEnd periods interval f) [] evs).2, r = false)

/-- C149 is false of each of the three: the other options are not looked at before the first event. -/
theorem C149_violated :
    (∃ f, makeRate (.absent : Getter (End Nat ℚ) ℚ) = some f ∧
      (history (rateEnd (some (-1)) f) [] [⟨0, "load", "success", 10, 1, 11⟩]).2 = [true]) ∧
    (∃ f, makeCounter (.absent : Getter (End Nat ℚ) String) = some f ∧
      (history (counterEnd (fun t => ⌊1 / t⌋.toNat) 1 f) [] [⟨0, "load", "success", 10, 1, 11⟩]).2 = [true]) ∧
    (∃ f, makeEwma (.absent : Getter (End String ℝ) ℝ) = some f ∧
      (history (ewmaEnd [] (-1) f) [] [⟨"app", "load", "success", 10, 1, 11⟩]).2 = [true]) ∧
    ¬ Usable := by
  have h1 : (history (rateEnd (some (-1)) End.etime) [] [(⟨0, "load", "success", 10, 1, 11⟩ : End Nat ℚ)]).2 = [true] :=
    (C149_rate_refuses (-1) (by decide) End.etime (fun _ => "app") _).1
  refine ⟨⟨_, rfl, h1⟩, ⟨_, rfl, ?_⟩, ⟨_, rfl, ?_⟩, fun h => ?_⟩
  · exact (C149_counter_refuses _ 1 (by simp) _ (fun _ => "app") _).1
  · exact (C149_ewma_refuses [] (-1) (by norm_num) _ _).1
  · have := h.1 .absent End.etime rfl (some (-1)) [⟨0, "load", "success", 10, 1, 11⟩] true (by rw [h1]; simp)
    cases this

/-! ## Cases -/

def two : List (End Nat ℚ) := [⟨0, "load", "success", 10, 1, 11⟩, ⟨0, "load", "success", 12, 2, 13⟩]

example : history (rateEnd (some 1) End.etime) [] two =
    ([(0, [("load", [("success", ⟨[12], 2, 11, some 1⟩)])])], [false, false]) := by
  rw [C149_rate_partial _ (by simp)]
  simp [two, rateOnEnd, onEnd, upd, get?, Dct.set, rateAdd, rateInit, append]

example := C149_counter_partial (fun t : ℚ => ⌊1 / t⌋.toNat) (1 / 1000) (by norm_num) (by norm_num) End.name two

example := (C149_ewma_partial [60] 5 (by norm_num) End.duration [⟨"app", "load", "success", 10, 1, 11⟩]).2 "app" "load" "success"

end Verif.MakeStats
