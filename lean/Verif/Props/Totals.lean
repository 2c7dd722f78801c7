import Verif.Props.Script
import Verif.Props.Lossy
import Verif.Model.Fields
/-!
# C140: the totals of statistics sinks are the numbers of blocks that ended
-/
namespace Verif.Totals

open Verif.Dct Verif.Sinks

/-- The name of the action of an event. -/
def actName (w : World) (e : Event) : String := ((w.acts e.act).map Act.name).getD ""

/-- The events a sink's `on_end` was called with. -/
def onEndCalls (s : SinkId) (w : World) : List Event := ((received s w.trace).filter fun q => decide (q.1 = .end_)).map Prod.snd

/-- What a RateSink uses of an event: its logger, its action's name, its status, what the getter returns and the clock reads. -/
def rateEv {K : Type} (w : World) (val now : Event → K) (e : Event) : Ev LogId K :=
  ⟨e.logger, actName w e, Fields.statusText e.status, val e, now e⟩

/-- How many lines of a transcript tell that an action ended. -/
def ended (ls : List Line) : Nat := ls.countP fun x => decide (x.kind = .end_)

/-- How many tell that one called `n` ended. -/
def endedOf (ls : List Line) (n : String) : Nat := ls.countP fun x => decide (x.kind = .end_ ∧ x.name = n)

/-- How many tell that one called `n` ended with this status. -/
def endedAs (ls : List Line) (n : String) (st : Status) : Nat :=
  ls.countP fun x => decide (x.kind = .end_ ∧ x.name = n ∧ x.status = st)

theorem view_parts {w : World} {q : Kind × Event} {x : Line} (h : viewEv w q = some x) :
    x.kind = q.1 ∧ x.name = actName w q.2 ∧ x.status = q.2.status := by
  unfold viewEv at h
  unfold actName
  split at h
  · cases h
  · rename_i y hy
    rw [hy]
    split at h
    · cases h; exact ⟨rfl, rfl, rfl⟩
    · rename_i a ha
      cases e : w.acts a with
      | none => rw [e] at h; cases h
      | some z => rw [e] at h; cases h; exact ⟨rfl, rfl, rfl⟩

theorem count_view (w : World) (P : Kind → String → Status → Bool) {xs : List (Kind × Event)} {ys : List Line}
    (h : xs.map (viewEv w) = ys.map some) :
    xs.countP (fun q => P q.1 (actName w q.2) q.2.status) = ys.countP fun x => P x.kind x.name x.status := by
  induction xs generalizing ys with
  | nil => cases ys with
    | nil => rfl
    | cons x ys => simp at h
  | cons q xs ih => cases ys with
    | nil => simp at h
    | cons x ys =>
      simp only [List.map_cons, List.cons.injEq] at h
      obtain ⟨h1, h2, h3⟩ := view_parts h.1
      rw [List.countP_cons, List.countP_cons, ih h.2, h1, h2, h3]

/-- Calls of `on_end` with events of the logger are counted by the transcript. -/
theorem calls_count {env : Env} (hc : env.Calm) {w : World} (hr : Reachable env w) {l : LogId} {L : Log}
    (hL : w.logs l = some L) (hnew : published w l = []) (ha : w.active l = none) {p : Script} (hp : p.Ok)
    (hlen : (p.lines env.text none).1.length ≤ QUEUE_LIMIT) {s : SinkId} (hs : s ∈ L.sinks) (hh : env.hasHook s .end_)
    (P : String → Status → Bool) :
    let r := exec env (p.compile l none Prog.leave) w
    let f := (step env r.1 (.flush l)).1
    (onEndCalls s f).countP (fun e => decide (e.logger = l) && P (actName f e) e.status) =
      (p.lines env.text none).1.countP fun x => decide (x.kind = .end_) && P x.name x.status := by
  intro r f
  have h := (C113_received hc hr hL hnew ha hp hlen hs).2
  have h2 := count_view f (fun k n st => decide (k = .end_) && P n st) h
  rw [List.countP_filter] at h2
  rw [show (p.lines env.text none).1.countP (fun x => decide (x.kind = .end_) && P x.name x.status) =
    (p.lines env.text none).1.countP (fun x => (decide (x.kind = .end_) && P x.name x.status) && env.hasHook s x.kind) from
      List.countP_congr fun x _ => by
        by_cases hk : x.kind = .end_
        · rw [hk, hh]; simp
        · simp [hk], ← h2]
  unfold onEndCalls ofLogger
  rw [List.countP_map, List.countP_filter, List.countP_filter]
  refine List.countP_congr fun q _ => ?_
  simp only [Function.comp, Bool.and_eq_true, decide_eq_true_eq]
  constructor
  · rintro ⟨⟨h1, h2⟩, h3⟩; exact ⟨⟨h3, h2⟩, by rw [h3]; simp, h1⟩
  · rintro ⟨⟨h1, h2⟩, h3, h4⟩; exact ⟨⟨h4, h2⟩, h1⟩

theorem statusText_inj {a b : Status} (h : Fields.statusText a = Fields.statusText b) : a = b := by
  cases a <;> cases b <;> first | rfl | (simp [Fields.statusText] at h)

theorem countP_exists {X : Type} {xs : List X} {p : X → Bool} : (∃ x ∈ xs, p x) ↔ xs.countP p ≠ 0 := by
  rw [← Nat.pos_iff_ne_zero, List.countP_pos_iff]

section Rate

variable {K : Type} [Field K] [LinearOrder K] [IsStrictOrderedRing K]

/-- **C140, RateSink.**  A script on a logger that nothing was published on, synchronous or not, then a flush: for a RateSink of the
logger, whatever else it receives from loggers with other names, `get_total_counts` has in the table of this logger the number of
blocks that ended, for each name the number of blocks of that name, and for each status the number that ended so, as the
transcript tells; names and statuses that did not occur have no entry. -/
theorem C140_rate {env : Env} (hc : env.Calm) {w : World} (hr : Reachable env w) {l : LogId} {L : Log}
    (hL : w.logs l = some L) (hnew : published w l = []) (ha : w.active l = none) {p : Script} (hp : p.Ok)
    (hlen : (p.lines env.text none).1.length ≤ QUEUE_LIMIT) {s : SinkId} (hs : s ∈ L.sinks) (hh : env.hasHook s .end_)
    (size : Option Nat) (val now : Event → K) (lname : LogId → String) (hl : lname l ≠ "__all__")
    (hne : ended (p.lines env.text none).1 ≠ 0) :
    let r := exec env (p.compile l none Prog.leave) w
    let f := (step env r.1 (.flush l)).1
    let ls := (p.lines env.text none).1
    (∀ e ∈ onEndCalls s f, lname e.logger = lname l → e.logger = l) →
    ∃ d, get? (totalCounts lname (((onEndCalls s f).map (rateEv f val now)).foldl (rateOnEnd size) [])) (lname l) = some (.inr d) ∧
      get? d "__all__" = some (.inl (ended ls)) ∧
      ∀ n, n ≠ "__all__" → (endedOf ls n = 0 → get? d n = none) ∧
        (endedOf ls n ≠ 0 → ∃ d', get? d n = some (.inr d') ∧ get? d' "__all__" = some (endedOf ls n) ∧
          ∀ st, get? d' (Fields.statusText st) = if endedAs ls n st = 0 then none else some (endedAs ls n st)) := by
  intro r f ls hu
  have hcount := calls_count hc hr hL hnew ha hp hlen hs hh
  have c1 : ((onEndCalls s f).map (rateEv f val now)).countP (fun e => decide (e.logger = l)) = ended ls := by
    rw [List.countP_map]
    refine Eq.trans (List.countP_congr fun e _ => ?_) ((hcount fun _ _ => true).trans (List.countP_congr fun x _ => ?_))
    · simp only [Function.comp, rateEv, decide_eq_true_eq, Bool.and_eq_true, and_true]
      exact decide_eq_true_iff
    · simp only [decide_eq_true_eq, Bool.and_eq_true, and_true]
  have c2 : ∀ n, ((onEndCalls s f).map (rateEv f val now)).countP (fun e => decide (e.logger = l ∧ e.name = n)) = endedOf ls n := by
    intro n
    rw [List.countP_map]
    refine Eq.trans (List.countP_congr fun e _ => ?_)
      ((hcount fun m _ => decide (m = n)).trans (List.countP_congr fun x _ => ?_))
    · simp only [Function.comp, rateEv, decide_eq_true_eq, Bool.and_eq_true, and_true]
      exact decide_eq_true_iff
    · simp only [decide_eq_true_eq, Bool.and_eq_true, and_true]
  have c3 : ∀ n st, ((onEndCalls s f).map (rateEv f val now)).countP
      (fun e => decide (e.logger = l ∧ e.name = n ∧ e.status = Fields.statusText st)) = endedAs ls n st := by
    intro n st
    rw [List.countP_map]
    refine Eq.trans (List.countP_congr fun e _ => ?_)
      ((hcount fun m t => decide (m = n ∧ t = st)).trans (List.countP_congr fun x _ => ?_))
    · simp only [Function.comp, rateEv, Bool.and_eq_true]
      constructor
      · intro h
        obtain ⟨h1, h2, h3⟩ := of_decide_eq_true h
        exact ⟨decide_eq_true h1, decide_eq_true ⟨h2, statusText_inj h3⟩⟩
      · rintro ⟨h1, h2⟩
        obtain ⟨h2, h3⟩ := of_decide_eq_true h2
        exact decide_eq_true ⟨of_decide_eq_true h1, h2, by rw [h3]⟩
    · simp
  have e1 : ∃ e ∈ (onEndCalls s f).map (rateEv f val now), e.logger = l := by
    have := countP_exists.2 (c1 ▸ hne : _ ≠ 0)
    simpa using this
  obtain ⟨d, h1, h2, h3⟩ := C57_cells_partial lname size ((onEndCalls s f).map (rateEv f val now)) l e1 hl (by
    intro e he h
    obtain ⟨x, hx, rfl⟩ := List.mem_map.1 he
    exact hu x hx h)
  refine ⟨d, h1, by rw [h2, c1], fun n hn => ⟨fun h0 => (h3 n hn).1 ?_, fun h0 => ?_⟩⟩
  · intro hex
    rw [← c2] at h0
    exact countP_exists.1 (by simpa using hex) h0
  · have hex : ∃ e ∈ (onEndCalls s f).map (rateEv f val now), e.logger = l ∧ e.name = n := by
      rw [← c2] at h0
      simpa using countP_exists.2 h0
    obtain ⟨d', g1, g2, g3⟩ := (h3 n hn).2 hex
    refine ⟨d', g1, by rw [g2, c2], fun st => ?_⟩
    rw [g3 _ (by cases st <;> simp [Fields.statusText]), c3]
    by_cases hz : endedAs ls n st = 0
    · rw [if_pos hz, if_neg]
      intro hex
      rw [← c3] at hz
      exact countP_exists.1 (by simpa using hex) hz
    · rw [if_neg hz, if_pos]
      rw [← c3] at hz
      simpa using countP_exists.2 hz

/-- **C140, QuantileSink** with the default accumulators: for each name of a block that ended, `to_dict` has an entry for it that
counts the blocks of that name that ended. -/
theorem C140_quantile [FloorRing K] {env : Env} (hc : env.Calm) {w : World} (hr : Reachable env w) {l : LogId} {L : Log}
    (hL : w.logs l = some L) (hnew : published w l = []) (ha : w.active l = none) {p : Script} (hp : p.Ok)
    (hlen : (p.lines env.text none).1.length ≤ QUEUE_LIMIT) {s : SinkId} (hs : s ∈ L.sinks) (hh : env.hasHook s .end_)
    (store : K → K) (val : Event → K) (rnd : Event → Nat) (qs : List K) (hq : ∀ q ∈ qs, 0 < q ∧ q < 1) (lname : LogId → String) :
    let r := exec env (p.compile l none Prog.leave) w
    let f := (step env r.1 (.flush l)).1
    let ls := (p.lines env.text none).1
    (∀ e ∈ onEndCalls s f, lname e.logger = lname l → e.logger = l) →
    ∃ t, quantDict qs ((onEndCalls s f).foldl (onEnd2 (fun e => lname e.logger) (actName f) (Quant.resInit none)
        (fun a e => Quant.step store a (.add (val e) (rnd e)))) []) = some t ∧
      ∀ n, (endedOf ls n = 0 → ((get? t (lname l)).bind fun d => get? d n) = none) ∧
        (endedOf ls n ≠ 0 → ∃ tri q, ((get? t (lname l)).bind fun d => get? d n) = some (endedOf ls n, tri, q)) := by
  intro r f ls hu
  have hcount := calls_count hc hr hL hnew ha hp hlen hs hh
  have c2 : ∀ n, (onEndCalls s f).countP (fun e => decide (lname e.logger = lname l ∧ actName f e = n)) = endedOf ls n := by
    intro n
    refine Eq.trans (List.countP_congr fun e he => ?_)
      ((hcount fun m _ => decide (m = n)).trans (List.countP_congr fun x _ => ?_))
    · simp only [decide_eq_true_eq, Bool.and_eq_true]
      exact ⟨fun ⟨h1, h2⟩ => ⟨hu e he h1, h2⟩, fun ⟨h1, h2⟩ => ⟨by rw [h1], h2⟩⟩
    · simp
  obtain ⟨t, ht, h⟩ := C59_reservoir store (fun e : Event => lname e.logger) (actName f) val rnd qs hq (onEndCalls s f)
  refine ⟨t, ht, fun n => ⟨fun h0 => ?_, fun h0 => ?_⟩⟩
  · rw [(C59_routing _ _ _ _ _ _ t ht (lname l) n).2, if_neg]
    rw [← c2] at h0
    exact fun hex => countP_exists.1 (by simpa using hex) h0
  · rw [← c2] at h0
    obtain ⟨d, c, tri, q, g1, g2, g3, _⟩ := h (lname l) n (by simpa using countP_exists.2 h0)
    rw [c2] at g3
    exact ⟨tri, q, by rw [g1, Option.bind_some, g2, g3]⟩

end Rate

/-- **C140, CounterSink** with the default getter: the total of the logger is the number of blocks that ended; each name is counted at
most as often as blocks of that name ended, and short by at most one per full bucket (of `b = int(1 / threshold)` events), so exactly
as often if fewer blocks ended than a bucket holds. -/
theorem C140_counter {env : Env} (hc : env.Calm) {w : World} (hr : Reachable env w) {l : LogId} {L : Log}
    (hL : w.logs l = some L) (hnew : published w l = []) (ha : w.active l = none) {p : Script} (hp : p.Ok)
    (hlen : (p.lines env.text none).1.length ≤ QUEUE_LIMIT) {s : SinkId} (hs : s ∈ L.sinks) (hh : env.hasHook s .end_)
    (b : Nat) (hb : 0 < b) (lname : LogId → String) (hne : ended (p.lines env.text none).1 ≠ 0) :
    let r := exec env (p.compile l none Prog.leave) w
    let f := (step env r.1 (.flush l)).1
    let ls := (p.lines env.text none).1
    (∀ e ∈ onEndCalls s f, lname e.logger = lname l → e.logger = l) →
    ∃ d, get? (counterToDict lname ((onEndCalls s f).foldl (counterOnEnd b Event.logger (actName f)) [])) (lname l) = some d ∧
      ((∀ e ∈ onEndCalls s f, actName f e ≠ "__missing__") → get? d "__all__" = some (ended ls : Int)) ∧
      ∀ n, n ≠ "__all__" → n ≠ "__missing__" →
        (∀ c, get? d n = some c → c ≤ (endedOf ls n : Int) ∧ (endedOf ls n : Int) ≤ c + (ended ls / b : Nat)) ∧
        (get? d n = none → endedOf ls n ≤ ended ls / b) := by
  intro r f ls hu
  have hcount := calls_count hc hr hL hnew ha hp hlen hs hh
  have c1 : (onEndCalls s f).countP (fun e => decide (e.logger = l)) = ended ls := by
    refine Eq.trans (List.countP_congr fun e _ => ?_) ((hcount fun _ _ => true).trans (List.countP_congr fun x _ => ?_))
    · simp only [decide_eq_true_eq, Bool.and_eq_true, and_true]
    · simp only [decide_eq_true_eq, Bool.and_eq_true, and_true]
  have c2 : ∀ n, (onEndCalls s f).countP (fun e => decide (e.logger = l ∧ actName f e = n)) = endedOf ls n := by
    intro n
    refine Eq.trans (List.countP_congr fun e _ => ?_)
      ((hcount fun m _ => decide (m = n)).trans (List.countP_congr fun x _ => ?_))
    · simp only [decide_eq_true_eq, Bool.and_eq_true]
      exact Iff.rfl
    · simp only [decide_eq_true_eq, Bool.and_eq_true]
  have hex : ∃ e ∈ onEndCalls s f, e.logger = l := by
    have := countP_exists.2 (c1 ▸ hne : _ ≠ 0)
    simpa using this
  refine ⟨_, counter_entry b Event.logger (actName f) lname (onEndCalls s f) l hex hu, fun hm => ?_, fun n h3 h4 => ?_⟩
  · obtain ⟨d', g1, g2⟩ := C58_total_partial b Event.logger (actName f) lname (onEndCalls s f) l hex hu hm
    rw [counter_entry b Event.logger (actName f) lname (onEndCalls s f) l hex hu] at g1
    cases g1
    rw [g2, c1]
  · obtain ⟨d', g1, g2⟩ := C72_counts b Event.logger (actName f) hb lname (onEndCalls s f) l hex hu n h3 h4
    rw [counter_entry b Event.logger (actName f) lname (onEndCalls s f) l hex hu] at g1
    cases g1
    dsimp only at g2
    rw [c1, c2] at g2
    refine ⟨fun c hcn => ?_, fun hcn => ?_⟩
    · rw [hcn] at g2; exact g2
    · rw [hcn] at g2; exact g2

/-- **C140**: in a transcript as many actions end as begin, name by name. -/
theorem C140_blocks (text : Exc → String → Bool → String) (p : Script) (b : Option Blk) (n : String) :
    endedOf (p.lines text b).1 n = (p.lines text b).1.countP fun x => decide (x.kind = .begin ∧ x.name = n) := by
  unfold endedOf
  induction p generalizing b with
  | skip => simp [Script.lines]
  | raise e => simp [Script.lines]
  | warn m => cases b <;> simp [Script.lines]
  | set k v => simp [Script.lines]
  | finish g m => simp [Script.lines]
  | comment m => simp [Script.lines]
  | seq p q ihp ihq =>
    simp only [Script.lines]
    have := ihp b
    split
    · rename_i ls b' e he; rw [he] at this; exact this
    · rename_i ls b' he
      rw [he] at this
      simp only [List.countP_append]
      rw [this, ihq]
  | «catch» p q ihp ihq =>
    simp only [Script.lines]
    have := ihp b
    split
    · rename_i ls b' he; rw [he] at this; exact this
    · rename_i ls b' e he
      rw [he] at this
      simp only [List.countP_append]
      rw [this, ihq]
  | block lv m d sw p ih =>
    have := ih (some ⟨m, b.map Blk.name, !d.isEmpty, none⟩)
    simp only [Script.lines]
    simp only [List.cons_append, List.countP_cons, List.countP_append, List.countP_nil]
    rw [this]
    simp

open Sample in
/-- An outer action that fails, with an inner one that ends with an exception. -/
example : ended (visit.lines quiet.text none).1 = 2 ∧ endedAs (visit.lines quiet.text none).1 "inner" .exception = 1 ∧
    endedAs (visit.lines quiet.text none).1 "outer" .failure = 1 ∧ endedOf (visit.lines quiet.text none).1 "_comment" = 0 := by
  decide +kernel

open Sample in
/-- The hypotheses can be met, by an asynchronous logger: the table has one exception of "inner" and one failure of "outer". -/
example : ∃ d, get? (totalCounts (fun _ => "app") (((onEndCalls 1 (step quiet (exec quiet (visit.compile 0 none Prog.leave)
      (run quiet World.init setupAsync)).1 (.flush 0)).1).map (rateEv (K := ℚ) (step quiet (exec quiet (visit.compile 0 none Prog.leave)
      (run quiet World.init setupAsync)).1 (.flush 0)).1 (fun _ => 0) (fun _ => 0))).foldl (rateOnEnd (some 128)) [])) "app" = some (.inr d) ∧
    get? d "__all__" = some (.inl 2) ∧ ∃ d', get? d "inner" = some (.inr d') ∧ get? d' "exception" = some 1 ∧ get? d' "success" = none := by
  obtain ⟨d, h1, h2, h3⟩ := C140_rate (K := ℚ) quiet_calm (w := run quiet World.init setupAsync) ⟨setupAsync, rfl⟩ (l := 0) rfl rfl rfl
    (p := visit) ⟨trivial, ⟨by simp, ⟨⟨by simp, trivial, trivial⟩, trivial⟩, trivial⟩⟩ (by unfold QUEUE_LIMIT; decide)
    (s := 1) (by decide) rfl (some 128) (fun _ => 0) (fun _ => 0) (fun _ => "app") (by simp) (by decide +kernel) (by decide +kernel)
  obtain ⟨d', g1, -, g3⟩ := (h3 "inner" (by simp)).2 (by decide +kernel)
  refine ⟨d, h1, h2.trans (by decide +kernel), d', g1, (g3 .exception).trans (by decide +kernel), (g3 .success).trans (by decide +kernel)⟩

end Verif.Totals
