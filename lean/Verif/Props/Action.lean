import Verif.Lemmas.GotPub
import Verif.Spec.Samples
/-!
# C07, C08, C09, C10, C12, C64, C65: the life of an action
-/
namespace Verif
open scoped List

section statements
variable {env : Env} {w w0 : World} {l : LogId} {lv : Int} {nm : String} {kw : Dict} {a : ActId}

/-- **C07.**  From its creation on, through any history, the status of an action is what the calls on it
say: `begin` at first; each explicit status call sets it; leaving its with block by an exception makes it
`exception`; leaving it normally makes it `success` if it was still `begin`; nothing else changes it. -/
theorem status_follows_calls_partial (hc : env.Calm) (hr : Reachable env w)
    (hnew : step env w (.newAction l lv nm kw) = (w0, .newAct a)) (its : List Item) :
    (run env w0 its).statusOf a = some (its.foldl (fun st it => it.statusOn a st) .begin) := by
  obtain ⟨x, hx⟩ := hr.isNew hnew
  obtain ⟨y, hy, h⟩ := life_run hc.noInfo hx.reach hx.acts hx.handle its
  have : x.status = .begin := by simp [Act.status, hx.endEv]
  simp only [World.statusOf, hy, Option.map_some, h.status hc, this]

/-- **C07**, for an action whose with block is not left during the history: the status is that of the last
explicit status call, `begin` if there was none. -/
theorem status_last_call_partial (hc : env.Calm) (hr : Reachable env w)
    (hnew : step env w (.newAction l lv nm kw) = (w0, .newAct a)) (its : List Item)
    (hin : ∀ it ∈ its, ∀ e, it ≠ .exit a e) :
    (run env w0 its).statusOf a = some ((lastStatus a its).getD .begin) := by
  rw [status_follows_calls_partial hc hr hnew, foldl_lastStatus a its hin]

/-- **C07**, whatever sinks do: a call that is not a status call on `a` and does not leave its block never
changes its status; begin, warn, comments, flushes and calls on other actions are such calls. -/
theorem status_unchanged (hr : Reachable env w) (hh : w.held a = true) (it : Item) (hit : it.ends a = false) :
    (stepItem env w it).statusOf a = w.statusOf a := by
  obtain ⟨x, hx, hxh⟩ := held_iff.1 hh
  obtain ⟨y, hy, he, _⟩ := end_keep (env := env) hx hxh hr.idInv.fresh it hit
  simp only [World.statusOf, hy, hx, Option.map_some, Act.status, he]

/-- **C08.**  While the status is `begin` the duration is 0. -/
theorem duration_before_end (hr : Reachable env w) {d : Int} (hs : w.statusOf a = some .begin)
    (hd : w.durationOf a = some d) : d = 0 := by
  simp only [World.statusOf, World.durationOf, Option.map_eq_some_iff] at hs hd
  obtain ⟨x, hx, hs⟩ := hs
  obtain ⟨y, hy, hd⟩ := hd
  rw [hx] at hy; cases hy
  cases he : x.endEv with
  | none => simp [Act.duration, he] at hd; exact hd.symm
  | some e =>
    simp only [Act.status, he] at hs
    rcases (hr.evInv.endKind a x e hx he).2.1 with h | h | h <;> rw [h] at hs <;> cases hs

/-- **C08.**  An action whose with block was never entered has duration 0, after any history. -/
theorem duration_outside_block (hno : env.NeedsExc) (hr : Reachable env w)
    (hnew : step env w (.newAction l lv nm kw) = (w0, .newAct a)) (its : List Item)
    (hout : Item.enter a ∉ its) : (run env w0 its).durationOf a = some 0 := by
  obtain ⟨x, hx⟩ := hr.isNew hnew
  obtain ⟨y, hy, h⟩ := life_run hno hx.reach hx.acts hx.handle its
  have ht : y.isTrans = false := by
    cases hyt : y.isTrans with
    | false => rfl
    | true =>
      rcases h.trans.1 hyt with h' | h'
      · rw [hx.isTrans] at h'; cases h'
      · exact absurd h' hout
  simp only [World.durationOf, hy, Option.map_some, Option.some.injEq, Act.duration]
  split
  · rename_i e b he hb
    rw [(h.time hx.time).plain b e hb he ht]; omega
  · rfl

/-- **C08.**  With a clock that never goes back no duration is ever negative, after any history. -/
theorem duration_nonneg (hno : env.NeedsExc) (hmono : ∀ i j, i ≤ j → env.clock i ≤ env.clock j)
    (hr : Reachable env w) (hnew : step env w (.newAction l lv nm kw) = (w0, .newAct a)) (its : List Item) :
    ∃ d, (run env w0 its).durationOf a = some d ∧ 0 ≤ d := by
  obtain ⟨x, hx⟩ := hr.isNew hnew
  obtain ⟨y, hy, h⟩ := life_run hno hx.reach hx.acts hx.handle its
  refine ⟨y.duration, by simp [World.durationOf, hy], ?_⟩
  simp only [Act.duration]
  split
  · rename_i e b he hb
    have := (h.time hx.time).ordered b e hb he hmono
    omega
  · omega

theorem run_single (w : World) (it : Item) : run env w [it] = stepItem env w it := rfl

/-- What the next two theorems share. -/
theorem end_duration {w' : World} {x' : Act} {b : Event} {t : Int} {st : Status} {m : String} {f : List Val}
    {kws : Dict} {et : Option Int} {exc : Option Exc}
    (hx' : w'.acts a = some x') (ht' : x'.isTrans = true) (hb' : x'.beginEv = some b)
    (het : endTimeOf env w' x' b et = t) :
    (end_ env w' a st m f kws et exc).1.durationOf a = some (t - b.etime) := by
  rcases end_spec (env := env) hx' (fun _ => by rw [hb']; rfl) st m f kws et exc with
    ⟨b', e, h⟩ | ⟨b', y, h, _⟩
  · have : b' = b := by
      rcases h.begun with h' | ⟨h', _⟩
      · rw [hb'] at h'; cases h'; rfl
      · rw [hb'] at h'; cases h'
    subst this
    simp only [World.durationOf, h.acts, updAct_same, Option.map_some, Act.duration, h.etime, het]
  · have := h.none; rw [hb'] at this; cases this

theorem exception_duration (hc : env.Calm) {w' : World} {x' : Act} {b : Event} {t : Int} {m : Option String}
    {f : List Val} {kws : Dict} {e : Exc}
    (hx' : w'.acts a = some x') (ht' : x'.isTrans = true) (hb' : x'.beginEv = some b)
    (het : env.clock w'.ticks = t) (h0 : t ≠ 0) :
    (exception_ env w' a (some e) m f kws).1.durationOf a = some (t - b.etime) := by
  rcases exception_spec (env := env) hx' (some e) m f kws with
    ⟨err, he, hr⟩ | ⟨he, msg, ev, w1, hs, ⟨err, hp, hr⟩ | ⟨hp, hr⟩⟩
  · rw [excEarly_calm hc] at he; cases he
  · rw [publishExc_quiet hc.quiet] at hp; cases hp
  · rw [hr]
    refine end_duration (x' := { x' with excEvs := x'.excEvs ++ [ev] }) ?_ ht' hb' ?_
    · rw [publishExc_acts', hs.acts]; simp
    · simp [endTimeOf, ht', World.now, het, h0]

/-- **C08.**  Once an action's with block has been entered, `success` and `failure` set its duration to the
time from its begin event to the call, whatever sinks do; so does `exception` when its sinks do not fail.
(`exception` passes its reading of the clock on as `end_time or time.time()`: a reading of exactly 0, the
epoch, is taken again.) -/
theorem duration_of_status_call (hno : env.NeedsExc) (hr : Reachable env w)
    (hnew : step env w (.newAction l lv nm kw) = (w0, .newAct a)) (its : List Item)
    (hent : Item.enter a ∈ its) {b : Event} (hb : (run env w0 its).beginOf a = some b)
    (m : Option String) (f : List Val) (kws : Dict) {now : Int}
    (hnow : env.clock (run env w0 its).ticks = now) :
    (run env w0 (its ++ [.op (.success a m f kws)])).durationOf a = some (now - b.etime) ∧
    (run env w0 (its ++ [.op (.failure a m f kws)])).durationOf a = some (now - b.etime) ∧
    (env.Calm → ∀ e, now ≠ 0 →
      (run env w0 (its ++ [.op (.exception a (some e) m f kws)])).durationOf a = some (now - b.etime)) := by
  obtain ⟨x0, hx0⟩ := hr.isNew hnew
  obtain ⟨x, hx, h⟩ := life_run hno hx0.reach hx0.acts hx0.handle its
  have ht : x.isTrans = true := h.trans.2 (.inr hent)
  have hh : (run env w0 its).held a = true := held_iff.2 ⟨x, hx, (Act.fixed_handle h.fixed).trans hx0.handle⟩
  have hbx : x.beginEv = some b := by simpa [World.beginOf, hx] using hb
  rw [run_append, run_append]
  refine ⟨?_, ?_, ?_⟩
  · simp only [run_single, stepItem, step, guard_held hh, success, hx]
    exact end_duration hx ht hbx (by simp [endTimeOf, ht, World.now, hnow])
  · simp only [run_single, stepItem, step, guard_held hh, failure, hx]
    exact end_duration hx ht hbx (by simp [endTimeOf, ht, World.now, hnow])
  · intro hc e h0
    rw [run_append, run_single]
    simp only [stepItem, step, guard_held hh]
    exact exception_duration hc hx ht hbx hnow h0

/-- **C08.**  Leaving the block by an exception, or normally with no status call made, sets the duration to the
time from the begin event to the exit; leaving it normally after a status call does not change it. -/
theorem duration_of_exit (hc : env.Calm) (hr : Reachable env w)
    (hnew : step env w (.newAction l lv nm kw) = (w0, .newAct a)) (its : List Item)
    (hent : Item.enter a ∈ its) {b : Event} (hb : (run env w0 its).beginOf a = some b) {now : Int}
    (hnow : env.clock (run env w0 its).ticks = now) :
    (∀ e, now ≠ 0 → (run env w0 (its ++ [.exit a (some e)])).durationOf a = some (now - b.etime)) ∧
    ((run env w0 its).statusOf a = some .begin →
      (run env w0 (its ++ [.exit a none])).durationOf a = some (now - b.etime)) ∧
    ((run env w0 its).statusOf a ≠ some .begin →
      (run env w0 (its ++ [.exit a none])).durationOf a = (run env w0 its).durationOf a) := by
  obtain ⟨x0, hx0⟩ := hr.isNew hnew
  obtain ⟨x, hx, h⟩ := life_run hc.noInfo hx0.reach hx0.acts hx0.handle its
  have ht : x.isTrans = true := h.trans.2 (.inr hent)
  have hh : (run env w0 its).held a = true := held_iff.2 ⟨x, hx, (Act.fixed_handle h.fixed).trans hx0.handle⟩
  have hbx : x.beginEv = some b := by simpa [World.beginOf, hx] using hb
  have hdur : ∀ exc, (run env w0 (its ++ [.exit a exc])).durationOf a =
      (exitPublish env (run env w0 its) a exc).1.durationOf a := by
    intro exc
    rw [run_append, run_single]
    simp only [stepItem, hh, if_true, World.durationOf]
    rw [(exit_acts_pub hx exc).1]
  have hx1 : ((run env w0 its).setAct a { x with defer := false }).acts a = some { x with defer := false } := by
    simp
  refine ⟨?_, ?_, ?_⟩
  · intro e h0
    rw [hdur, exitPublish_exc hx]
    have key := exception_duration (w' := (run env w0 its).setAct a { x with defer := false }) (m := none)
      (f := []) (kws := []) (e := e) hc hx1 ht hbx hnow h0
    split
    · rename_i w1 hr1; rw [hr1] at key; exact key
    · rename_i w1 err hr1
      rw [hr1] at key; dsimp only at key
      split
      · simpa only [World.durationOf, noteAll_acts] using key
      · exact key
  · intro hs
    have hen : x.endEv = none := by
      cases he : x.endEv with
      | none => rfl
      | some ev =>
        simp only [World.statusOf, hx, Option.map_some, Act.status, he, Option.some.injEq] at hs
        rcases ((hx0.reach.run its).evInv.endKind a x ev hx he).2.1 with h | h | h <;> rw [h] at hs <;> cases hs
    rw [hdur, exitPublish_open hx hen]
    simp only [success, hx1]
    exact end_duration hx1 ht hbx (by simp [endTimeOf, ht, World.now, World.setAct, hnow])
  · intro hs
    cases he : x.endEv with
    | none => simp [World.statusOf, hx, Act.status, he] at hs
    | some ev =>
      rw [hdur, exitPublish_ended hx he]
      simp [World.durationOf, publish_acts, hx, Act.duration]

/-- **C08**, whatever foreign code does: calls that are not status calls on the action and do not leave its
block never change its duration. -/
theorem duration_unchanged (hr : Reachable env w) (hh : w.held a = true) (it : Item) (hit : it.ends a = false) :
    (stepItem env w it).durationOf a = w.durationOf a := by
  obtain ⟨x, hx, hxh⟩ := held_iff.1 hh
  obtain ⟨y, hy, he, hb⟩ := end_keep (env := env) hx hxh hr.idInv.fresh it hit
  simp only [World.durationOf, hy, hx, Option.map_some, Option.some.injEq, Act.duration, he]
  cases hxe : x.endEv with
  | none => rfl
  | some ev =>
    obtain ⟨b, hb'⟩ := Option.isSome_iff_exists.1 (hr.evInv.endKind a x ev hx hxe).2.2
    rw [hb', hb b hb']

/-- **C09.**  After any history the value of a key is the one most recently written to it by `act[k] = v` or
by a keyword of begin, warn, success, failure or exception; if there was none, the one given at creation, of
which `reraise` and `parent_action` are never part.  Calls on other actions change nothing. -/
theorem data_last_writer_partial (hc : env.Calm) (hr : Reachable env w)
    (hnew : step env w (.newAction l lv nm kw) = (w0, .newAct a)) (its : List Item) (k : String) :
    (run env w0 its).dataOf a k =
      (lastWrite k (its.flatMap (·.writesOn a))).or
        (if k = "reraise" ∨ k = "parent_action" then none else kw.get? k) := by
  obtain ⟨x, hx⟩ := hr.isNew hnew
  obtain ⟨y, hy, h⟩ := life_run hc.noInfo hx.reach hx.acts hx.handle its
  simp only [World.dataOf, hy, Option.bind_some, h.dataCalm hc, Dict.get?_update, hx.data, Dict.get?_erase]
  by_cases h1 : k = "parent_action"
  · simp [h1]
  · by_cases h2 : k = "reraise"
    · simp [h2]
    · simp [h1, h2]

/-- **C09**, whatever sinks and other foreign code do, as long as the history makes no explicit
`exception` call on the action (whose own failure comes before the keywords are stored). -/
theorem data_last_writer_any_partial (hno : env.NeedsExc) (hr : Reachable env w)
    (hnew : step env w (.newAction l lv nm kw) = (w0, .newAct a)) (its : List Item)
    (hne : ∀ it ∈ its, it.isExceptionOn a = false) (k : String) :
    (run env w0 its).dataOf a k =
      (lastWrite k (its.flatMap (·.writesOn a))).or
        (if k = "reraise" ∨ k = "parent_action" then none else kw.get? k) := by
  obtain ⟨x, hx⟩ := hr.isNew hnew
  obtain ⟨y, hy, h⟩ := life_run hno hx.reach hx.acts hx.handle its
  simp only [World.dataOf, hy, Option.bind_some, h.data hne, Dict.get?_update, hx.data, Dict.get?_erase]
  by_cases h1 : k = "parent_action"
  · simp [h1]
  · by_cases h2 : k = "reraise"
    · simp [h2]
    · simp [h1, h2]

/-- **C65.**  After any history, whatever foreign code does, `warn_events` lists exactly the warnings issued
on the action, in order; and the warnings published for it are exactly these, in order, once each. -/
theorem warnings_recorded (hno : env.NeedsExc) (hr : Reachable env w)
    (hnew : step env w (.newAction l lv nm kw) = (w0, .newAct a)) (its : List Item) :
    (run env w0 its).warningsOf a = some (its.flatMap (·.warnsOn a)) ∧
    (pubsOf (run env w0 its).pub .warn a).map (fun e => (e.msg, e.fargs)) = its.flatMap (·.warnsOn a) ∧
    (pubsOf (run env w0 its).pub .warn a).Nodup := by
  obtain ⟨x, hx⟩ := hr.isNew hnew
  obtain ⟨y, hy, h⟩ := life_run hno hx.reach hx.acts hx.handle its
  obtain ⟨news, h1, h2⟩ := h.warns
  rw [hx.warnEvs, List.nil_append] at h1
  have hr' : Reachable env (run env w0 its) := hx.reach.run its
  have hp := hr'.pubInv.warn a y hy
  have hp' : pubsOf (run env w0 its).pub .warn a = news := by rw [← h1]; exact hp
  refine ⟨by simp [World.warningsOf, hy, h1, h2], by rw [hp', h2], ?_⟩
  rw [hp', ← h1]; exact hr'.warnEvs_nodup hy

/-- **C65.**  A warning is published by the very call that issues it, in a with block or not. -/
theorem warning_published_at_once (hh : w.held a = true) (m : String) (f : List Val) (kws : Dict) :
    ∃ e, e.msg = m ∧ e.fargs = f ∧ e.act = a ∧
      (stepItem env w (.op (.warn a m f kws))).pub = w.pub ++ [(.warn, e)] := by
  obtain ⟨x, hx, _⟩ := held_iff.1 hh
  obtain ⟨e, h1, _, _, _, h5, h6, _, h8, _⟩ := warn_spec (env := env) hx m f kws
  exact ⟨e, h6, h5, h1, by simp only [stepItem, step, guard_held hh]; exact h8⟩

/-- **C10.**  In every reachable state ids are unique: two events with the same id are the same event, and
no event has the id of an action.  (Actions are named by their ids.) -/
theorem ids_unique (hr : Reachable env w) :
    (∀ e f, w.HasEvent e → w.HasEvent f → e.id = f.id → e = f) ∧
    (∀ e b, w.HasEvent e → (w.acts b).isSome → e.id ≠ b) := by
  refine ⟨hr.idInv.uniq, ?_⟩
  intro e b he hb heq
  have := hr.idInv.evAct e he
  rw [heq] at this
  rw [show w.acts b = none from this] at hb; cases hb

/-- **C10.**  Ids increase: whatever exists at one moment has smaller ids than whatever is created after
it. -/
theorem ids_increase (hr : Reachable env w) (its : List Item) :
    ∃ n, (∀ e, w.HasEvent e → e.id < n) ∧ (∀ b, (w.acts b).isSome → b < n) ∧
      (∀ e, (run env w its).HasEvent e → ¬ w.HasEvent e → n ≤ e.id) ∧
      (∀ b, ((run env w its).acts b).isSome → w.acts b = none → n ≤ b) := by
  refine ⟨w.nextId, hr.idInv.evLt, ?_, ?_⟩
  · intro b hb
    obtain ⟨x, hx⟩ := Option.isSome_iff_exists.1 hb
    exact hr.idInv.actLt b x hx
  · exact fresh_run hr its

/-- **C12 is false of the code**: a sink's `on_end` can be called twice for one action. -/
theorem end_at_most_once_violated :
    ¬ ∀ (env : Env) (w : World), Reachable env w → ∀ (s : SinkId) (a : ActId),
      (got s .end_ a w.trace).length ≤ 1 := by
  intro h
  have := h Sample.quiet (run Sample.quiet World.init (Sample.setup ++
    [Sample.mk "a", .op (.success 0 none [] []), .op (.failure 0 none [] [])])) ⟨_, rfl⟩ 0 0
  revert this; decide

/-- **C12, what does hold.**  Through any history and whatever foreign code does, a sink's `on_end` is
called for an action at most as often as the application made status calls on it or left its block.
Missing: more than one status call outside a block publishes more than one end event. -/
theorem end_at_most_once_partial (hr : Reachable env w)
    (hnew : step env w (.newAction l lv nm kw) = (w0, .newAct a)) (its : List Item) (s : SinkId) :
    (got s .end_ a (run env w0 its).trace).length ≤ (its.filter (·.ends a)).length := by
  obtain ⟨x, hx⟩ := hr.isNew hnew
  have h1 := ends_run hx.reach hx.acts hx.handle its
  have h0 : pubsOf w0.pub .end_ a = [] := by
    have := new_no_pubs hr hnew .end_
    exact this
  rw [h0] at h1
  exact Nat.le_trans ((hx.reach.run its).got_le s (by decide) a) (by simpa using h1)

/-- **C64.**  A comment publishes exactly one event, the comment, and leaves every action that existed, the
active parents and the queue-or-call mode alone. -/
theorem comment_publishes_one (hr : Reachable env w) {L : Log} (hL : w.logs l = some L)
    (m : String) (f : List Val) (kws : Dict) :
    ∃ c, c.kind = .comment ∧ c.msg = m ∧ c.fargs = f ∧ c.logger = l ∧ c.etime = env.clock w.ticks ∧
      w.acts c.act = none ∧
      (stepItem env w (.op (.comment l m f kws))).pub = w.pub ++ [(.comment, c)] ∧
      (∀ b x, w.acts b = some x → (stepItem env w (.op (.comment l m f kws))).acts b = some x) ∧
      (stepItem env w (.op (.comment l m f kws))).active = w.active := by
  simp only [stepItem, step, ret, comment, hL]
  refine ⟨mkEvent w.bump.tick.bump.bump w.nextId l .comment .comment (w.now env) m f none, rfl, rfl, rfl, rfl,
    rfl, hr.idInv.fresh, publish_pub' .., ?_, ?_⟩
  · intro b x hb
    have hne : b ≠ w.nextId := by rintro rfl; rw [show w.acts w.nextId = none from hr.idInv.fresh] at hb; cases hb
    rw [publish_acts]
    simp [updAct_ne _ _ hne, hb]
  · rw [publish_active]; rfl

/-- **C64.**  On a synchronous logger with sinks that do not raise, the comment has reached every sink with an
`on_comment`, once each in order, when the call returns, and nothing else was called. -/
theorem comment_delivered (hq : env.Quiet) (hr : Reachable env w) {L : Log} (hL : w.logs l = some L)
    (hs : L.async = false) (m : String) (f : List Val) (kws : Dict) :
    ∃ c, c.kind = .comment ∧ c.msg = m ∧ c.fargs = f ∧
      (stepItem env w (.op (.comment l m f kws))).trace = w.trace ++
        (L.sinks.filter fun s => env.hasHook s .comment).map fun s => Obs.hook s .comment c := by
  simp only [stepItem, step, ret, comment, hL]
  refine ⟨mkEvent w.bump.tick.bump.bump w.nextId l .comment .comment (w.now env) m f none, rfl, rfl, rfl, ?_⟩
  have hreg := hr.qInv.reg l L hL
  simp [publish, hL, hs, callAll_quiet hq, World.logged, hookCalls, hreg.hooks]

/-- **C64.**  The hidden action behind a comment never produces a begin, end or warn event, whatever happens
later. -/
theorem comment_never_ends (hr : Reachable env w) {L : Log} (hL : w.logs l = some L)
    (m : String) (f : List Val) (kws : Dict) (its : List Item) (k : Kind) (hk : k ≠ .comment) :
    pubsOf (run env (stepItem env w (.op (.comment l m f kws))) its).pub k w.nextId = [] := by
  have hr1 : Reachable env (stepItem env w (.op (.comment l m f kws))) := hr.item _
  have hx : ∃ x, (stepItem env w (.op (.comment l m f kws))).acts w.nextId = some x ∧ x.handle = false := by
    simp only [stepItem, step, ret, comment, hL, publish_acts]
    exact ⟨_, setAct_same .., rfl⟩
  obtain ⟨x, hx, hh⟩ := hx
  obtain ⟨y, hy, hf⟩ := hr1.good.fixed_run its hx
  exact (hr1.run its).pubInv.noBegin _ y hy ((Act.fixed_handle hf).trans hh) k hk

end statements

/-! ## The hypotheses can be met -/
namespace Sample

/-- A logger with two sinks, and an action that has just been created. -/
def start : World := run quiet World.init setup
theorem start_reachable : Reachable quiet start := ⟨_, rfl⟩
def fresh : World := (step quiet start (.newAction 0 20 "a" [("k", .other 1), ("reraise", .bool false)])).1
theorem fresh_new : step quiet start (.newAction 0 20 "a" [("k", .other 1), ("reraise", .bool false)]) =
    (fresh, .newAct 0) := rfl

/-- A history with a block, a warning, a status call, an item assignment and an exception. -/
def life : List Item :=
  [.enter 0, .op (.warn 0 "w" [] [("k", .other 2)]), .op (.failure 0 none [] []),
   .op (.setItem 0 "j" (.other 3)), .op (.comment 0 "c" [] []), .exit 0 (some boom)]

example : (run quiet fresh life).statusOf 0 = some .exception :=
  (status_follows_calls_partial quiet_calm start_reachable fresh_new life).trans (by decide)
example : (run quiet fresh (life.take 3)).statusOf 0 = some .failure :=
  (status_last_call_partial quiet_calm start_reachable fresh_new _ (by simp [life])).trans (by decide)
example : (run quiet fresh (life.take 2)).statusOf 0 = some .begin :=
  (status_last_call_partial quiet_calm start_reachable fresh_new _ (by simp [life])).trans (by decide)
example : (stepItem quiet fresh (.op (.warn 0 "w" [] []))).statusOf 0 = fresh.statusOf 0 :=
  status_unchanged (start_reachable.step _) (by decide) _ (by decide)

example : (run quiet fresh [.op (.success 0 none [] [])]).durationOf 0 = some 0 :=
  duration_outside_block quiet_needs start_reachable fresh_new _ (by simp)
example : ∃ d, (run quiet fresh life).durationOf 0 = some d ∧ 0 ≤ d :=
  duration_nonneg quiet_needs (by intro i j h; simp only [quiet]; omega) start_reachable fresh_new life
/-- The begin event was read at 20, the warning at 30, the failure at 40, the comment at 50, the exit at 60. -/
example : (run quiet fresh (life.take 2 ++ [.op (.failure 0 none [] [])])).durationOf 0 = some (40 - 20) :=
  (duration_of_status_call quiet_needs start_reachable fresh_new (life.take 2) (by simp [life]) (b := _) rfl
    none [] [] rfl).2.1
example : (run quiet fresh (life.take 5 ++ [.exit 0 (some boom)])).durationOf 0 = some (60 - 20) :=
  (duration_of_exit quiet_calm start_reachable fresh_new (life.take 5) (by simp [life]) (b := _) rfl rfl).1 boom
    (by decide)
example : (run quiet fresh (life.take 5 ++ [.exit 0 none])).durationOf 0 = some (40 - 20) :=
  ((duration_of_exit quiet_calm start_reachable fresh_new (life.take 5) (by simp [life]) (b := _) rfl rfl).2.2
    (by decide)).trans (by decide)
example : (run quiet fresh life).durationOf 0 = some 40 := by decide

example : (run quiet fresh life).dataOf 0 "k" = some (.other 2) :=
  (data_last_writer_partial quiet_calm start_reachable fresh_new life "k").trans (by decide)
example : (run quiet fresh life).dataOf 0 "reraise" = none :=
  (data_last_writer_partial quiet_calm start_reachable fresh_new life "reraise").trans (by decide)
example : (run (badSink 0 .warn) fresh life).dataOf 0 "j" = some (.other 3) := by decide

example : (run quiet fresh life).warningsOf 0 = some [("w", [])] :=
  (warnings_recorded quiet_needs start_reachable fresh_new life).1
example : (run quiet fresh life).HasEvent
    { id := 2, act := 0, logger := 0, kind := .warn, status := .warning, etime := 30, msg := "w", fargs := [],
      excInfo := none } :=
  .inl ⟨.warn, by decide⟩

example : (got 1 .end_ 0 (run quiet fresh life).trace).length = 1 := by decide
example : (got 1 .end_ 0 (run quiet fresh life).trace).length ≤ 2 :=
  end_at_most_once_partial start_reachable fresh_new life 1

example : ∃ c : Event, c.kind = .comment ∧ c.msg = "c" ∧ c.fargs = [] ∧
    (stepItem quiet fresh (.op (.comment 0 "c" [] []))).trace =
      fresh.trace ++ [Obs.hook 0 .comment c, Obs.hook 1 .comment c] :=
  comment_delivered (fun _ _ => rfl) (w := fresh) (start_reachable.step _) (l := 0) (L := ⟨[0, 1], _, false, _, _, _⟩) rfl rfl "c" [] []

end Sample
end Verif
