import Verif.Lemmas.Modes
import Verif.Lemmas.Quiet
import Verif.Lemmas.DelInv
import Verif.Lemmas.Registry
import Verif.Model.Step
import Verif.Spec.Samples
/-!
# One thread of the model of modes is the sequential model (C99, C100)

`Model/Modes.lean` hands an event to all sinks of a logger in one step and knows events by numbers.  Here it is compared with
the world model: every logger has a sink of its own that has all hooks, and what that sink is handed in the world model is what
`Modes` says was handed over; queues, modes, the mode of the context and the table of loggers are the same too.
-/
namespace Verif.Modes
attribute [local irreducible] QUEUE_LIMIT

/-- The calls, for both models. -/
inductive Cmd
  | publish (l : LogId) (k : Kind) (e : Event)
  | new (l : LogId) (sinks : List SinkId) (given : Option Bool)
  | setAsync (l : LogId) (b : Bool)
  | remove (l : LogId)
  | enable (update : Bool)
  | disable (update : Bool)
  | flush
  | flushLogger (l : LogId)

/-- What a call is in the world model. -/
def Cmd.world (env : Env) (w : World) : Cmd → World
  | .publish l k e => (Verif.publish env w l k e).1
  | .new l ss g => (Verif.step env w (.newLogger l ss g)).1
  | .setAsync l b => (Verif.step env w (.setAsync l b)).1
  | .remove l => (Verif.step env w (.removeLogger l)).1
  | .enable u => (Verif.step env w (.enableAsync u)).1
  | .disable u => (Verif.step env w (.disableAsync u)).1
  | .flush => (Verif.step env w .ctxFlush).1
  | .flushLogger l => (Verif.step env w (.flush l)).1

/-- What it is in the model of modes; `code` numbers the events. -/
def Cmd.act (code : Kind × Event → Ev) : Cmd → Act
  | .publish l k e => .publish l (code (k, e))
  | .new l _ g => .new l g
  | .setAsync l b => .setAsync l b
  | .remove l => .remove l
  | .enable u => .enable u
  | .disable u => .disable u
  | .flush => .flush
  | .flushLogger l => .flushLogger l

/-- Calls the application can make in this world: it publishes to loggers it has, the loggers it makes are new, and each has
its recording sink `r l` among its sinks, and no other logger's. -/
def Cmd.possible (r : LogId → SinkId) (w : World) : Cmd → Prop
  | .publish l k _ => k ≠ .exception ∧ w.logs l ≠ none
  | .new l ss _ => w.logs l = none ∧ r l ∈ ss ∧ ∀ m, m ≠ l → r m ∉ ss
  | _ => True

/-- Every logger of the world has its recording sink. -/
structure Wired (env : Env) (r : LogId → SinkId) (w : World) : Prop where
  reg : ∀ l L, w.logs l = some L → RegOk env L
  own : ∀ l L, w.logs l = some L → r l ∈ L.sinks ∧ ∀ m, m ≠ l → r m ∉ L.sinks
  kinds : ∀ l L, w.logs l = some L → ∀ k e, (k, e) ∈ L.queue → k ≠ .exception

/-- The state of the model of modes shows the world, with thread `t` at `p`. -/
structure ShowsAt (code : Kind × Event → Ev) (r : LogId → SinkId) (t : Tid) (p : PC) (w : World) (s : Sys) : Prop where
  ctx : s.ctxAsync = w.ctxAsync
  loggers : s.loggers = w.ctxLoggers
  mode : ∀ l L, w.logs l = some L → s.mode l = L.async
  queue : ∀ l, s.queue l = (match w.logs l with | none => [] | some L => L.queue).map code
  got : ∀ l, s.got l = (received (r l) w.trace).map code
  owner : ∀ l, s.owner l = none
  pc : s.pcs[t]? = some p

/-- Thread `t`, left alone, gets from one state to the other. -/
def Goes (t : Tid) (s s' : Sys) : Prop := ∃ n, run s (List.replicate n (t, .go)) = s'

theorem Goes.refl (t : Tid) (s : Sys) : Goes t s s := ⟨0, rfl⟩

theorem Goes.one {t : Tid} {s s' : Sys} (h : step s t .go = s') : Goes t s s' := ⟨1, h⟩

theorem Goes.trans {t : Tid} {a b c : Sys} (h : Goes t a b) (h' : Goes t b c) : Goes t a c := by
  obtain ⟨n, hn⟩ := h
  obtain ⟨m, hm⟩ := h'
  refine ⟨n + m, ?_⟩
  rw [← List.replicate_append_replicate, run_append, hn, hm]

section
variable {env : Env} {r : LogId → SinkId} {w : World} {code : Kind × Event → Ev} {t : Tid}

theorem Wired.heard (h : Wired env r w) (hr : ∀ l k, env.hasHook (r l) k = true) {l : LogId} {L : Log}
    (hL : w.logs l = some L) (m : LogId) (k : Kind) (e : Event) :
    received (r m) (hookCalls L k e) = if m = l then [(k, e)] else [] := by
  rw [received_quiet (h.reg l L hL)]
  by_cases hm : m = l
  · subst hm; simp [(h.own m L hL).1, hr]
  · simp [(h.own l L hL).2 m hm, hm]

theorem Wired.heard_all (h : Wired env r w) (hr : ∀ l k, env.hasHook (r l) k = true) {l : LogId} {L : Log}
    (hL : w.logs l = some L) (m : LogId) (q : List (Kind × Event)) :
    received (r m) (expand L q) = if m = l then q else [] := by
  induction q with
  | nil => simp [expand, received]
  | cons p q ih =>
    have : expand L (p :: q) = hookCalls L p.1 p.2 ++ expand L q := rfl
    rw [this, received_append, h.heard hr hL, ih]
    by_cases hm : m = l <;> simp [hm]

/-- The loop of `Logger.flush`. -/
theorem drain_goes (l : LogId) (ls : List LogId) (off : Bool) : ∀ (q : List Ev) (s : Sys),
    s.pcs[t]? = some (.loop l ls off) → s.queue l = q →
    ∃ s', Goes t s s' ∧ s'.pcs[t]? = some (.flush ls off) ∧ s'.queue = upd s.queue l [] ∧
      s'.got = upd s.got l (s.got l ++ q) ∧ s'.owner = upd s.owner l none ∧ s'.mode = s.mode ∧
      s'.ctxAsync = s.ctxAsync ∧ s'.loggers = s.loggers
  | [], s, hp, hq => by
    refine ⟨{ s with owner := upd s.owner l none }.to t (.flush ls off), Goes.one ?_, set_self hp _, ?_, ?_, rfl, rfl, rfl, rfl⟩
    · rw [step_go hp]; simp [go, hq]
    · funext m; by_cases hm : m = l
      · subst hm; simpa [Sys.to] using hq
      · simp [Sys.to, upd, hm]
    · funext m; by_cases hm : m = l
      · subst hm; simp [Sys.to]
      · simp [Sys.to, upd, hm]
  | e :: q, s, hp, hq => by
    have h1 : step s t .go = { s with queue := upd s.queue l q }.to t (.deliv l e ls off) := by
      rw [step_go hp]; simp [go, hq]
    have hp1 : ({ s with queue := upd s.queue l q }.to t (.deliv l e ls off)).pcs[t]? = some (.deliv l e ls off) := set_self hp _
    have h2 := step_go hp1
    simp only [go] at h2
    have hp2 := set_self hp1 (.loop l ls off)
    obtain ⟨s', g, i1, i2, i3, i4, i5, i6, i7⟩ := drain_goes l ls off q
      (step ({ s with queue := upd s.queue l q }.to t (.deliv l e ls off)) t .go) (by rw [h2]; exact hp2) (by rw [h2]; simp [Sys.to])
    rw [h2] at g i2 i3 i4 i5 i6 i7
    refine ⟨s', ((Goes.one h1).trans (Goes.one h2)).trans g, i1, ?_, ?_, i4, i5, i6, i7⟩
    · rw [i2]; funext m; by_cases hm : m = l <;> simp [Sys.to, upd, hm]
    · rw [i3]; funext m; by_cases hm : m = l <;> simp [Sys.to, upd, hm]

/-- `Logger.flush`. -/
theorem flush_goes (hq : env.Quiet) (hr : ∀ l k, env.hasHook (r l) k = true) (hw : Wired env r w) {s : Sys}
    {l : LogId} {ls : List LogId} {off : Bool} (h : ShowsAt code r t (.flush (l :: ls) off) w s) :
    ∃ s', Goes t s s' ∧ ShowsAt code r t (.flush ls off) (Verif.flush env w l).1 s' ∧
      Wired env r (Verif.flush env w l).1 ∧ (Verif.flush env w l).2 = none := by
  have h1 : step s t .go = { s with owner := upd s.owner l (some t) }.to t (.loop l ls off) := by
    rw [step_go h.pc]; simp [go, h.owner l]
  obtain ⟨s', g, i1, i2, i3, i4, i5, i6, i7⟩ := drain_goes (t := t) l ls off (s.queue l)
    ({ s with owner := upd s.owner l (some t) }.to t (.loop l ls off)) (set_self h.pc _) rfl
  refine ⟨s', (Goes.one h1).trans g, ?_⟩
  have hown : ∀ m, s'.owner m = none := by
    intro m; rw [i4]
    by_cases hm : m = l
    · subst hm; simp
    · simp [Sys.to, upd, hm, h.owner m]
  cases hl : w.logs l with
  | none =>
    rw [show Verif.flush env w l = (w, none) by simp [Verif.flush, hl]]
    have h0 : s.queue l = [] := by rw [h.queue l, hl]; rfl
    refine ⟨⟨i6.trans h.ctx, i7.trans h.loggers, fun m M hM => ?_, fun m => ?_, fun m => ?_, hown, i1⟩, hw, rfl⟩
    · rw [i5]; exact h.mode m M hM
    · rw [i2, ← h.queue m]
      by_cases hm : m = l
      · subst hm; simp [h0]
      · simp [Sys.to, upd, hm]
    · rw [i3, ← h.got m, h0]
      by_cases hm : m = l
      · subst hm; simp [Sys.to]
      · simp [Sys.to, upd, hm]
  | some L =>
    rw [flush_quiet hq hl (hw.kinds l L hl)]
    have hs : s.queue l = L.queue.map code := by rw [h.queue l, hl]
    refine ⟨⟨i6.trans h.ctx, i7.trans h.loggers, fun m M hM => ?_, fun m => ?_, fun m => ?_, hown, i1⟩, ?_, rfl⟩
    · rw [i5]
      by_cases hm : m = l
      · subst hm
        simp [World.setLog] at hM
        subst hM
        exact h.mode m L hl
      · refine h.mode m M ?_
        simpa [World.setLog, hm, World.tick, World.logged] using hM
    · rw [i2]
      by_cases hm : m = l
      · subst hm; simp [World.setLog]
      · have := h.queue m
        simpa [World.setLog, hm, World.tick, World.logged, Sys.to, upd] using this
    · rw [i3]
      have hp : received (r m) (L.preflush.map (Obs.preflush l)) = [] :=
        received_noHook _ (by simp [Obs.isHook])
      have ht : (((w.logged (L.preflush.map (Obs.preflush l) ++ expand L L.queue)).tick).setLog l
          { L with queue := [], lastFlush := w.now env }).trace =
          w.trace ++ (L.preflush.map (Obs.preflush l) ++ expand L L.queue) := rfl
      rw [ht, received_append, received_append, hp, hw.heard_all hr hl, List.nil_append, List.map_append, ← h.got m]
      by_cases hm : m = l
      · subst hm; simp [Sys.to, hs]
      · simp [Sys.to, upd, hm]
    · refine ⟨fun m M hM => ?_, fun m M hM => ?_, fun m M hM => ?_⟩ <;>
      · by_cases hm : m = l
        · subst hm
          simp [World.setLog] at hM
          subst hM
          first
            | exact ⟨(hw.reg m L hl).nodup, (hw.reg m L hl).hooks⟩
            | exact hw.own m L hl
            | simp
        · have hM' : w.logs m = some M := by simpa [World.setLog, hm, World.tick, World.logged] using hM
          first
            | exact hw.reg m M hM'
            | exact hw.own m M hM'
            | exact hw.kinds m M hM'

/-- The loop of `context.flush`. -/
theorem flushes_goes (hq : env.Quiet) (hr : ∀ l k, env.hasHook (r l) k = true) {off : Bool} : ∀ (ls : List LogId) {w : World} {s : Sys},
    Wired env r w → ShowsAt code r t (.flush ls off) w s →
    ∃ s', Goes t s s' ∧ ShowsAt code r t (.flush [] off) (ctxFlush env ls w).1 s' ∧ Wired env r (ctxFlush env ls w).1 ∧
      (ctxFlush env ls w).2 = none
  | [], w, s, hw, h => ⟨s, Goes.refl t s, h, hw, rfl⟩
  | l :: ls, w, s, hw, h => by
    obtain ⟨s1, g1, h1, w1, e1⟩ := flush_goes hq hr hw h
    obtain ⟨s2, g2, h2, w2, e2⟩ := flushes_goes hq hr ls w1 h1
    have : ctxFlush env (l :: ls) w = ctxFlush env ls (Verif.flush env w l).1 := by
      simp only [ctxFlush]
      cases hf : Verif.flush env w l with
      | mk w' x => rw [hf] at e1; dsimp only at e1; subst e1; rfl
    rw [this]
    exact ⟨s2, g1.trans g2, h2, w2, e2⟩

theorem Wired.setAsync (hw : Wired env r w) (l : LogId) (b : Bool) : Wired env r (Verif.setAsync w l b) := by
  unfold Verif.setAsync
  cases hl : w.logs l with
  | none => exact hw
  | some L =>
    refine ⟨fun m M hM => ?_, fun m M hM => ?_, fun m M hM => ?_⟩ <;>
    · by_cases hm : m = l
      · subst hm
        simp [World.setLog] at hM
        subst hM
        first
          | exact ⟨(hw.reg m L hl).nodup, (hw.reg m L hl).hooks⟩
          | exact hw.own m L hl
          | exact hw.kinds m L hl
      · have hM' : w.logs m = some M := by simpa [World.setLog, hm] using hM
        first
          | exact hw.reg m M hM'
          | exact hw.own m M hM'
          | exact hw.kinds m M hM'

theorem ShowsAt.setAsync {s s' : Sys} {p q : PC} {l : LogId} {b : Bool} (h : ShowsAt code r t p w s)
    (hs : s' = { s with mode := upd s.mode l b }.to t q) : ShowsAt code r t q (Verif.setAsync w l b) s' := by
  subst hs
  unfold Verif.setAsync
  cases hl : w.logs l with
  | none =>
    refine ⟨h.ctx, h.loggers, fun m M hM => ?_, h.queue, h.got, h.owner, set_self h.pc _⟩
    have hm : m ≠ l := by rintro rfl; simp [hl] at hM
    simpa [Sys.to, upd, hm] using h.mode m M hM
  | some L =>
    refine ⟨h.ctx, h.loggers, fun m M hM => ?_, fun m => ?_, h.got, h.owner, set_self h.pc _⟩
    · by_cases hm : m = l
      · subst hm
        simp [World.setLog] at hM
        subst hM
        simp [Sys.to]
      · have hM' : w.logs m = some M := by simpa [World.setLog, hm] using hM
        simpa [Sys.to, upd, hm] using h.mode m M hM'
    · have := h.queue m
      by_cases hm : m = l
      · subst hm
        rw [hl] at this
        simpa [World.setLog, Sys.to] using this
      · simpa [World.setLog, hm, Sys.to] using this

/-- The loop that calls `set_async(False)`. -/
theorem setting_goes {d : Bool} : ∀ (ls : List LogId) {w : World} {s : Sys}, Wired env r w →
    ShowsAt code r t (.setting ls d) w s →
    ∃ s', Goes t s s' ∧ ShowsAt code r t (.setting [] d) (ls.foldl (fun w l => Verif.setAsync w l false) w) s' ∧
      Wired env r (ls.foldl (fun w l => Verif.setAsync w l false) w)
  | [], w, s, hw, h => ⟨s, Goes.refl t s, h, hw⟩
  | l :: ls, w, s, hw, h => by
    have h1 := step_go h.pc
    simp only [go] at h1
    obtain ⟨s2, g2, h2, w2⟩ := setting_goes ls (hw.setAsync l false) (h.setAsync (l := l) (b := false) (q := .setting ls d) rfl)
    exact ⟨s2, (Goes.one h1).trans g2, h2, w2⟩

theorem ShowsAt.move {s : Sys} {p : PC} (h : ShowsAt code r t p w s) (q : PC) : ShowsAt code r t q w (s.to t q) :=
  ⟨h.ctx, h.loggers, h.mode, h.queue, h.got, h.owner, set_self h.pc _⟩

theorem setAsync_loggers (ls : List LogId) (w : World) :
    (ls.foldl (fun w l => Verif.setAsync w l false) w).ctxLoggers = w.ctxLoggers := by
  induction ls generalizing w with
  | nil => rfl
  | cons l ls ih => rw [List.foldl_cons, ih]; unfold Verif.setAsync; cases w.logs l <;> rfl

theorem Wired.of_logs {w' : World} (hw : Wired env r w) (h : w'.logs = w.logs) : Wired env r w' :=
  ⟨fun l L hL => hw.reg l L (h ▸ hL), fun l L hL => hw.own l L (h ▸ hL), fun l L hL => hw.kinds l L (h ▸ hL)⟩

/-- One call, made by thread `t` and left alone until it returns. -/
theorem call_goes (hq : env.Quiet) (hr : ∀ l k, env.hasHook (r l) k = true) (hw : Wired env r w) {s : Sys}
    (h : ShowsAt code r t .idle w s) (c : Cmd) (hc : c.possible r w) :
    ∃ s', Goes t (step s t (c.act code)) s' ∧ ShowsAt code r t .idle (c.world env w) s' ∧ Wired env r (c.world env w) := by
  have hgo : c.act code ≠ .go := by cases c <;> simp [Cmd.act]
  rw [step_call h.pc hgo]
  cases c with
  | publish l k e =>
    obtain ⟨hk, hl⟩ := hc
    obtain ⟨L, hL⟩ := Option.ne_none_iff_exists'.1 hl
    have hp0 : (call s t (.publish l (code (k, e)))).pcs[t]? = some (.read l (code (k, e))) := set_self h.pc _
    have h1 := step_go hp0
    have hm : (call s t (.publish l (code (k, e)))).mode l = L.async := h.mode l L hL
    simp only [go, hm] at h1
    cases ha : L.async with
    | true =>
      rw [ha, if_pos rfl] at h1
      have hp1 := set_self hp0 (.append l (code (k, e)))
      have h2 := step_go (s := (call s t (.publish l (code (k, e)))).to t (.append l (code (k, e)))) hp1
      simp only [go] at h2
      refine ⟨_, (Goes.one h1).trans (Goes.one h2), ?_, ?_⟩
      · simp only [Cmd.world, Verif.publish, hL, ha, if_true]
        refine ⟨h.ctx, h.loggers, fun m M hM => ?_, fun m => ?_, h.got, h.owner, set_self hp1 _⟩
        · by_cases hml : m = l
          · subst hml
            simp [World.setLog] at hM
            subst hM
            exact (h.mode m L hL).trans ha
          · exact h.mode m M (by simpa [World.setLog, hml] using hM)
        · have hqm := h.queue m
          by_cases hml : m = l
          · subst hml
            rw [hL] at hqm
            simp only [Sys.to, upd_same, World.setLog, if_true]
            show pushBounded QUEUE_LIMIT (s.queue m) _ = _
            rw [hqm]
            simp [pushBounded, List.map_drop]
          · simpa [World.setLog, hml, Sys.to, upd, call] using hqm
      · simp only [Cmd.world, Verif.publish, hL, ha, if_true]
        refine ⟨fun m M hM => ?_, fun m M hM => ?_, fun m M hM => ?_⟩ <;>
        · by_cases hml : m = l
          · subst hml
            simp [World.setLog] at hM
            subst hM
            first
              | exact ⟨(hw.reg m L hL).nodup, (hw.reg m L hL).hooks⟩
              | exact hw.own m L hL
              | (intro k' e' hke
                 have : (k', e') ∈ L.queue ++ [(k, e)] := List.mem_of_mem_drop hke
                 rcases List.mem_append.1 this with h' | h'
                 · exact hw.kinds m L hL k' e' h'
                 · simp at h'; rw [h'.1]; exact hk)
          · have hM' : w.logs m = some M := by simpa [World.setLog, hml] using hM
            first
              | exact hw.reg m M hM'
              | exact hw.own m M hM'
              | exact hw.kinds m M hM'
    | false =>
      rw [ha, if_neg (by simp)] at h1
      have hp1 := set_self hp0 (.deliver l (code (k, e)))
      have h2 := step_go (s := (call s t (.publish l (code (k, e)))).to t (.deliver l (code (k, e)))) hp1
      simp only [go] at h2
      have hpub : Cmd.world env w (.publish l k e) = ({ w with pub := w.pub ++ [(k, e)] }).logged (hookCalls L k e) := by
        simp [Cmd.world, Verif.publish, hL, ha, callAll_quiet hq]
      refine ⟨_, (Goes.one h1).trans (Goes.one h2), ?_, ?_⟩
      · rw [hpub]
        refine ⟨h.ctx, h.loggers, h.mode, h.queue, fun m => ?_, h.owner, set_self hp1 _⟩
        have ht : (({ w with pub := w.pub ++ [(k, e)] } : World).logged (hookCalls L k e)).trace = w.trace ++ hookCalls L k e := rfl
        rw [ht, received_append, hw.heard hr hL, List.map_append, ← h.got m]
        by_cases hml : m = l
        · subst hml; simp [Sys.to, call]
        · simp [Sys.to, call, upd, hml]
      · rw [hpub]; exact hw.of_logs rfl
  | new l ss g =>
    obtain ⟨hl, hm, ho⟩ := hc
    have hp0 : (call s t (.new l g)).pcs[t]? = some (.made l g) := set_self h.pc _
    have h1 := step_go hp0
    simp only [go] at h1
    have hp1 := set_self hp0 (.set l (g.getD (call s t (.new l g)).ctxAsync))
    have h2 := step_go (s := (call s t (.new l g)).to t (.set l (g.getD (call s t (.new l g)).ctxAsync))) hp1
    simp only [go] at h2
    have hrest := setSinks_rest env
      { sinks := [], hooks := fun _ => [], async := g.getD w.ctxAsync, queue := [], preflush := [], lastFlush := w.now env } ss
    simp only [Log.rest, Prod.mk.injEq] at hrest
    have hasync : (newLog env w ss g).async = g.getD w.ctxAsync := hrest.1
    have hqueue : (newLog env w ss g).queue = [] := hrest.2.1
    have hworld : Cmd.world env w (.new l ss g) = addLogger (w.tick.setLog l (newLog env w ss g)) l := by
      simp [Cmd.world, Verif.step, hl]
    have hlogs : (addLogger (w.tick.setLog l (newLog env w ss g)) l).logs =
        fun m => if m = l then some (newLog env w ss g) else w.logs m := by
      unfold addLogger; split <;> rfl
    refine ⟨_, (Goes.one h1).trans (Goes.one h2), ?_, ?_⟩
    · rw [hworld]
      refine ⟨?_, ?_, fun m M hM => ?_, fun m => ?_, fun m => ?_, h.owner, set_self hp1 _⟩
      · unfold addLogger; split <;> exact h.ctx
      · show (if l ∈ s.loggers then s.loggers else s.loggers ++ [l]) = _
        rw [h.loggers]
        unfold addLogger
        show _ = World.ctxLoggers (if l ∈ w.ctxLoggers then _ else _)
        split <;> rfl
      · rw [hlogs] at hM
        by_cases hml : m = l
        · subst hml
          simp at hM
          subst hM
          rw [hasync, ← h.ctx]
          simp [Sys.to, call]
        · simp [hml] at hM
          simpa [Sys.to, call, upd, hml] using h.mode m M hM
      · have hqm := h.queue m
        rw [hlogs]
        by_cases hml : m = l
        · subst hml
          rw [hl] at hqm
          simp [hqueue]
          exact hqm
        · simpa [hml, Sys.to, call] using hqm
      · have : (addLogger (w.tick.setLog l (newLog env w ss g)) l).trace = w.trace := by
          unfold addLogger; split <;> rfl
        rw [this]; exact h.got m
    · rw [hworld]
      have hsinks : (newLog env w ss g).sinks = firsts ss := newLog_sinks env w ss g
      refine ⟨fun m M hM => ?_, fun m M hM => ?_, fun m M hM => ?_⟩ <;>
      · rw [hlogs] at hM
        by_cases hml : m = l
        · subst hml
          simp at hM
          subst hM
          first
            | exact regOk_setSinks env _ ss
            | (rw [hsinks]; simpa [mem_firsts] using ⟨hm, ho⟩)
            | (rw [hqueue]; simp)
        · simp [hml] at hM
          first
            | exact hw.reg m M hM
            | exact hw.own m M hM
            | exact hw.kinds m M hM
  | setAsync l b =>
    have hp0 : (call s t (.setAsync l b)).pcs[t]? = some (.set l b) := set_self h.pc _
    have h1 := step_go hp0
    simp only [go] at h1
    exact ⟨_, Goes.one h1, (h.move (.set l b)).setAsync rfl, hw.setAsync l b⟩
  | remove l =>
    refine ⟨_, Goes.refl t _, ?_, hw.of_logs rfl⟩
    refine ⟨h.ctx, ?_, h.mode, h.queue, h.got, h.owner, h.pc⟩
    show s.loggers.filter _ = w.ctxLoggers.filter _
    rw [h.loggers]
  | enable u =>
    have h0 : ShowsAt code r t (if u then .snap false else .idle) { w with ctxAsync := true } (call s t (.enable u)) :=
      ⟨rfl, h.loggers, h.mode, h.queue, h.got, h.owner, set_self h.pc _⟩
    cases u with
    | false => exact ⟨_, Goes.refl t _, h0, hw.of_logs rfl⟩
    | true =>
      have h1 := step_go h0.pc
      simp only [if_true, go] at h1
      have h2 := h0.move (.setting (call s t (.enable true)).loggers false)
      obtain ⟨s2, g2, h3, w3⟩ := setting_goes _ (hw.of_logs (w' := { w with ctxAsync := true }) rfl) h2
      have h4 := step_go h3.pc
      simp only [go] at h4
      refine ⟨_, ((Goes.one h1).trans g2).trans (Goes.one h4), ?_, ?_⟩
      · have h5 := h3.move .idle
        rw [h0.loggers] at h5
        exact h5
      · rw [h0.loggers] at w3
        exact w3
  | disable u =>
    have key : ∃ s1 w1, Goes t (call s t (.disable u)) s1 ∧ ShowsAt code r t (.flushSnap true) w1 s1 ∧ Wired env r w1 ∧
        w1 = (if u then w.ctxLoggers.foldl (fun w l => Verif.setAsync w l false) w else w) := by
      cases u with
      | false => exact ⟨_, w, Goes.refl t _, h.move (.flushSnap true), hw, rfl⟩
      | true =>
        have h0 : ShowsAt code r t (.snap true) w (call s t (.disable true)) := h.move _
        have h1 := step_go h0.pc
        simp only [go] at h1
        have h2 := h0.move (.setting (call s t (.disable true)).loggers true)
        obtain ⟨s2, g2, h3, w3⟩ := setting_goes _ hw h2
        have h4 := step_go h3.pc
        simp only [go, if_true] at h4
        have h5 := h3.move (.flushSnap true)
        rw [h0.loggers] at h5 w3
        exact ⟨_, _, ((Goes.one h1).trans g2).trans (Goes.one h4), h5, w3, rfl⟩
    obtain ⟨s1, w1, g1, h1, hw1, e1⟩ := key
    have h2 := step_go h1.pc
    simp only [go] at h2
    obtain ⟨s3, g3, h3, hw3, e3⟩ := flushes_goes hq hr _ hw1 (h1.move (.flush s1.loggers true))
    have h4 := step_go h3.pc
    simp only [go, if_true] at h4
    have hworld : Cmd.world env w (.disable u) = { (ctxFlush env w1.ctxLoggers w1).1 with ctxAsync := false } := by
      simp only [Cmd.world, Verif.step, disableAsync, ← e1, ret]
      rw [← h1.loggers]
      cases hf : ctxFlush env s1.loggers w1 with
      | mk w' x => rw [hf] at e3; dsimp only at e3; subst e3; rfl
    rw [h1.loggers] at h3 hw3
    refine ⟨_, ((g1.trans (Goes.one h2)).trans g3).trans (Goes.one h4), ?_, ?_⟩
    · rw [hworld]
      exact ⟨rfl, h3.loggers, h3.mode, h3.queue, h3.got, h3.owner, set_self h3.pc _⟩
    · rw [hworld]; exact hw3.of_logs rfl
  | flush =>
    have h1 : ShowsAt code r t (.flushSnap false) w (call s t .flush) := h.move _
    have h2 := step_go h1.pc
    simp only [go] at h2
    obtain ⟨s3, g3, h3, hw3, e3⟩ := flushes_goes hq hr _ hw (h1.move (.flush (call s t .flush).loggers false))
    have h4 := step_go h3.pc
    simp only [go] at h4
    rw [h1.loggers] at h3 hw3
    exact ⟨_, ((Goes.one h2).trans g3).trans (Goes.one h4), h3.move .idle, hw3⟩
  | flushLogger l =>
    obtain ⟨s3, g3, h3, hw3, e3⟩ := flush_goes hq hr hw (h.move (.flush [l] false))
    have h4 := step_go h3.pc
    simp only [go] at h4
    exact ⟨_, g3.trans (Goes.one h4), h3.move .idle, hw3⟩

/-- A list of calls the application can make, one after the other. -/
def allPossible (env : Env) (r : LogId → SinkId) : World → List Cmd → Prop
  | _, [] => True
  | w, c :: cs => c.possible r w ∧ allPossible env r (c.world env w) cs

/-- Schedules in which thread `t` makes these calls one after the other, each left alone until it has returned. -/
inductive Serial (code : Kind × Event → Ev) (t : Tid) : List Cmd → List (Tid × Act) → Prop
  | nil : Serial code t [] []
  | cons (c : Cmd) (n : Nat) {cs : List Cmd} {sched : List (Tid × Act)} :
    Serial code t cs sched → Serial code t (c :: cs) ((t, c.act code) :: (List.replicate n (t, .go) ++ sched))

/-- **C99**, **C100**: whatever calls are made one after the other, the model of modes and the world model agree: on what every
logger's recording sink was handed, in order, on every queue, on the modes of the loggers and of the context, and on the table. -/
theorem C99_sequential (hq : env.Quiet) (hr : ∀ l k, env.hasHook (r l) k = true) (cs : List Cmd) {w : World} {s : Sys}
    (hw : Wired env r w) (h : ShowsAt code r t .idle w s) (hc : allPossible env r w cs) :
    ∃ sched, Serial code t cs sched ∧ ShowsAt code r t .idle (cs.foldl (Cmd.world env) w) (run s sched) := by
  induction cs generalizing w s with
  | nil => exact ⟨[], .nil, h⟩
  | cons c cs ih =>
    obtain ⟨s1, ⟨n, g1⟩, h1, w1⟩ := call_goes hq hr hw h c hc.1
    obtain ⟨sched, p, h2⟩ := ih w1 h1 hc.2
    refine ⟨_, .cons c n p, ?_⟩
    rw [run_cons, run_append, g1]
    exact h2
end

/-- The fresh states show each other. -/
theorem init_shows (code : Kind × Event → Ev) (r : LogId → SinkId) {n : Nat} (t : Tid) (ht : t < n) :
    ShowsAt code r t .idle World.init (init n) :=
  ⟨rfl, rfl, fun _ _ h => by simp [World.init] at h, fun _ => rfl, fun _ => rfl, fun _ => rfl, by simp [init, ht]⟩

theorem init_wired (env : Env) (r : LogId → SinkId) : Wired env r World.init :=
  ⟨fun _ _ h => by simp [World.init] at h, fun _ _ h => by simp [World.init] at h, fun _ _ h => by simp [World.init] at h⟩

/-! ### A case -/

/-- The recording sink of a logger. -/
def recorder (l : LogId) : SinkId := 10 + l

/-- An event of logger `l`. -/
def ev (l : LogId) (i : Nat) : Event := ⟨i, 0, l, .begin, .begin, 0, "m", [], none⟩

/-- Two loggers, one asynchronous from the start, one because of the context; events, a flush, and back to synchronous. -/
def calls : List Cmd :=
  [.new 0 [10, 5] (some true), .publish 0 .begin (ev 0 1), .enable false, .new 1 [11, 5] none, .publish 1 .warn (ev 1 2),
   .publish 0 .end_ (ev 0 3), .flush, .publish 1 .begin (ev 1 4), .disable true, .publish 0 .comment (ev 0 5), .remove 0]

example : allPossible Sample.quiet recorder World.init calls := by
  refine ⟨⟨rfl, by decide, ?_⟩, ⟨by decide, ?_⟩, trivial, ⟨rfl, by decide, ?_⟩, ⟨by decide, ?_⟩,
    ⟨by decide, ?_⟩, trivial, ⟨by decide, ?_⟩, trivial, ⟨by decide, ?_⟩, trivial, trivial⟩
  all_goals first
    | (rw [← Option.isSome_iff_ne_none]; decide +kernel)
    | (intro m hm h; simp [recorder] at h; omega)

/-- What the two recording sinks were handed. -/
example : let w := calls.foldl (Cmd.world Sample.quiet) World.init
    (received 10 w.trace).map (·.2.id) = [1, 3, 5] ∧ (received 11 w.trace).map (·.2.id) = [2, 4] ∧ w.ctxLoggers = [1] ∧
    w.ctxAsync = false := by decide +kernel

end Verif.Modes
