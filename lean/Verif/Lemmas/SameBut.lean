import Verif.Lemmas.Quiet
import Verif.Spec.SameCalls
/-!
# States that differ in modes, queues and deliveries only
-/
namespace Verif

/-- A logger without its mode and queue. -/
def Log.bare (L : Log) : Log := { L with async := false, queue := [] }

/-- The two states differ in modes, queues and deliveries only. -/
structure SameBut (w v : World) : Prop where
  nextId : w.nextId = v.nextId
  acts : w.acts = v.acts
  active : w.active = v.active
  ctxLoggers : w.ctxLoggers = v.ctxLoggers
  noteHandlers : w.noteHandlers = v.noteHandlers
  ticks : w.ticks = v.ticks
  pub : w.pub = v.pub
  logs : ∀ l, (w.logs l).map Log.bare = (v.logs l).map Log.bare

/-- The same for what a call gives. -/
def SameRes (r s : World × Option Exc) : Prop := SameBut r.1 s.1 ∧ r.2 = s.2

theorem SameBut.refl (w : World) : SameBut w w := ⟨rfl, rfl, rfl, rfl, rfl, rfl, rfl, fun _ => rfl⟩

theorem SameBut.symm {w v : World} (h : SameBut w v) : SameBut v w :=
  ⟨h.nextId.symm, h.acts.symm, h.active.symm, h.ctxLoggers.symm, h.noteHandlers.symm, h.ticks.symm, h.pub.symm,
    fun l => (h.logs l).symm⟩

theorem SameBut.trans {w v u : World} (h : SameBut w v) (h' : SameBut v u) : SameBut w u :=
  ⟨h.nextId.trans h'.nextId, h.acts.trans h'.acts, h.active.trans h'.active, h.ctxLoggers.trans h'.ctxLoggers,
    h.noteHandlers.trans h'.noteHandlers, h.ticks.trans h'.ticks, h.pub.trans h'.pub, fun l => (h.logs l).trans (h'.logs l)⟩

theorem SameBut.log {w v : World} (h : SameBut w v) (l : LogId) :
    (w.logs l = none ∧ v.logs l = none) ∨ ∃ L M, w.logs l = some L ∧ v.logs l = some M ∧ L.bare = M.bare := by
  have := h.logs l
  cases hw : w.logs l with
  | none =>
    rw [hw] at this
    cases hv : v.logs l with
    | none => exact .inl ⟨rfl, rfl⟩
    | some M => rw [hv] at this; cases this
  | some L =>
    rw [hw] at this
    cases hv : v.logs l with
    | none => rw [hv] at this; cases this
    | some M => rw [hv] at this; exact .inr ⟨L, M, rfl, rfl, Option.some.inj this⟩

theorem SameBut.logged {w v : World} (h : SameBut w v) (o o' : List Obs) : SameBut (w.logged o) (v.logged o') :=
  ⟨h.nextId, h.acts, h.active, h.ctxLoggers, h.noteHandlers, h.ticks, h.pub, h.logs⟩

theorem sameBut_logged (w : World) (o : List Obs) : SameBut (w.logged o) w := ⟨rfl, rfl, rfl, rfl, rfl, rfl, rfl, fun _ => rfl⟩

theorem SameBut.setLog {w v : World} (h : SameBut w v) (l : LogId) {L M : Log} (e : L.bare = M.bare) :
    SameBut (w.setLog l L) (v.setLog l M) := by
  refine ⟨h.nextId, h.acts, h.active, h.ctxLoggers, h.noteHandlers, h.ticks, h.pub, fun m => ?_⟩
  simp only [World.setLog]
  split
  · exact congrArg some e
  · exact h.logs m

/-- Setting a logger's record to one that differs in mode and queue. -/
theorem SameBut.setLog_left {w v : World} (h : SameBut w v) {l : LogId} {L L' : Log} (hL : w.logs l = some L)
    (e : L'.bare = L.bare) : SameBut (w.setLog l L') v := by
  refine ⟨h.nextId, h.acts, h.active, h.ctxLoggers, h.noteHandlers, h.ticks, h.pub, fun m => ?_⟩
  simp only [World.setLog]
  split
  · next hm => subst hm; rw [← h.logs m, hL]; exact congrArg some e
  · exact h.logs m

theorem SameBut.setAct {w v : World} (h : SameBut w v) (a : ActId) (x : Act) : SameBut (w.setAct a x) (v.setAct a x) :=
  ⟨h.nextId, by simp only [World.setAct, h.acts], h.active, h.ctxLoggers, h.noteHandlers, h.ticks, h.pub, h.logs⟩

theorem SameBut.setActive {w v : World} (h : SameBut w v) (l : LogId) (a : Option ActId) :
    SameBut (w.setActive l a) (v.setActive l a) :=
  ⟨h.nextId, h.acts, by simp only [World.setActive, h.active], h.ctxLoggers, h.noteHandlers, h.ticks, h.pub, h.logs⟩

theorem SameBut.tick {w v : World} (h : SameBut w v) : SameBut w.tick v.tick :=
  ⟨h.nextId, h.acts, h.active, h.ctxLoggers, h.noteHandlers, by simp only [World.tick, h.ticks], h.pub, h.logs⟩

theorem SameBut.bump {w v : World} (h : SameBut w v) : SameBut w.bump v.bump :=
  ⟨by simp only [World.bump, h.nextId], h.acts, h.active, h.ctxLoggers, h.noteHandlers, h.ticks, h.pub, h.logs⟩

theorem SameBut.now {w v : World} (h : SameBut w v) (env : Env) : w.now env = v.now env := by simp only [World.now, h.ticks]

theorem SameBut.mkEvent {w v : World} (h : SameBut w v) (a l k st t m f x) :
    mkEvent w a l k st t m f x = mkEvent v a l k st t m f x := by simp only [Verif.mkEvent, h.nextId]

section
variable {env : Env} (hq : env.Quiet)
include hq

theorem SameBut.callAll {w v : World} (h : SameBut w v) (o o' : List Obs) : SameRes (callAll env o w) (callAll env o' v) := by
  rw [callAll_quiet hq, callAll_quiet hq]; exact ⟨h.logged _ _, rfl⟩

theorem SameBut.note {w v : World} (h : SameBut w v) (n n' : String) : SameRes (noteAll env n w) (noteAll env n' v) :=
  h.callAll hq _ _

theorem SameBut.publish {w v : World} (h : SameBut w v) (l : LogId) (k : Kind) (e : Event) :
    SameRes (publish env w l k e) (publish env v l k e) := by
  have hp : SameBut { w with pub := w.pub ++ [(k, e)] } { v with pub := v.pub ++ [(k, e)] } :=
    ⟨h.nextId, h.acts, h.active, h.ctxLoggers, h.noteHandlers, h.ticks, by simp only [h.pub], h.logs⟩
  simp only [Verif.publish]
  rcases h.log l with ⟨h1, h2⟩ | ⟨L, M, h1, h2, hb⟩
  · rw [h1, h2]; exact ⟨hp, rfl⟩
  · rw [h1, h2]
    dsimp only
    have hqueue : ∀ {w v : World} {L : Log}, SameBut w v → w.logs l = some L → ∀ q, SameBut (w.setLog l { L with queue := q }) v :=
      fun h hL q => h.setLog_left hL rfl
    split <;> split
    · exact ⟨(hqueue (hqueue hp.symm h2 _).symm h1 _), rfl⟩
    · rw [callAll_quiet hq]
      exact ⟨(hqueue hp h1 _).trans (sameBut_logged _ _).symm, rfl⟩
    · rw [callAll_quiet hq]
      exact ⟨((hqueue hp.symm h2 _).trans (sameBut_logged _ _).symm).symm, rfl⟩
    · exact hp.callAll hq _ _

theorem SameBut.publishExc {w v : World} (h : SameBut w v) (l : LogId) (e : Event) :
    SameRes (publishExc env w l e) (publishExc env v l e) := by
  simp only [Verif.publishExc]
  rcases h.log l with ⟨h1, h2⟩ | ⟨L, M, h1, h2, -⟩
  · rw [h1, h2]; exact ⟨h, rfl⟩
  · rw [h1, h2]; exact h.callAll hq _ _

theorem drain_same (l : LogId) (L : Log) (q : List (Kind × Event)) (w v : World)
    (h : SameBut (w.setLog l { L with queue := [] }) v) :
    SameBut (drain env l L q w).1 v ∧ (drain env l L q w).2 = none := by
  induction q generalizing w with
  | nil => exact ⟨h, rfl⟩
  | cons p q ih =>
    obtain ⟨k, e⟩ := p
    simp only [drain, deliver]
    have key : ∀ o, SameBut (((w.setLog l { L with queue := q }).logged o).setLog l { L with queue := [] }) v := by
      intro o
      refine SameBut.trans ?_ h
      refine ⟨rfl, rfl, rfl, rfl, rfl, rfl, rfl, fun m => ?_⟩
      simp only [World.setLog, World.logged]; split <;> rfl
    cases k
    all_goals
      simp only [noteAll, callAll_quiet hq]
      exact ih _ (key _)

theorem SameBut.flush {w v : World} (h : SameBut w v) (l : LogId) : SameRes (flush env w l) (flush env v l) := by
  simp only [Verif.flush]
  rcases h.log l with ⟨h1, h2⟩ | ⟨L, M, h1, h2, hb⟩
  · rw [h1, h2]; exact ⟨h, rfl⟩
  · rw [h1, h2]
    simp only [runPreflush_quiet hq]
    generalize L.preflush.map (Obs.preflush l) = o1
    generalize M.preflush.map (Obs.preflush l) = o2
    have hw : SameBut ((w.logged o1).setLog l { L with queue := [] }) v :=
      ((sameBut_logged w o1).setLog_left (l := l) (L := L) (L' := { L with queue := [] }) h1 rfl).trans h
    have hv : SameBut ((v.logged o2).setLog l { M with queue := [] }) v :=
      (sameBut_logged v o2).setLog_left (l := l) (L := M) h2 rfl
    obtain ⟨d1, d2⟩ := drain_same hq l L L.queue (w.logged o1) v hw
    obtain ⟨e1, e2⟩ := drain_same hq l M M.queue (v.logged o2) v hv
    rcases hd : drain env l L L.queue (w.logged o1) with ⟨w2, x⟩
    rcases he : drain env l M M.queue (v.logged o2) with ⟨v2, y⟩
    rw [hd] at d1 d2
    rw [he] at e1 e2
    dsimp only at d1 d2 e1 e2
    subst d2 e2
    dsimp only
    refine ⟨(d1.trans e1.symm).tick.setLog l ?_, rfl⟩
    rw [(d1.trans e1.symm).now]
    simp only [Log.bare, Log.mk.injEq] at hb ⊢
    exact ⟨hb.1, hb.2.1, trivial, trivial, hb.2.2.2.2.1, trivial⟩

theorem SameBut.ctxFlush {w v : World} (h : SameBut w v) (ls : List LogId) :
    SameRes (ctxFlush env ls w) (ctxFlush env ls v) := by
  induction ls generalizing w v with
  | nil => exact ⟨h, rfl⟩
  | cons l ls ih =>
    obtain ⟨h1, h2⟩ := h.flush hq l
    simp only [Verif.ctxFlush]
    rcases hw : Verif.flush env w l with ⟨w', x⟩
    rcases hv : Verif.flush env v l with ⟨v', y⟩
    rw [hw, hv] at h1 h2
    dsimp only at h1 h2
    subst h2
    cases x with
    | none => exact ih h1
    | some x =>
      dsimp only
      cases x.cls with
      | baseOnly => exact ⟨h1, rfl⟩
      | ordinary =>
        dsimp only [noteAll]
        rw [callAll_quiet hq, callAll_quiet hq]
        exact ih (h1.logged _ _)

omit hq in
theorem SameRes.andThen {r s : World × Option Exc} (h : SameRes r s) {k k' : World → World × Option Exc}
    (hk : ∀ w v, SameBut w v → SameRes (k w) (k' v)) : SameRes (andThen r k) (andThen s k') := by
  obtain ⟨w, x⟩ := r
  obtain ⟨v, y⟩ := s
  obtain ⟨h1, h2⟩ := h
  dsimp only at h1 h2
  subst h2
  cases x with
  | none => exact hk _ _ h1
  | some x => exact ⟨h1, rfl⟩

theorem SameBut.begin {w v : World} (h : SameBut w v) (a m f kw) : SameRes (begin_ env w a m f kw) (begin_ env v a m f kw) := by
  simp only [begin_]
  rw [← h.acts]
  cases w.acts a with
  | none => exact ⟨h, rfl⟩
  | some x =>
    dsimp only
    cases x.beginEv with
    | some b => exact ⟨h.setAct _ _, rfl⟩
    | none =>
      dsimp only
      rw [h.now, h.mkEvent]
      exact (h.tick.bump.setAct _ _).publish hq _ _ _

theorem SameBut.warn {w v : World} (h : SameBut w v) (a m f kw) : SameRes (warn env w a m f kw) (warn env v a m f kw) := by
  simp only [Verif.warn]
  rw [← h.acts]
  cases w.acts a with
  | none => exact ⟨h, rfl⟩
  | some x =>
    dsimp only
    rw [h.now, h.mkEvent]
    exact (h.tick.bump.setAct _ _).publish hq _ _ _

theorem SameBut.endWith {w v : World} (h : SameBut w v) (a st m f t x) :
    SameRes (endWith env w a st m f t x) (endWith env v a st m f t x) := by
  simp only [Verif.endWith]
  rw [← h.acts]
  cases w.acts a with
  | none => exact ⟨h, rfl⟩
  | some x =>
    dsimp only
    rw [h.mkEvent]
    split
    · exact ⟨h.bump.setAct _ _, rfl⟩
    · exact (h.bump.setAct _ _).publish hq _ _ _

theorem SameBut.end_ {w v : World} (h : SameBut w v) (a st m f kw t x) :
    SameRes (end_ env w a st m f kw t x) (end_ env v a st m f kw t x) := by
  simp only [Verif.end_]
  rw [← h.acts]
  cases w.acts a with
  | none => exact ⟨h, rfl⟩
  | some y =>
    dsimp only
    have h' := h.setAct a { y with data := y.data.update kw }
    split
    · cases t with
      | none => dsimp only; rw [h'.now]; exact h'.tick.endWith hq _ _ _ _ _ _
      | some t =>
        dsimp only
        split
        · rw [h'.now]; exact h'.tick.endWith hq _ _ _ _ _ _
        · exact h'.endWith hq _ _ _ _ _ _
    · refine (h'.begin hq a none [] []).andThen fun w v h => ?_
      rw [← h.acts]
      cases (w.acts a).bind (·.beginEv) with
      | none => exact ⟨h, rfl⟩
      | some b => exact h.endWith hq _ _ _ _ _ _

theorem SameBut.success {w v : World} (h : SameBut w v) (a m f kw) :
    SameRes (success env w a m f kw) (success env v a m f kw) := by
  simp only [Verif.success]
  rw [← h.acts]
  cases w.acts a with
  | none => exact ⟨h, rfl⟩
  | some x => exact h.end_ hq _ _ _ _ _ _ _

theorem SameBut.failure {w v : World} (h : SameBut w v) (a m f kw) :
    SameRes (failure env w a m f kw) (failure env v a m f kw) := by
  simp only [Verif.failure]
  rw [← h.acts]
  cases w.acts a with
  | none => exact ⟨h, rfl⟩
  | some x => exact h.end_ hq _ _ _ _ _ _ _

theorem SameBut.exception {w v : World} (h : SameBut w v) (a c m f kw) :
    SameRes (exception_ env w a c m f kw) (exception_ env v a c m f kw) := by
  simp only [exception_]
  rw [← h.acts]
  cases w.acts a with
  | none => exact ⟨h, rfl⟩
  | some x =>
    dsimp only
    cases env.excInfoErr c with
    | some err => exact ⟨h.tick, rfl⟩
    | none =>
      dsimp only
      rw [h.now]
      split
      · exact ⟨h.tick, rfl⟩
      · rw [h.tick.mkEvent]
        exact ((h.tick.bump.setAct _ _).publishExc hq _ _).andThen fun w v h => h.end_ hq _ _ _ _ _ _ _

theorem SameBut.enter {w v : World} (h : SameBut w v) (a) : SameRes (enter env w a) (enter env v a) := by
  simp only [Verif.enter]
  rw [← h.acts]
  cases w.acts a with
  | none => exact ⟨h, rfl⟩
  | some x => exact ((h.setAct _ _).setActive _ _).begin hq _ _ _ _

theorem SameBut.exitPublish {w v : World} (h : SameBut w v) (a x) : SameRes (exitPublish env w a x) (exitPublish env v a x) := by
  simp only [Verif.exitPublish]
  rw [← h.acts]
  cases w.acts a with
  | none => exact ⟨h, rfl⟩
  | some y =>
    dsimp only
    have h' := h.setAct a { y with defer := false }
    cases x with
    | none =>
      dsimp only
      split
      · exact h'.publish hq _ _ _
      · exact h'.success hq _ _ _ _
    | some x =>
      dsimp only
      obtain ⟨h1, h2⟩ := h'.exception hq a (some x) none [] []
      rcases hw : exception_ env (w.setAct a { y with defer := false }) a (some x) none [] [] with ⟨w', e⟩
      rcases hv : exception_ env (v.setAct a { y with defer := false }) a (some x) none [] [] with ⟨v', e'⟩
      rw [hw, hv] at h1 h2
      dsimp only at h1 h2
      subst h2
      cases e with
      | none => exact ⟨h1, rfl⟩
      | some e =>
        dsimp only
        cases e.cls with
        | ordinary => exact h1.note hq _ _
        | baseOnly => exact ⟨h1, rfl⟩

theorem SameBut.exit {w v : World} (h : SameBut w v) (a x) :
    SameBut (exit env w a x).1 (exit env v a x).1 ∧ (exit env w a x).2 = (exit env v a x).2 := by
  simp only [Verif.exit]
  rw [← h.acts]
  cases w.acts a with
  | none => exact ⟨h, rfl⟩
  | some y =>
    dsimp only
    obtain ⟨h1, h2⟩ := h.exitPublish hq a x
    rcases hw : Verif.exitPublish env w a x with ⟨w', e⟩
    rcases hv : Verif.exitPublish env v a x with ⟨v', e'⟩
    rw [hw, hv] at h1 h2
    dsimp only at h1 h2
    subst h2
    cases e with
    | none => exact ⟨h1.setActive _ _, rfl⟩
    | some e => exact ⟨h1, rfl⟩

omit hq in
theorem SameBut.initParent {w v : World} (h : SameBut w v) (l kw) : initParent w l kw = initParent v l kw := by
  simp only [Verif.initParent, h.active]

omit hq in
theorem SameBut.newAction {w v : World} (h : SameBut w v) (l level name kw) :
    SameBut (newAction w l level name kw).1 (newAction v l level name kw).1 ∧
      (newAction w l level name kw).2 = (newAction v l level name kw).2 := by
  simp only [Verif.newAction]
  rw [h.initParent, h.nextId]
  refine ⟨SameBut.setAct ?_ _ _, rfl⟩
  exact ⟨rfl, h.acts, h.active, h.ctxLoggers, h.noteHandlers, h.ticks, h.pub, h.logs⟩

theorem SameBut.comment {w v : World} (h : SameBut w v) (l m f kw) : SameRes (comment env w l m f kw) (comment env v l m f kw) := by
  simp only [Verif.comment]
  rcases h.log l with ⟨h1, h2⟩ | ⟨L, M, h1, h2, -⟩
  · rw [h1, h2]; exact ⟨h, rfl⟩
  · rw [h1, h2]
    dsimp only
    rw [h.now, h.bump.tick.mkEvent, h.bump.tick.bump.mkEvent, h.bump.tick.bump.bump.mkEvent, h.initParent, h.nextId]
    exact (h.bump.tick.bump.bump.bump.setAct _ _).publish hq _ _ _

omit hq in
theorem SameBut.onLog {w v : World} (h : SameBut w v) (l : LogId) (f : Log → Log)
    (hf : ∀ L M : Log, L.bare = M.bare → (f L).bare = (f M).bare) : SameBut (onLog w l f) (onLog v l f) := by
  simp only [Verif.onLog]
  rcases h.log l with ⟨h1, h2⟩ | ⟨L, M, h1, h2, hb⟩
  · rw [h1, h2]; exact h
  · rw [h1, h2]; exact h.setLog l (hf _ _ hb)

omit hq in
theorem addSink_bare (s : SinkId) {L M : Log} (h : L.bare = M.bare) : (addSink env L s).bare = (addSink env M s).bare := by
  simp only [Log.bare, Log.mk.injEq] at h
  obtain ⟨h1, h2, -, -, h3, h4⟩ := h
  simp only [addSink, h1]
  split
  · simp only [Log.bare, h1, h2, h3, h4]
  · simp only [Log.bare, h2, h3, h4]

omit hq in
theorem setSinks_bare (ss : List SinkId) {L M : Log} (h : L.bare = M.bare) : (setSinks env L ss).bare = (setSinks env M ss).bare := by
  simp only [setSinks]
  have h' : ({ L with sinks := [], hooks := fun _ => [] } : Log).bare = ({ M with sinks := [], hooks := fun _ => [] } : Log).bare := by
    simp only [Log.bare, Log.mk.injEq] at h ⊢
    exact ⟨trivial, trivial, trivial, trivial, h.2.2.2.2.1, h.2.2.2.2.2⟩
  generalize ({ L with sinks := [], hooks := fun _ => [] } : Log) = A at h'
  generalize ({ M with sinks := [], hooks := fun _ => [] } : Log) = B at h'
  induction ss generalizing A B with
  | nil => exact h'
  | cons s ss ih => exact ih _ _ (addSink_bare s h')

omit hq in
theorem SameBut.newLog {w v : World} (h : SameBut w v) (ss : List SinkId) (a b : Option Bool) :
    (newLog env w ss a).bare = (newLog env v ss b).bare := by
  apply setSinks_bare
  simp only [Log.bare, h.now]

omit hq in
theorem SameBut.addLogger {w v : World} (h : SameBut w v) (l : LogId) : SameBut (addLogger w l) (addLogger v l) := by
  simp only [Verif.addLogger, h.ctxLoggers]
  split
  · exact h
  · exact ⟨h.nextId, h.acts, h.active, by simp only, h.noteHandlers, h.ticks, h.pub, h.logs⟩

omit hq in
/-- Setting modes leaves everything else. -/
theorem sameBut_setAsync (w : World) (l : LogId) (b : Bool) : SameBut (setAsync w l b) w := by
  simp only [setAsync]
  cases hL : w.logs l with
  | none => exact SameBut.refl _
  | some L => exact (SameBut.refl _).setLog_left hL rfl

omit hq in
theorem sameBut_setAsyncs (ls : List LogId) (w : World) : SameBut (ls.foldl (fun w l => setAsync w l false) w) w := by
  induction ls generalizing w with
  | nil => exact SameBut.refl _
  | cons l ls ih => exact (ih _).trans (sameBut_setAsync _ _ _)

omit hq in
theorem sameBut_ctxAsync (w : World) (b : Bool) : SameBut { w with ctxAsync := b } w :=
  ⟨rfl, rfl, rfl, rfl, rfl, rfl, rfl, fun _ => rfl⟩

omit hq in
theorem sameBut_enableAsync (w : World) (u : Bool) : SameBut (enableAsync w u) w := by
  simp only [enableAsync]
  split
  · exact (sameBut_setAsyncs _ _).trans (sameBut_ctxAsync _ _)
  · exact sameBut_ctxAsync _ _

theorem SameBut.disableAsync {w v : World} (h : SameBut w v) (u : Bool) : SameRes (disableAsync env w u) (disableAsync env v u) := by
  simp only [Verif.disableAsync]
  have h' : SameBut (if u then w.ctxLoggers.foldl (fun w l => setAsync w l false) w else w)
      (if u then v.ctxLoggers.foldl (fun w l => setAsync w l false) v else v) := by
    split
    · exact (sameBut_setAsyncs _ _).trans (h.trans (sameBut_setAsyncs _ _).symm)
    · exact h
  generalize (if u then w.ctxLoggers.foldl (fun w l => setAsync w l false) w else w) = w1 at h'
  generalize (if u then v.ctxLoggers.foldl (fun w l => setAsync w l false) v else v) = v1 at h'
  rw [h'.ctxLoggers]
  obtain ⟨h1, h2⟩ := h'.ctxFlush hq v1.ctxLoggers
  rcases hw : Verif.ctxFlush env v1.ctxLoggers w1 with ⟨w', e⟩
  rcases hv : Verif.ctxFlush env v1.ctxLoggers v1 with ⟨v', e'⟩
  rw [hw, hv] at h1 h2
  dsimp only at h1 h2
  subst h2
  cases e with
  | none => exact ⟨(sameBut_ctxAsync _ _).trans (h1.trans (sameBut_ctxAsync _ _).symm), rfl⟩
  | some e => exact ⟨h1, rfl⟩

omit hq in
theorem SameBut.held {w v : World} (h : SameBut w v) (a : ActId) : w.held a = v.held a := by simp only [World.held, h.acts]

omit hq in
theorem SameBut.guard {w v : World} (h : SameBut w v) (a : ActId) {r s : World × Option Exc} (hr : SameRes r s) :
    SameBut (guard w a r).1 (guard v a s).1 ∧ (guard w a r).2 = (guard v a s).2 := by
  simp only [Verif.guard, h.held]
  split
  · exact ⟨hr.1, by simp only [ret, hr.2]⟩
  · exact ⟨h, rfl⟩

omit hq in
theorem SameRes.ret {r s : World × Option Exc} (h : SameRes r s) : SameBut (ret r).1 (ret s).1 ∧ (ret r).2 = (ret s).2 :=
  ⟨h.1, by simp only [Verif.ret, h.2]⟩

/-- One call, in both. -/
theorem SameBut.step {w v : World} (h : SameBut w v) (o : Op) :
    SameBut (step env w o).1 (step env v o).1 ∧ (step env w o).2 = (step env v o).2 := by
  cases o with
  | newLogger l ss a =>
    simp only [Verif.step]
    rcases h.log l with ⟨h1, h2⟩ | ⟨L, M, h1, h2, -⟩
    · rw [h1, h2]
      exact ⟨(h.tick.setLog l (h.newLog ss a a)).addLogger l, rfl⟩
    · rw [h1, h2]; exact ⟨h, rfl⟩
  | newAction l level name kw =>
    simp only [Verif.step]
    rcases h.log l with ⟨h1, h2⟩ | ⟨L, M, h1, h2, -⟩
    · rw [h1, h2]; exact ⟨h, rfl⟩
    · rw [h1, h2]; exact ⟨(h.newAction _ _ _ _).1, by rw [(h.newAction _ _ _ _).2]⟩
  | begin a m f kw => exact h.guard a (h.begin hq _ _ _ _)
  | warn a m f kw => exact h.guard a (h.warn hq _ _ _ _)
  | success a m f kw => exact h.guard a (h.success hq _ _ _ _)
  | failure a m f kw => exact h.guard a (h.failure hq _ _ _ _)
  | exception a c m f kw => exact h.guard a (h.exception hq _ _ _ _ _)
  | setItem a k x =>
    refine h.guard a ⟨?_, rfl⟩
    simp only [Verif.setItem]
    rw [← h.acts]
    cases w.acts a with
    | none => exact h
    | some x => exact h.setAct _ _
  | comment l m f kw => exact (h.comment hq _ _ _ _).ret
  | flush l => exact (h.flush hq l).ret
  | setAsync l b => exact ⟨(sameBut_setAsync _ _ _).trans (h.trans (sameBut_setAsync _ _ _).symm), rfl⟩
  | setSinks l ss => exact ⟨h.onLog l _ fun _ _ => setSinks_bare ss, rfl⟩
  | addSink l s => exact ⟨h.onLog l _ fun _ _ => addSink_bare s, rfl⟩
  | clearSinks l => exact ⟨h.onLog l _ fun _ _ => setSinks_bare [], rfl⟩
  | addPreflush l p =>
    refine ⟨h.onLog l _ fun L M e => ?_, rfl⟩
    simp only [Log.bare, Log.mk.injEq] at e ⊢
    exact ⟨e.1, e.2.1, trivial, trivial, by rw [e.2.2.2.2.1], e.2.2.2.2.2⟩
  | addNoteHandler p =>
    exact ⟨⟨h.nextId, h.acts, h.active, h.ctxLoggers, by simp only [Verif.step, h.noteHandlers], h.ticks, h.pub, h.logs⟩, rfl⟩
  | ctxFlush => simp only [Verif.step, h.ctxLoggers]; exact (h.ctxFlush hq _).ret
  | enableAsync u => exact ⟨(sameBut_enableAsync _ _).trans (h.trans (sameBut_enableAsync _ _).symm), rfl⟩
  | disableAsync u => exact (h.disableAsync hq u).ret
  | addLogger l =>
    simp only [Verif.step]
    rcases h.log l with ⟨h1, h2⟩ | ⟨L, M, h1, h2, -⟩
    · rw [h1, h2]; exact ⟨h, trivial⟩
    · rw [h1, h2]; exact ⟨h.addLogger l, trivial⟩
  | removeLogger l =>
    exact ⟨⟨h.nextId, h.acts, h.active, by simp only [Verif.step, removeLogger, h.ctxLoggers], h.noteHandlers, h.ticks, h.pub, h.logs⟩,
      rfl⟩

theorem SameBut.item {w v : World} (h : SameBut w v) (it : Item) : SameBut (stepItem env w it) (stepItem env v it) := by
  cases it with
  | enter a => exact (h.guard a (h.enter hq a)).1
  | exit a x =>
    simp only [stepItem, h.held]
    split
    · exact (h.exit hq a x).1
    · exact h
  | op o => exact (h.step hq o).1

/-- A call and the call without its modes. -/
theorem SameBut.forget {w v : World} (h : SameBut w v) (it : Item) :
    SameBut (stepItem env w it) (match it.forget with | none => v | some it' => stepItem env v it') := by
  cases it with
  | enter a => exact h.item hq _
  | exit a x => exact h.item hq _
  | op o =>
    cases o with
    | setAsync l b => exact (sameBut_setAsync _ _ _).trans h
    | enableAsync u => exact (sameBut_enableAsync _ _).trans h
    | newLogger l ss a =>
      simp only [stepItem, Verif.step, Item.forget]
      rcases h.log l with ⟨h1, h2⟩ | ⟨L, M, h1, h2, -⟩
      · rw [h1, h2]
        exact (h.tick.setLog l (h.newLog ss a none)).addLogger l
      · rw [h1, h2]; exact h
    | _ => exact h.item hq _

/-- A history and the history without its modes. -/
theorem SameBut.run_forget {w v : World} (h : SameBut w v) (its : List Item) :
    SameBut (run env w its) (run env v (its.filterMap Item.forget)) := by
  induction its generalizing w v with
  | nil => exact h
  | cons it its ih =>
    have := h.forget hq it
    rw [run_cons, List.filterMap_cons]
    cases hf : it.forget with
    | none => rw [hf] at this; exact ih this
    | some it' => rw [hf] at this; exact ih this

/-- Histories that differ in modes. -/
theorem SameBut.run {w v : World} (h : SameBut w v) {its its' : List Item} (hs : SameCalls its its') :
    SameBut (run env w its) (run env v its') := by
  have h1 := h.run_forget hq its
  have h2 := (SameBut.refl v).run_forget hq its'
  rw [hs] at h1
  exact h1.trans h2.symm

end

end Verif
