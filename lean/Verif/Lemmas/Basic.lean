import Verif.Model.Prog
import Verif.Spec.Env
/-!
# Effects of the basic procedures on each part of the state
-/
namespace Verif

/-- The calls of `callAll` that are actually made, and how it ends, as a function of the trace. -/
def ran (env : Env) : List Obs → List Obs → List Obs × Option Exc
  | [], _ => ([], none)
  | o :: os, tr =>
    match env.raises tr o with
    | none => (o :: (ran env os (tr ++ [o])).1, (ran env os (tr ++ [o])).2)
    | some e => ([o], some e)

/-- `w` with more calls recorded. -/
def World.logged (w : World) (t : List Obs) : World := { w with trace := w.trace ++ t }

@[simp] theorem logged_nil (w : World) : w.logged [] = w := by simp [World.logged]
@[simp] theorem logged_logged (w : World) (s t : List Obs) :
    (w.logged s).logged t = w.logged (s ++ t) := by simp [World.logged]

theorem callAll_eq (env : Env) (os : List Obs) (w : World) :
    callAll env os w = (w.logged (ran env os w.trace).1, (ran env os w.trace).2) := by
  induction os generalizing w with
  | nil => simp [callAll, ran]
  | cons o os ih =>
    simp only [callAll, callback, ran]
    cases h : env.raises w.trace o with
    | none => simp [ih, World.logged]
    | some e => simp [World.logged]

theorem ran_prefix (env : Env) (os tr : List Obs) : (ran env os tr).1 <+: os := by
  induction os generalizing tr with
  | nil => simp [ran]
  | cons o os ih =>
    simp only [ran]
    cases env.raises tr o with
    | none => simpa using ih _
    | some e => simp [List.prefix_cons_iff]

theorem ran_none (env : Env) (os tr : List Obs) (h : (ran env os tr).2 = none) :
    (ran env os tr).1 = os := by
  induction os generalizing tr with
  | nil => simp [ran]
  | cons o os ih =>
    simp only [ran] at h ⊢
    cases hr : env.raises tr o with
    | none => simp only [hr] at h ⊢; simp [ih _ h]
    | some e => simp [hr] at h

theorem ran_quiet {env : Env} (h : env.Quiet) (os tr : List Obs) : ran env os tr = (os, none) := by
  induction os generalizing tr with
  | nil => simp [ran]
  | cons o os ih => simp [ran, h tr o, ih]

theorem callAll_quiet {env : Env} (h : env.Quiet) (os : List Obs) (w : World) :
    callAll env os w = (w.logged os, none) := by
  simp [callAll_eq, ran_quiet h]

section logged
variable (w : World) (t : List Obs)
@[simp] theorem logged_nextId : (w.logged t).nextId = w.nextId := rfl
@[simp] theorem logged_acts : (w.logged t).acts = w.acts := rfl
@[simp] theorem logged_logs : (w.logged t).logs = w.logs := rfl
@[simp] theorem logged_active : (w.logged t).active = w.active := rfl
@[simp] theorem logged_ctxLoggers : (w.logged t).ctxLoggers = w.ctxLoggers := rfl
@[simp] theorem logged_ctxAsync : (w.logged t).ctxAsync = w.ctxAsync := rfl
@[simp] theorem logged_noteHandlers : (w.logged t).noteHandlers = w.noteHandlers := rfl
@[simp] theorem logged_ticks : (w.logged t).ticks = w.ticks := rfl
@[simp] theorem logged_pub : (w.logged t).pub = w.pub := rfl
@[simp] theorem logged_trace : (w.logged t).trace = w.trace ++ t := rfl
end logged

/-- Map update. -/
def updAct (m : ActId → Option Act) (a : ActId) (x : Act) : ActId → Option Act :=
  fun b => if b = a then some x else m b

@[simp] theorem updAct_same (m : ActId → Option Act) (a : ActId) (x : Act) :
    updAct m a x a = some x := by simp [updAct]
theorem updAct_ne (m : ActId → Option Act) {a b : ActId} (x : Act) (h : b ≠ a) :
    updAct m a x b = m b := by simp [updAct, h]
@[simp] theorem updAct_updAct (m : ActId → Option Act) (a : ActId) (x y : Act) :
    updAct (updAct m a x) a y = updAct m a y := by
  funext b; by_cases h : b = a <;> simp [updAct, h]
theorem updAct_self {m : ActId → Option Act} {a : ActId} {x : Act} (h : m a = some x) :
    updAct m a x = m := by
  funext b; by_cases hb : b = a <;> simp [updAct, hb, h]

section setAct
variable (w : World) (a : ActId) (x : Act)
@[simp] theorem setAct_acts : (w.setAct a x).acts = updAct w.acts a x := rfl
@[simp] theorem setAct_nextId : (w.setAct a x).nextId = w.nextId := rfl
@[simp] theorem setAct_logs : (w.setAct a x).logs = w.logs := rfl
@[simp] theorem setAct_active : (w.setAct a x).active = w.active := rfl
@[simp] theorem setAct_ctxLoggers : (w.setAct a x).ctxLoggers = w.ctxLoggers := rfl
@[simp] theorem setAct_ctxAsync : (w.setAct a x).ctxAsync = w.ctxAsync := rfl
@[simp] theorem setAct_noteHandlers : (w.setAct a x).noteHandlers = w.noteHandlers := rfl
@[simp] theorem setAct_ticks : (w.setAct a x).ticks = w.ticks := rfl
@[simp] theorem setAct_pub : (w.setAct a x).pub = w.pub := rfl
@[simp] theorem setAct_trace : (w.setAct a x).trace = w.trace := rfl
theorem setAct_same : (w.setAct a x).acts a = some x := by simp
theorem setAct_ne {b : ActId} (h : b ≠ a) : (w.setAct a x).acts b = w.acts b := by
  simp [updAct, h]
end setAct

section setLog
variable (w : World) (l : LogId) (x : Log)
@[simp] theorem setLog_nextId : (w.setLog l x).nextId = w.nextId := rfl
@[simp] theorem setLog_acts : (w.setLog l x).acts = w.acts := rfl
@[simp] theorem setLog_active : (w.setLog l x).active = w.active := rfl
@[simp] theorem setLog_ctxLoggers : (w.setLog l x).ctxLoggers = w.ctxLoggers := rfl
@[simp] theorem setLog_ctxAsync : (w.setLog l x).ctxAsync = w.ctxAsync := rfl
@[simp] theorem setLog_noteHandlers : (w.setLog l x).noteHandlers = w.noteHandlers := rfl
@[simp] theorem setLog_ticks : (w.setLog l x).ticks = w.ticks := rfl
@[simp] theorem setLog_pub : (w.setLog l x).pub = w.pub := rfl
@[simp] theorem setLog_trace : (w.setLog l x).trace = w.trace := rfl
@[simp] theorem setLog_same : (w.setLog l x).logs l = some x := by simp [World.setLog]
theorem setLog_ne {m : LogId} (h : m ≠ l) : (w.setLog l x).logs m = w.logs m := by
  simp [World.setLog, h]
end setLog

section setActive
variable (w : World) (l : LogId) (p : Option ActId)
@[simp] theorem setActive_nextId : (w.setActive l p).nextId = w.nextId := rfl
@[simp] theorem setActive_acts : (w.setActive l p).acts = w.acts := rfl
@[simp] theorem setActive_logs : (w.setActive l p).logs = w.logs := rfl
@[simp] theorem setActive_ctxLoggers : (w.setActive l p).ctxLoggers = w.ctxLoggers := rfl
@[simp] theorem setActive_ctxAsync : (w.setActive l p).ctxAsync = w.ctxAsync := rfl
@[simp] theorem setActive_noteHandlers : (w.setActive l p).noteHandlers = w.noteHandlers := rfl
@[simp] theorem setActive_ticks : (w.setActive l p).ticks = w.ticks := rfl
@[simp] theorem setActive_pub : (w.setActive l p).pub = w.pub := rfl
@[simp] theorem setActive_trace : (w.setActive l p).trace = w.trace := rfl
end setActive

section tick
variable (w : World)
@[simp] theorem tick_nextId : w.tick.nextId = w.nextId := rfl
@[simp] theorem tick_acts : w.tick.acts = w.acts := rfl
@[simp] theorem tick_logs : w.tick.logs = w.logs := rfl
@[simp] theorem tick_active : w.tick.active = w.active := rfl
@[simp] theorem tick_ctxLoggers : w.tick.ctxLoggers = w.ctxLoggers := rfl
@[simp] theorem tick_ctxAsync : w.tick.ctxAsync = w.ctxAsync := rfl
@[simp] theorem tick_noteHandlers : w.tick.noteHandlers = w.noteHandlers := rfl
@[simp] theorem tick_ticks : w.tick.ticks = w.ticks + 1 := rfl
@[simp] theorem tick_pub : w.tick.pub = w.pub := rfl
@[simp] theorem tick_trace : w.tick.trace = w.trace := rfl
@[simp] theorem bump_nextId : w.bump.nextId = w.nextId + 1 := rfl
@[simp] theorem bump_acts : w.bump.acts = w.acts := rfl
@[simp] theorem bump_logs : w.bump.logs = w.logs := rfl
@[simp] theorem bump_active : w.bump.active = w.active := rfl
@[simp] theorem bump_ctxLoggers : w.bump.ctxLoggers = w.ctxLoggers := rfl
@[simp] theorem bump_ctxAsync : w.bump.ctxAsync = w.ctxAsync := rfl
@[simp] theorem bump_noteHandlers : w.bump.noteHandlers = w.noteHandlers := rfl
@[simp] theorem bump_ticks : w.bump.ticks = w.ticks := rfl
@[simp] theorem bump_pub : w.bump.pub = w.pub := rfl
@[simp] theorem bump_trace : w.bump.trace = w.trace := rfl
end tick

section mkEvent
variable (w : World) (a : ActId) (l : LogId) (k : Kind) (st : Status) (t : Int) (m : String)
  (f : List Val) (x : Option Exc)
@[simp] theorem mkEvent_id : (mkEvent w a l k st t m f x).id = w.nextId := rfl
@[simp] theorem mkEvent_act : (mkEvent w a l k st t m f x).act = a := rfl
@[simp] theorem mkEvent_logger : (mkEvent w a l k st t m f x).logger = l := rfl
@[simp] theorem mkEvent_kind : (mkEvent w a l k st t m f x).kind = k := rfl
@[simp] theorem mkEvent_status : (mkEvent w a l k st t m f x).status = st := rfl
@[simp] theorem mkEvent_etime : (mkEvent w a l k st t m f x).etime = t := rfl
@[simp] theorem mkEvent_msg : (mkEvent w a l k st t m f x).msg = m := rfl
end mkEvent

/-- Two states that agree on everything about actions, ids and publications. -/
structure SameCore (w w' : World) : Prop where
  nextId : w'.nextId = w.nextId
  acts : w'.acts = w.acts
  pub : w'.pub = w.pub

theorem SameCore.refl (w : World) : SameCore w w := ⟨rfl, rfl, rfl⟩
theorem SameCore.trans {a b c : World} (h : SameCore a b) (g : SameCore b c) : SameCore a c :=
  ⟨g.nextId.trans h.nextId, g.acts.trans h.acts, g.pub.trans h.pub⟩

section publish
variable (env : Env) (w : World) (l : LogId) (k : Kind) (e : Event)
@[simp] theorem publish_nextId : (publish env w l k e).1.nextId = w.nextId := by
  simp only [publish]; split <;> (try split) <;> simp [callAll_eq]
@[simp] theorem publish_acts : (publish env w l k e).1.acts = w.acts := by
  simp only [publish]; split <;> (try split) <;> simp [callAll_eq]
@[simp] theorem publish_pub : (publish env w l k e).1.pub = w.pub ++ [(k, e)] := by
  simp only [publish]; split <;> (try split) <;> simp [callAll_eq]
@[simp] theorem publish_active : (publish env w l k e).1.active = w.active := by
  simp only [publish]; split <;> (try split) <;> simp [callAll_eq]
@[simp] theorem publish_ticks : (publish env w l k e).1.ticks = w.ticks := by
  simp only [publish]; split <;> (try split) <;> simp [callAll_eq]
@[simp] theorem publish_noteHandlers : (publish env w l k e).1.noteHandlers = w.noteHandlers := by
  simp only [publish]; split <;> (try split) <;> simp [callAll_eq]
@[simp] theorem publish_ctxLoggers : (publish env w l k e).1.ctxLoggers = w.ctxLoggers := by
  simp only [publish]; split <;> (try split) <;> simp [callAll_eq]
@[simp] theorem publish_ctxAsync : (publish env w l k e).1.ctxAsync = w.ctxAsync := by
  simp only [publish]; split <;> (try split) <;> simp [callAll_eq]
theorem publishExc_core : SameCore w (publishExc env w l e).1 := by
  simp only [publishExc]; split <;> constructor <;> simp [callAll_eq]
@[simp] theorem publishExc_nextId : (publishExc env w l e).1.nextId = w.nextId :=
  (publishExc_core env w l e).nextId
@[simp] theorem publishExc_acts : (publishExc env w l e).1.acts = w.acts :=
  (publishExc_core env w l e).acts
@[simp] theorem publishExc_pub : (publishExc env w l e).1.pub = w.pub :=
  (publishExc_core env w l e).pub
@[simp] theorem publishExc_active : (publishExc env w l e).1.active = w.active := by
  simp only [publishExc]; split <;> simp [callAll_eq]
@[simp] theorem publishExc_ticks : (publishExc env w l e).1.ticks = w.ticks := by
  simp only [publishExc]; split <;> simp [callAll_eq]
@[simp] theorem publishExc_logs : (publishExc env w l e).1.logs = w.logs := by
  simp only [publishExc]; split <;> simp [callAll_eq]
@[simp] theorem publishExc_ctxLoggers : (publishExc env w l e).1.ctxLoggers = w.ctxLoggers := by
  simp only [publishExc]; split <;> simp [callAll_eq]
@[simp] theorem publishExc_noteHandlers : (publishExc env w l e).1.noteHandlers = w.noteHandlers := by
  simp only [publishExc]; split <;> simp [callAll_eq]
end publish

section note
variable (env : Env) (n : String) (w : World)
theorem noteAll_eq : noteAll env n w =
    (w.logged (ran env (w.noteHandlers.map (fun h => Obs.note h n)) w.trace).1,
      (ran env (w.noteHandlers.map (fun h => Obs.note h n)) w.trace).2) := callAll_eq _ _ _
end note

/-- Everything a flush may change is `logs`, `ticks` and `trace`. -/
structure FlushLike (w w' : World) : Prop where
  core : SameCore w w'
  active : w'.active = w.active
  ctxLoggers : w'.ctxLoggers = w.ctxLoggers
  ctxAsync : w'.ctxAsync = w.ctxAsync
  noteHandlers : w'.noteHandlers = w.noteHandlers
  ticks : w.ticks ≤ w'.ticks

theorem FlushLike.refl (w : World) : FlushLike w w := ⟨.refl w, rfl, rfl, rfl, rfl, Nat.le_refl _⟩
theorem FlushLike.trans {a b c : World} (h : FlushLike a b) (g : FlushLike b c) : FlushLike a c :=
  ⟨h.core.trans g.core, g.active.trans h.active, g.ctxLoggers.trans h.ctxLoggers,
    g.ctxAsync.trans h.ctxAsync, g.noteHandlers.trans h.noteHandlers, Nat.le_trans h.ticks g.ticks⟩
theorem FlushLike.logged (w : World) (t : List Obs) : FlushLike w (w.logged t) :=
  ⟨⟨rfl, rfl, rfl⟩, rfl, rfl, rfl, rfl, by simp⟩
theorem FlushLike.setLog (w : World) (l : LogId) (x : Log) : FlushLike w (w.setLog l x) :=
  ⟨⟨rfl, rfl, rfl⟩, rfl, rfl, rfl, rfl, by simp⟩
theorem FlushLike.tick (w : World) : FlushLike w w.tick := ⟨⟨rfl, rfl, rfl⟩, rfl, rfl, rfl, rfl, by simp⟩

theorem callAll_flushLike (env : Env) (os : List Obs) (w : World) :
    FlushLike w (callAll env os w).1 := by
  rw [callAll_eq]; exact .logged _ _

theorem noteAll_flushLike (env : Env) (n : String) (w : World) :
    FlushLike w (noteAll env n w).1 := callAll_flushLike _ _ _

theorem deliver_flushLike (env : Env) (L : Log) (k : Kind) (e : Event) (w : World) :
    FlushLike w (deliver env L k e w).1 := by
  cases k <;> first | exact noteAll_flushLike _ _ _ | exact callAll_flushLike _ _ _

theorem runPreflush_flushLike (env : Env) (l : LogId) (hs : List Nat) (w : World) :
    FlushLike w (runPreflush env l hs w).1 := by
  induction hs generalizing w with
  | nil => exact .refl w
  | cons h hs ih =>
    have hl : FlushLike w (w.logged [.preflush l h]) := .logged _ _
    simp only [runPreflush, callback]
    cases env.raises w.trace (.preflush l h) with
    | none => exact hl.trans (ih _)
    | some e =>
      obtain ⟨c, t⟩ := e
      cases c with
      | baseOnly => exact hl
      | ordinary =>
        simp only
        have hn := noteAll_flushLike env "preflush" (w.logged [.preflush l h])
        simp only [World.logged] at hn hl
        cases hr : noteAll env "preflush" { w with trace := w.trace ++ [Obs.preflush l h] } with
        | mk w2 r =>
          rw [hr] at hn
          cases r with
          | none => exact hl.trans (hn.trans (ih _))
          | some e' => exact hl.trans hn

theorem drain_flushLike (env : Env) (l : LogId) (L : Log) (q : List (Kind × Event)) (w : World) :
    FlushLike w (drain env l L q w).1 := by
  induction q generalizing w with
  | nil => exact .setLog _ _ _
  | cons p q ih =>
    obtain ⟨k, e⟩ := p
    simp only [drain]
    have hd := deliver_flushLike env L k e (w.setLog l { L with queue := q })
    have hs : FlushLike w (w.setLog l { L with queue := q }) := .setLog _ _ _
    cases hr : deliver env L k e (w.setLog l { L with queue := q }) with
    | mk w2 r =>
      rw [hr] at hd
      cases r with
      | none => exact hs.trans (hd.trans (ih _))
      | some e' => exact hs.trans hd

theorem flush_flushLike (env : Env) (w : World) (l : LogId) : FlushLike w (flush env w l).1 := by
  simp only [flush]
  cases hl : w.logs l with
  | none => exact .refl w
  | some L =>
    simp only
    have hp := runPreflush_flushLike env l L.preflush w
    cases hr : runPreflush env l L.preflush w with
    | mk w1 r =>
      rw [hr] at hp
      cases r with
      | some e => exact hp
      | none =>
        simp only
        have hd := drain_flushLike env l L L.queue w1
        cases hr2 : drain env l L L.queue w1 with
        | mk w2 r2 =>
          rw [hr2] at hd
          cases r2 with
          | some e => exact hp.trans hd
          | none => exact hp.trans (hd.trans ((FlushLike.tick _).trans (.setLog _ _ _)))

theorem ctxFlush_flushLike (env : Env) (ls : List LogId) (w : World) :
    FlushLike w (ctxFlush env ls w).1 := by
  induction ls generalizing w with
  | nil => exact .refl w
  | cons l ls ih =>
    simp only [ctxFlush]
    have hf := flush_flushLike env w l
    cases hr : flush env w l with
    | mk w1 r =>
      rw [hr] at hf
      cases r with
      | none => exact hf.trans (ih _)
      | some e =>
        obtain ⟨c, t⟩ := e
        cases c with
        | baseOnly => exact hf
        | ordinary =>
          simp only
          have hn := noteAll_flushLike env "context_flush" w1
          cases hr2 : noteAll env "context_flush" w1 with
          | mk w2 r2 =>
            rw [hr2] at hn
            cases r2 with
            | none => exact hf.trans (hn.trans (ih _))
            | some e' => exact hf.trans hn

theorem setAsync_flushLike (w : World) (l : LogId) (b : Bool) : FlushLike w (setAsync w l b) := by
  simp only [setAsync]; split
  · exact .refl w
  · exact .setLog _ _ _

theorem foldl_setAsync_flushLike (ls : List LogId) (b : Bool) (w : World) :
    FlushLike w (ls.foldl (fun w l => setAsync w l b) w) := by
  induction ls generalizing w with
  | nil => exact .refl w
  | cons l ls ih => exact (setAsync_flushLike w l b).trans (ih _)

end Verif
