import Verif.Lemmas.Calls
/-!
# Publishing on an asynchronous logger touches no foreign code
-/
namespace Verif
attribute [local irreducible] QUEUE_LIMIT

/-- Logger `l` exists and is asynchronous. -/
def World.IsAsync (w : World) (l : LogId) : Prop := ∃ L, w.logs l = some L ∧ L.async = true

/-- The call neither raised nor called anyone, and the logger is still asynchronous. -/
structure Silent (l : LogId) (w : World) (r : World × Option Exc) : Prop where
  noExc : r.2 = none
  trace : r.1.trace = w.trace
  async : r.1.IsAsync l

theorem silent_publish {env : Env} {w w0 : World} {l : LogId} (k : Kind) (e : Event)
    (ht : w.trace = w0.trace) (hl : w.logs = w0.logs) (ha : w0.IsAsync l) :
    Silent l w0 (publish env w l k e) := by
  obtain ⟨L, hL, hA⟩ := ha
  simp only [publish, hl, hL, hA, if_true]
  exact ⟨rfl, ht, ⟨{ L with queue := pushBounded QUEUE_LIMIT L.queue (k, e) }, by simp [hA], hA⟩⟩

theorem silent_begin {env : Env} {w : World} {a : ActId} {x : Act} (hx : w.acts a = some x)
    (ha : w.IsAsync x.logger) (m : Option String) (f : List Val) (kw : Dict) :
    Silent x.logger w (begin_ env w a m f kw) := by
  simp only [begin_, hx]
  split
  · exact ⟨rfl, rfl, ha⟩
  · exact silent_publish _ _ rfl rfl ha

theorem silent_warn {env : Env} {w : World} {a : ActId} {x : Act} (hx : w.acts a = some x)
    (ha : w.IsAsync x.logger) (m : String) (f : List Val) (kw : Dict) :
    Silent x.logger w (warn env w a m f kw) := by
  simp only [warn, hx]
  exact silent_publish _ _ rfl rfl ha

theorem silent_endWith {env : Env} {w : World} {a : ActId} {x : Act} (hx : w.acts a = some x)
    (ha : w.IsAsync x.logger) (st : Status) (m : String) (f : List Val) (t : Int)
    (exc : Option Exc) : Silent x.logger w (endWith env w a st m f t exc) := by
  simp only [endWith, hx]
  split
  · exact ⟨rfl, rfl, ha⟩
  · exact silent_publish _ _ rfl rfl ha

theorem silent_end {env : Env} {w : World} {a : ActId} {x : Act} (hx : w.acts a = some x)
    (ha : w.IsAsync x.logger) (st : Status) (m : String) (f : List Val) (kw : Dict)
    (et : Option Int) (exc : Option Exc) :
    Silent x.logger w (end_ env w a st m f kw et exc) := by
  simp only [end_, hx]
  have h1 : ∀ w1 : World, w1.trace = w.trace → w1.logs = w.logs →
      w1.acts a = some { x with data := x.data.update kw } → ∀ t,
      Silent x.logger w (endWith env w1 a st m f t exc) := by
    intro w1 ht hl hx1 t
    have := silent_endWith (env := env) hx1 (by
      obtain ⟨L, hL, hA⟩ := ha; exact ⟨L, by rw [hl]; exact hL, hA⟩) st m f t exc
    exact ⟨this.noExc, this.trace.trans ht, this.async⟩
  split
  · split
    · split
      · apply h1 <;> first | rfl | exact setAct_same ..
      · apply h1 <;> first | rfl | exact setAct_same ..
    · apply h1 <;> first | rfl | exact setAct_same ..
  · have hb := silent_begin (env := env) (w := w.setAct a { x with data := x.data.update kw })
      (a := a) (x := { x with data := x.data.update kw }) (by simp) ha none [] []
    obtain ⟨b, hacts⟩ := begin_acts (env := env) (w := w.setAct a { x with data := x.data.update kw })
      (a := a) (x := { x with data := x.data.update kw }) (by simp) none [] []
    cases hr : begin_ env (w.setAct a { x with data := x.data.update kw }) a none [] [] with
    | mk w1 r =>
      rw [hr] at hb hacts
      obtain ⟨h2, h3, h4⟩ := hb
      dsimp only at h2 h3 h4
      subst h2
      simp only [andThen]
      split
      · exact ⟨rfl, h3, h4⟩
      · rename_i bb hbb
        have := silent_endWith (env := env) (w := w1) (a := a) (by rw [show w1.acts = _ from hacts]; exact updAct_same ..)
          (by exact h4) st m f bb.etime exc
        exact ⟨this.noExc, this.trace.trans h3, this.async⟩

theorem silent_enter {env : Env} {w : World} {a : ActId} {x : Act} (hx : w.acts a = some x)
    (ha : w.IsAsync x.logger) : Silent x.logger w (enter env w a) := by
  simp only [enter, hx]
  have := silent_begin (env := env)
    (w := (w.setAct a { x with isTrans := true, defer := true }).setActive x.logger (some a))
    (a := a) (x := { x with isTrans := true, defer := true }) (by simp [World.setActive]) ha none [] []
  exact ⟨this.noExc, this.trace, this.async⟩

theorem silent_comment {env : Env} {w : World} {l : LogId} (ha : w.IsAsync l) (m : String)
    (f : List Val) (kw : Dict) : Silent l w (comment env w l m f kw) := by
  have ha' := ha
  obtain ⟨L, hL, hA⟩ := ha'
  simp only [comment, hL]
  exact silent_publish _ _ rfl rfl ha

theorem ran_split {env : Env} {os tr : List Obs} {x : Exc} (h : (ran env os tr).2 = some x) :
    ∃ pre o post, os = pre ++ o :: post ∧ (ran env os tr).1 = pre ++ [o] ∧
      env.raises (tr ++ pre) o = some x := by
  induction os generalizing tr with
  | nil => simp [ran] at h
  | cons o os ih =>
    simp only [ran] at h ⊢
    cases ho : env.raises tr o with
    | none =>
      simp only [ho] at h ⊢
      obtain ⟨pre, p, post, h1, h2, h3⟩ := ih h
      refine ⟨o :: pre, p, post, by simp [h1], by simp [h2], ?_⟩
      simpa using h3
    | some y =>
      simp only [ho] at h ⊢
      cases h
      exact ⟨[], o, os, rfl, rfl, by simpa using ho⟩

end Verif
