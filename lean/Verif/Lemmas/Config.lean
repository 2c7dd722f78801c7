import Verif.Lemmas.CoreStep
/-!
# What the calls on actions leave alone: the context and the active parents
-/
namespace Verif

/-- Nothing but actions, loggers, clock and history may differ. -/
structure KeepCfg (w w' : World) : Prop where
  active : w'.active = w.active
  ctxLoggers : w'.ctxLoggers = w.ctxLoggers
  ctxAsync : w'.ctxAsync = w.ctxAsync
  noteHandlers : w'.noteHandlers = w.noteHandlers

namespace KeepCfg
theorem refl (w : World) : KeepCfg w w := ⟨rfl, rfl, rfl, rfl⟩
theorem trans {a b c : World} (h : KeepCfg a b) (g : KeepCfg b c) : KeepCfg a c :=
  ⟨g.active.trans h.active, g.ctxLoggers.trans h.ctxLoggers, g.ctxAsync.trans h.ctxAsync,
    g.noteHandlers.trans h.noteHandlers⟩
theorem _root_.Verif.FlushLike.keep {w w' : World} (h : FlushLike w w') : KeepCfg w w' :=
  ⟨h.active, h.ctxLoggers, h.ctxAsync, h.noteHandlers⟩
theorem setAct (w : World) (a : ActId) (x : Act) : KeepCfg w (w.setAct a x) := ⟨rfl, rfl, rfl, rfl⟩
theorem tick (w : World) : KeepCfg w w.tick := ⟨rfl, rfl, rfl, rfl⟩
theorem bump (w : World) : KeepCfg w w.bump := ⟨rfl, rfl, rfl, rfl⟩
end KeepCfg

variable {env : Env} {w : World}

theorem keep_publish (l : LogId) (k : Kind) (e : Event) : KeepCfg w (publish env w l k e).1 := by
  simp only [publish]
  split
  · exact ⟨rfl, rfl, rfl, rfl⟩
  · split
    · exact ⟨rfl, rfl, rfl, rfl⟩
    · rw [callAll_eq]; exact ⟨rfl, rfl, rfl, rfl⟩

theorem keep_publishExc (l : LogId) (e : Event) : KeepCfg w (publishExc env w l e).1 := by
  simp only [publishExc]
  split
  · exact .refl _
  · exact (callAll_flushLike ..).keep

theorem keep_andThen {r : World × Option Exc} {k : World → World × Option Exc} (h : KeepCfg w r.1)
    (g : ∀ w', KeepCfg w' (k w').1) : KeepCfg w (andThen r k).1 := by
  obtain ⟨w', x⟩ := r
  cases x with
  | none => exact h.trans (g w')
  | some e => exact h

theorem keep_begin (a : ActId) (m : Option String) (f : List Val) (kw : Dict) :
    KeepCfg w (begin_ env w a m f kw).1 := by
  simp only [begin_]
  split
  · exact .refl _
  · split
    · exact ⟨rfl, rfl, rfl, rfl⟩
    · refine KeepCfg.trans ?_ (keep_publish ..); exact ⟨rfl, rfl, rfl, rfl⟩

theorem keep_warn (a : ActId) (m : String) (f : List Val) (kw : Dict) :
    KeepCfg w (warn env w a m f kw).1 := by
  simp only [warn]
  split
  · exact .refl _
  · refine KeepCfg.trans ?_ (keep_publish ..); exact ⟨rfl, rfl, rfl, rfl⟩

theorem keep_endWith (a : ActId) (st : Status) (m : String) (f : List Val) (t : Int)
    (x : Option Exc) : KeepCfg w (endWith env w a st m f t x).1 := by
  simp only [endWith]
  split
  · exact .refl _
  · split
    · exact ⟨rfl, rfl, rfl, rfl⟩
    · refine KeepCfg.trans ?_ (keep_publish ..); exact ⟨rfl, rfl, rfl, rfl⟩

theorem keep_end (a : ActId) (st : Status) (m : String) (f : List Val) (kw : Dict)
    (t : Option Int) (x : Option Exc) : KeepCfg w (end_ env w a st m f kw t x).1 := by
  simp only [end_]
  split
  · exact .refl _
  · rename_i y _
    split
    · split
      · split
        · refine KeepCfg.trans ?_ (keep_endWith ..); exact ⟨rfl, rfl, rfl, rfl⟩
        · refine KeepCfg.trans ?_ (keep_endWith ..); exact ⟨rfl, rfl, rfl, rfl⟩
      · refine KeepCfg.trans ?_ (keep_endWith ..); exact ⟨rfl, rfl, rfl, rfl⟩
    · refine keep_andThen ((KeepCfg.setAct w a _).trans (keep_begin ..)) fun w' => ?_
      split
      · exact .refl _
      · exact keep_endWith ..

theorem keep_success (a : ActId) (m : Option String) (f : List Val) (kw : Dict) :
    KeepCfg w (success env w a m f kw).1 := by
  simp only [success]
  split
  · exact .refl _
  · exact keep_end ..

theorem keep_failure (a : ActId) (m : Option String) (f : List Val) (kw : Dict) :
    KeepCfg w (failure env w a m f kw).1 := by
  simp only [failure]
  split
  · exact .refl _
  · exact keep_end ..

theorem keep_exception (a : ActId) (c : Option Exc) (m : Option String) (f : List Val) (kw : Dict) :
    KeepCfg w (exception_ env w a c m f kw).1 := by
  simp only [exception_]
  split
  · exact .refl _
  · split
    · exact .tick _
    · split
      · exact .tick _
      · refine keep_andThen ?_ fun w' => keep_end ..
        refine KeepCfg.trans ?_ (keep_publishExc ..); exact ⟨rfl, rfl, rfl, rfl⟩

theorem keep_comment (l : LogId) (m : String) (f : List Val) (kw : Dict) :
    KeepCfg w (comment env w l m f kw).1 := by
  simp only [comment]
  split
  · exact .refl _
  · refine KeepCfg.trans ?_ (keep_publish ..); exact ⟨rfl, rfl, rfl, rfl⟩

theorem keep_setItem (a : ActId) (k : String) (v : Val) : KeepCfg w (setItem w a k v) := by
  simp only [setItem]
  split
  · exact .refl _
  · exact .setAct ..

theorem keep_exitPublish (a : ActId) (x : Option Exc) : KeepCfg w (exitPublish env w a x).1 := by
  simp only [exitPublish]
  split
  · exact .refl _
  · rename_i y _
    split
    · rename_i e
      have h : KeepCfg w (exception_ env (w.setAct a { y with defer := false }) a (some e) none [] []).1 :=
        (KeepCfg.setAct w a { y with defer := false }).trans (keep_exception a (some e) none [] [])
      split
      · rename_i hr; rw [hr] at h; exact h
      · rename_i w' err hr
        rw [hr] at h
        split
        · exact h.trans (noteAll_flushLike ..).keep
        · exact h
    · split
      · refine KeepCfg.trans ?_ (keep_publish ..); exact .setAct ..
      · refine KeepCfg.trans ?_ (keep_success ..); exact .setAct ..

theorem keep_guard {a : ActId} {r : World × Option Exc} (h : KeepCfg w r.1) :
    KeepCfg w (guard w a r).1 := by
  simp only [guard, ret]; split
  · exact h
  · exact .refl _

/-- The calls that change the context or an active parent. -/
def Op.isCfg : Op → Bool
  | .newLogger .. | .addNoteHandler _ | .enableAsync _ | .disableAsync _ | .addLogger _
  | .removeLogger _ => true
  | _ => false

theorem keep_step (o : Op) (h : o.isCfg = false) : KeepCfg w (step env w o).1 := by
  cases o <;> simp only [Op.isCfg, reduceCtorEq] at h <;> simp only [step]
  case newAction =>
    split
    · exact .refl _
    · exact ⟨rfl, rfl, rfl, rfl⟩
  case begin => exact keep_guard (keep_begin ..)
  case warn => exact keep_guard (keep_warn ..)
  case success => exact keep_guard (keep_success ..)
  case failure => exact keep_guard (keep_failure ..)
  case exception => exact keep_guard (keep_exception ..)
  case setItem => exact keep_guard (keep_setItem ..)
  case comment => exact keep_comment ..
  case flush => exact (flush_flushLike ..).keep
  case setAsync => exact (setAsync_flushLike ..).keep
  case setSinks => exact (onLog_flushLike ..).keep
  case addSink => exact (onLog_flushLike ..).keep
  case clearSinks => exact (onLog_flushLike ..).keep
  case addPreflush => exact (onLog_flushLike ..).keep
  case ctxFlush => exact (ctxFlush_flushLike ..).keep

theorem disableAsync_ctxLoggers (u : Bool) :
    (disableAsync env w u).1.ctxLoggers = w.ctxLoggers ∧ (disableAsync env w u).1.active = w.active := by
  simp only [disableAsync]
  have h : FlushLike w (if u then w.ctxLoggers.foldl (fun w l => setAsync w l false) w else w) := by
    split
    · exact foldl_setAsync_flushLike ..
    · exact .refl _
  have h2 := h.trans (ctxFlush_flushLike env
    (if u then w.ctxLoggers.foldl (fun w l => setAsync w l false) w else w).ctxLoggers _)
  split <;> (rename_i hr; rw [hr] at h2; exact ⟨h2.ctxLoggers, h2.active⟩)

/-- A logger is registered at most once. -/
theorem ctxLoggers_item {it : Item} (h : w.ctxLoggers.Nodup) : (stepItem env w it).ctxLoggers.Nodup := by
  have hadd : ∀ (w : World) l, w.ctxLoggers.Nodup → (addLogger w l).ctxLoggers.Nodup := by
    intro w l h
    simp only [addLogger]; split
    · exact h
    · rename_i hl
      exact List.nodup_append.2 ⟨h, by simp, by simp; intro a ha hb; exact hl (hb ▸ ha)⟩
  cases it with
  | enter a =>
    simp only [stepItem]
    have : (guard w a (enter env w a)).1.ctxLoggers = w.ctxLoggers := by
      simp only [guard, ret, enter]
      split
      · split
        · rfl
        · exact (keep_begin ..).ctxLoggers.trans rfl
      · rfl
    rw [this]; exact h
  | exit a x =>
    simp only [stepItem]
    split
    · have : (exit env w a x).1.ctxLoggers = w.ctxLoggers := by
        simp only [exit]
        split
        · rfl
        · have hk := keep_exitPublish (env := env) (w := w) a x
          split
          · rename_i hr; rw [hr] at hk; exact hk.ctxLoggers
          · rename_i hr; rw [hr] at hk; exact hk.ctxLoggers
      rw [this]; exact h
    · exact h
  | op o =>
    simp only [stepItem]
    cases hc : o.isCfg with
    | false => rw [(keep_step o hc).ctxLoggers]; exact h
    | true =>
      cases o <;> simp only [Op.isCfg, reduceCtorEq] at hc <;> simp only [step]
      case newLogger =>
        split
        · exact h
        · exact hadd _ _ h
      case addNoteHandler => exact h
      case enableAsync u =>
        simp only [enableAsync]; split
        · rw [(foldl_setAsync_flushLike _ _ _).ctxLoggers]; exact h
        · exact h
      case disableAsync u =>
        rw [ret, (disableAsync_ctxLoggers u).1]; exact h
      case addLogger =>
        split
        · exact h
        · exact hadd _ _ h
      case removeLogger => exact h.filter _

theorem Reachable.ctxNodup (h : Reachable env w) : w.ctxLoggers.Nodup := by
  obtain ⟨its, rfl⟩ := h
  suffices ∀ its w, w.ctxLoggers.Nodup → (run env w its).ctxLoggers.Nodup from
    this its _ List.nodup_nil
  intro its
  induction its with
  | nil => intro w h; exact h
  | cons it its ih => intro w h; exact ih _ (ctxLoggers_item h)

end Verif
