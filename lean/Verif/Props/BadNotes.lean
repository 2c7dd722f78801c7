import Verif.Props.WithBlock
import Verif.Lemmas.DelInv
import Verif.Lemmas.CtxFlush
import Mathlib.Data.List.Induction
/-!
# C66: note handlers that raise
-/
namespace Verif

/-- Nothing but note handlers raises: sinks and preflush hooks do not, and exceptions of the application can be
described. -/
structure Env.OnlyNotesRaise (env : Env) : Prop where
  hook : ∀ t s k e, env.raises t (.hook s k e) = none
  preflush : ∀ t l h, env.raises t (.preflush l h) = none
  info : ∀ e, env.excInfoErr (some e) = none
  noInfo : env.NeedsExc
  text : ∀ c n b, ∃ s, env.excText c n b = .ok s

/-- The same environment with note handlers that do not raise either. -/
def Env.silenced (env : Env) : Env := { env with raises := fun _ _ => none }

variable {env : Env} {w : World} {l : LogId}

theorem callAll_silenced (os : List Obs) (h : ∀ t, ∀ o ∈ os, env.raises t o = none) (w : World) :
    callAll env os w = callAll env.silenced os w := by
  induction os generalizing w with
  | nil => rfl
  | cons o os ih =>
    have h1 : env.raises w.trace o = none := h _ o (by simp)
    simp only [callAll, callback, h1, Env.silenced]
    exact ih (fun t o ho => h t o (by simp [ho])) _

namespace Env.OnlyNotesRaise
variable (hv : env.OnlyNotesRaise)
include hv

theorem hookCalls (L : Log) (k : Kind) (e : Event) (w : World) :
    callAll env (hookCalls L k e) w = callAll env.silenced (Verif.hookCalls L k e) w :=
  callAll_silenced _ (fun t o ho => by
    obtain ⟨s, _, rfl⟩ := List.mem_map.1 ho
    exact hv.hook t s k e) w

theorem publish (k : Kind) (e : Event) : publish env w l k e = publish env.silenced w l k e := by
  simp only [Verif.publish]
  split
  · rfl
  · split
    · rfl
    · exact hv.hookCalls _ _ _ _

theorem publishExc (e : Event) : publishExc env w l e = publishExc env.silenced w l e := by
  simp only [Verif.publishExc]
  split
  · rfl
  · exact hv.hookCalls _ _ _ _

theorem begin_ (a : ActId) (m : Option String) (f : List Val) (kw : Dict) :
    begin_ env w a m f kw = Verif.begin_ env.silenced w a m f kw := by
  simp only [Verif.begin_, hv.publish]; rfl

theorem warn (a : ActId) (m : String) (f : List Val) (kw : Dict) :
    warn env w a m f kw = Verif.warn env.silenced w a m f kw := by
  simp only [Verif.warn, hv.publish]; rfl

theorem endWith (a : ActId) (st : Status) (m : String) (f : List Val) (t : Int) (e : Option Exc) :
    endWith env w a st m f t e = Verif.endWith env.silenced w a st m f t e := by
  simp only [Verif.endWith, hv.publish]

theorem end_ (a : ActId) (st : Status) (m : String) (f : List Val) (kw : Dict) (t : Option Int) (e : Option Exc) :
    end_ env w a st m f kw t e = Verif.end_ env.silenced w a st m f kw t e := by
  simp only [Verif.end_, hv.endWith, hv.begin_]; rfl

theorem success (a : ActId) (m : Option String) (f : List Val) (kw : Dict) :
    success env w a m f kw = Verif.success env.silenced w a m f kw := by
  simp only [Verif.success, hv.end_]

theorem failure (a : ActId) (m : Option String) (f : List Val) (kw : Dict) :
    failure env w a m f kw = Verif.failure env.silenced w a m f kw := by
  simp only [Verif.failure, hv.end_]

theorem exception_ (a : ActId) (cur : Option Exc) (m : Option String) (f : List Val) (kw : Dict) :
    exception_ env w a cur m f kw = Verif.exception_ env.silenced w a cur m f kw := by
  simp only [Verif.exception_, hv.publishExc, hv.end_]; rfl

theorem enter (a : ActId) : enter env w a = Verif.enter env.silenced w a := by
  simp only [Verif.enter, hv.begin_]

theorem comment (m : String) (f : List Val) (kw : Dict) :
    comment env w l m f kw = Verif.comment env.silenced w l m f kw := by
  simp only [Verif.comment, hv.publish]; rfl

theorem calm : env.silenced.Calm :=
  ⟨fun _ _ => rfl, hv.info, hv.noInfo, hv.text⟩

theorem exitPublish (a : ActId) (exc : Option Exc) :
    exitPublish env w a exc = Verif.exitPublish env.silenced w a exc := by
  cases hx : w.acts a with
  | none => simp only [Verif.exitPublish, hx]
  | some x =>
    cases exc with
    | none => simp only [Verif.exitPublish, hx, hv.publish, hv.success]
    | some e =>
      simp only [Verif.exitPublish, hx, hv.exception_]
      have hc := hv.calm
      have key : (Verif.exception_ env.silenced (w.setAct a { x with defer := false }) a (some e) none [] []).2 =
          none := by
        rcases exception_spec (env := env.silenced) (w := w.setAct a { x with defer := false }) (a := a)
          (x := { x with defer := false }) (by simp) (some e) none [] [] with
          ⟨err', he, hr⟩ | ⟨he, msg, ev, w1, hs, ⟨err', hp, hr⟩ | ⟨hp, hr⟩⟩
        · rw [excEarly_calm hc] at he; cases he
        · rw [publishExc_quiet hc.quiet] at hp; cases hp
        · rw [hr]; exact end_quiet hc.quiet ..
      cases hr1 : Verif.exception_ env.silenced (w.setAct a { x with defer := false }) a (some e) none [] [] with
      | mk w1 r => rw [hr1] at key; dsimp only at key; subst key; rfl

theorem exit (a : ActId) (exc : Option Exc) : exit env w a exc = Verif.exit env.silenced w a exc := by
  simp only [Verif.exit, hv.exitPublish]

theorem runPreflush (hs : List Nat) (w : World) : runPreflush env l hs w = Verif.runPreflush env.silenced l hs w := by
  induction hs generalizing w with
  | nil => rfl
  | cons h hs ih =>
    simp only [Verif.runPreflush, callback, hv.preflush, Env.silenced]
    exact ih _

theorem drain (L : Log) (q : List (Kind × Event)) (hq : ∀ k e, (k, e) ∈ q → k ≠ .exception) (w : World) :
    drain env l L q w = Verif.drain env.silenced l L q w := by
  induction q generalizing w with
  | nil => rfl
  | cons p q ih =>
    obtain ⟨k, e⟩ := p
    have hk : k ≠ .exception := hq k e (by simp)
    have hd : ∀ w, deliver env L k e w = deliver env.silenced L k e w := by
      intro w
      cases k <;> first | exact absurd rfl hk | exact hv.hookCalls _ _ _ _
    simp only [Verif.drain, hd]
    split
    · exact ih (fun k e h => hq k e (by simp [h])) _
    · rfl

theorem flush (hr : Reachable env w) : flush env w l = Verif.flush env.silenced w l := by
  cases hL : w.logs l with
  | none => simp only [Verif.flush, hL]
  | some L =>
    have hq : ∀ k e, (k, e) ∈ L.queue → k ≠ .exception := fun k e h =>
      (hr.qInv.q l k e (by simpa [Del.queue, World.del, hL] using h)).2.2.1
    simp only [Verif.flush, hL, hv.runPreflush, hv.drain L _ hq]
    rfl

theorem ctxFlush (ls : List LogId) (hr : Reachable env w) :
    ctxFlush env ls w = Verif.ctxFlush env.silenced ls w := by
  induction ls generalizing w with
  | nil => rfl
  | cons l ls ih =>
    have h1 : (Verif.flush env w l).2 = none := by
      rw [hv.flush hr]
      cases hL : w.logs l with
      | none => simp only [Verif.flush, hL]
      | some L =>
        have hq : ∀ k e, (k, e) ∈ L.queue → k ≠ .exception := fun k e h =>
          (hr.qInv.q l k e (by simpa [Del.queue, World.del, hL] using h)).2.2.1
        rw [flush_quiet hv.calm.quiet hL hq]
    have h2 : Reachable env (Verif.flush env w l).1 := hr.step (.flush l)
    simp only [Verif.ctxFlush]
    rw [← hv.flush hr]
    cases hf : Verif.flush env w l with
    | mk w1 r =>
      rw [hf] at h1 h2; dsimp only at h1 h2; subst h1
      exact ih h2

theorem step (hr : Reachable env w) (o : Op) : step env w o = Verif.step env.silenced w o := by
  cases o with
  | ctxFlush => simp only [Verif.step, hv.ctxFlush _ hr]
  | flush l => simp only [Verif.step, hv.flush hr]
  | disableAsync u =>
    have h : Reachable env (if u then w.ctxLoggers.foldl (fun w l => Verif.setAsync w l false) w else w) := by
      split
      · have : w.ctxLoggers.foldl (fun w l => Verif.setAsync w l false) w =
            run env w (w.ctxLoggers.map fun l => .op (.setAsync l false)) := by
          rw [run, List.foldl_map]; rfl
        rw [this]
        exact hr.run _
      · exact hr
    simp only [Verif.step, Verif.disableAsync, hv.ctxFlush _ h]
  | _ => simp only [Verif.step, hv.begin_, hv.warn, hv.success, hv.failure, hv.exception_, hv.comment] <;> rfl

theorem stepItem (hr : Reachable env w) (it : Item) : stepItem env w it = Verif.stepItem env.silenced w it := by
  cases it with
  | op o => simp only [Verif.stepItem, hv.step hr]
  | enter a => simp only [Verif.stepItem, hv.enter]
  | exit a e => simp only [Verif.stepItem, hv.exit]

end Env.OnlyNotesRaise

/-- **C66, what does hold.**  If nothing but note handlers raises, no note is ever made that could make one
raise: every history runs exactly as with handlers that do not raise, and so do all calls: flushes deliver all
there is to deliver, blocks end their actions, no call raises because of a note handler.  Missing: note handlers that
raise when sinks or preflush hooks do. -/
theorem bad_notes_partial (hv : env.OnlyNotesRaise) (its : List Item) :
    run env World.init its = run env.silenced World.init its ∧
    (∀ o, step env (run env World.init its) o = step env.silenced (run env World.init its) o) ∧
    (∀ a, enter env (run env World.init its) a = enter env.silenced (run env World.init its) a) ∧
    ∀ a e, exit env (run env World.init its) a e = exit env.silenced (run env World.init its) a e := by
  refine ⟨?_, fun o => hv.step ⟨its, rfl⟩ o, fun a => hv.enter a, fun a e => hv.exit a e⟩
  induction its using List.reverseRecOn with
  | nil => rfl
  | append_singleton its it ih =>
    rw [run_append, run_append, ← ih]
    exact hv.stepItem ⟨its, rfl⟩ it

namespace Sample

/-- Every note handler raises, and nothing else. -/
def badNotes : Env :=
  { quiet with
    raises := fun _ o =>
      match o with
      | .note .. => some ⟨.ordinary, 3⟩
      | _ => none }

/-- Every note handler raises, and so does preflush hook 5. -/
def badPreflush : Env :=
  { quiet with
    raises := fun _ o =>
      match o with
      | .note .. => some ⟨.ordinary, 3⟩
      | .preflush _ 5 => some sinkErr
      | _ => none }

/-- The hypotheses of `bad_notes_partial` are met with handlers that do raise. -/
theorem badNotes_only : badNotes.OnlyNotesRaise :=
  ⟨fun _ _ _ _ => rfl, fun _ _ _ => rfl, fun _ => rfl, quiet_needs, fun _ _ _ => ⟨_, rfl⟩⟩

example : badNotes.raises [] (.note 7 "x") ≠ none := by decide

/-- An asynchronous logger with a preflush hook, a note handler and a queued comment. -/
def queued : List Item :=
  setupAsync ++ [.op (.addPreflush 0 5), .op (.addNoteHandler 7), .op (.comment 0 "hello" [] [])]

end Sample

/-- **C66 is violated: flush.**  A preflush hook raises, the note about it makes a note handler raise: `flush` raises
and delivers nothing to any sink, however often it is tried.  Without the note handler the event is delivered. -/
theorem bad_notes_flush_violated :
    (∀ n s, received s (run Sample.badPreflush World.init
      (Sample.queued ++ List.replicate n (.op (.flush 0)))).trace = []) ∧
    (step Sample.badPreflush (run Sample.badPreflush World.init Sample.queued) (.flush 0)).2 = .exc ⟨.ordinary, 3⟩ ∧
    (received 0 (run Sample.badPreflush World.init (Sample.setupAsync ++
      [.op (.addPreflush 0 5), .op (.comment 0 "hello" [] []), .op (.flush 0)])).trace).length = 1 := by
  refine ⟨fun n s => ?_, by decide +kernel, by decide +kernel⟩
  have key : ∀ n w L, w.logs 0 = some L → L.preflush = [5] → w.noteHandlers = [7] → received s w.trace = [] →
      received s (run Sample.badPreflush w (List.replicate n (.op (.flush 0)))).trace = [] := by
    intro n
    induction n with
    | zero => intro w L _ _ _ h; exact h
    | succ n ih =>
      intro w L h1 h2 h3 h4
      rw [List.replicate_succ, run_cons]
      have hs : stepItem Sample.badPreflush w (.op (.flush 0)) =
          { w with trace := w.trace ++ [Obs.preflush 0 5] ++ [Obs.note 7 "preflush"] } := by
        simp only [stepItem, step, ret, flush, h1, h2, runPreflush, callback, Sample.badPreflush, Sample.sinkErr,
          noteAll, h3, List.map_cons, List.map_nil, callAll]
      rw [hs]
      refine ih _ L h1 h2 h3 ?_
      simp [received, List.filterMap_append] at h4 ⊢
      exact h4
  rw [run_append]
  exact key n _ ((run Sample.badPreflush World.init Sample.queued).logs 0 |>.get (by decide +kernel))
    (by simp) (by decide +kernel) (by decide +kernel) (by
      have : (run Sample.badPreflush World.init Sample.queued).trace = [] := by decide +kernel
      rw [this]; rfl)

end Verif
