import Verif.Lemmas.StackShape
import Verif.Lemmas.Grow
import Verif.Lemmas.RecStep
import Mathlib.Tactic.ByContra
/-!
# Sinks, hooks and handlers that only return or raise, as in `Model/Step.lean`
-/
namespace Verif.Stack
open scoped List
attribute [local irreducible] QUEUE_LIMIT
variable {env : Env} {s t u : St}

/-- `t` can be reached from `s`. -/
def Goes (env : Env) (s t : St) : Prop := ∃ xs, run env s xs = t

theorem Goes.refl (s : St) : Goes env s s := ⟨[], rfl⟩
theorem Goes.trans (h : Goes env s t) (g : Goes env t u) : Goes env s u := by
  obtain ⟨xs, rfl⟩ := h
  obtain ⟨ys, rfl⟩ := g
  exact ⟨xs ++ ys, by simp [run]⟩
theorem Goes.step (x : Act) (h : Goes env (step env s x) t) : Goes env s t := by
  obtain ⟨xs, rfl⟩ := h
  exact ⟨x :: xs, rfl⟩

/-- What is on top of `fs` has come to its end, with outcome `r`. -/
def fin (s : St) (fs : List Frame) (r : World × Option Exc) : St := { s with w := r.1, stack := fs, up := r.2 }

theorem goes_up {f : Frame} {fs : List Frame} {err : Exc} (hs : s.stack = f :: fs) (hu : s.up = some err)
    (h : Goes env (unwind { s with stack := fs } err f) t) : Goes env s t :=
  .step .go (by simpa only [Stack.step, hs, hu] using h)

theorem goes_go {f : Frame} {fs : List Frame} (hs : s.stack = f :: fs) (hf : f ≠ .code) (hu : s.up = none)
    (h : Goes env (resume env { s with stack := fs } f) t) : Goes env s t := by
  refine .step .go ?_
  have : step env s .go = resume env { s with stack := fs } f := by simp only [Stack.step, hs, hu]
  rw [this]; exact h

theorem goes_ret {f : Frame} {fs : List Frame} (hs : s.stack = .code :: f :: fs) (hu : s.up = none)
    (h : Goes env { s with stack := f :: fs } t) : Goes env s t :=
  .step .ret (by simpa only [Stack.step, hs, hu] using h)

theorem goes_raise {f : Frame} {fs : List Frame} (err : Exc) (hs : s.stack = .code :: f :: fs) (hu : s.up = none)
    (h : Goes env { s with stack := f :: fs, up := some err } t) : Goes env s t :=
  .step (.raise err) (by simpa only [Stack.step, hs, hu] using h)

/-! ## Loops -/

theorem drop_cons {α : Type} {xs : List α} {i : Nat} {y : α} {ys : List α} (h : xs.drop i = y :: ys) : xs[i]? = some y ∧ xs.drop (i + 1) = ys := by
  have h1 : i < xs.length := by
    by_contra hn
    rw [List.drop_of_length_le (by omega)] at h
    cases h
  have h2 : xs.drop i = xs[i] :: xs.drop (i + 1) := (List.getElem_cons_drop ..).symm
  rw [h2] at h
  cases h
  exact ⟨List.getElem?_eq_getElem h1, rfl⟩

theorem sim_hooks {l : LogId} {g : Nat} {k : Kind} {e : Event} {fs : List Frame} (rest : List SinkId) : ∀ {s : St} {i : Nat},
    s.stack = .hooks l g k e i :: fs → s.up = none → (s.list l g k).drop i = rest →
    Goes env s (fin s fs (callAll env (rest.map fun sk => Obs.hook sk k e) s.w)) := by
  induction rest with
  | nil =>
    intro s i hs hu hd
    refine goes_go hs nofun hu ?_
    have : (s.list l g k)[i]? = none := by
      rw [List.getElem?_eq_none_iff]
      exact List.drop_eq_nil_iff.1 hd
    have h2 : ({ s with stack := fs } : St).list l g k = s.list l g k := rfl
    simp only [resume, h2, this]
    obtain ⟨w, gen, old, st, up⟩ := s
    simp only at hu
    subst hu
    exact .refl _
  | cons sk rest ih =>
    intro s i hs hu hd
    obtain ⟨h1, h2⟩ := drop_cons hd
    refine goes_go hs nofun hu ?_
    have h3 : ({ s with stack := fs } : St).list l g k = s.list l g k := rfl
    simp only [resume, h3, h1, enterCode, List.map_cons, callAll, callback]
    cases hr : env.raises s.w.trace (.hook sk k e) with
    | none =>
      refine goes_ret rfl hu ?_
      exact ih (s := ⟨{ s.w with trace := s.w.trace ++ [Obs.hook sk k e] }, s.gen, s.old, .hooks l g k e (i + 1) :: fs, s.up⟩) rfl hu h2
    | some err =>
      refine goes_raise err rfl hu (goes_up rfl rfl ?_)
      exact .refl _

theorem sim_notes {nm : String} {fs : List Frame} (rest : List Nat) : ∀ {s : St} {i : Nat},
    s.stack = .notes nm i :: fs → s.up = none → s.w.noteHandlers.drop i = rest →
    Goes env s (fin s fs (callAll env (rest.map fun h => Obs.note h nm) s.w)) := by
  induction rest with
  | nil =>
    intro s i hs hu hd
    refine goes_go hs nofun hu ?_
    have : s.w.noteHandlers[i]? = none := by
      rw [List.getElem?_eq_none_iff]
      exact List.drop_eq_nil_iff.1 hd
    simp only [resume, this]
    obtain ⟨w, gen, old, st, up⟩ := s
    simp only at hu
    subst hu
    exact .refl _
  | cons h rest ih =>
    intro s i hs hu hd
    obtain ⟨h1, h2⟩ := drop_cons hd
    refine goes_go hs nofun hu ?_
    simp only [resume, h1, enterCode, List.map_cons, callAll, callback]
    cases hr : env.raises s.w.trace (.note h nm) with
    | none =>
      refine goes_ret rfl hu ?_
      exact ih (s := ⟨{ s.w with trace := s.w.trace ++ [Obs.note h nm] }, s.gen, s.old, .notes nm (i + 1) :: fs, s.up⟩) rfl hu h2
    | some err =>
      refine goes_raise err rfl hu (goes_up rfl rfl ?_)
      exact .refl _

theorem sim_noteAll {nm : String} {fs : List Frame} (hs : s.stack = .notes nm 0 :: fs) (hu : s.up = none) :
    Goes env s (fin s fs (noteAll env nm s.w)) := sim_notes _ hs hu rfl

/-! ## Actions -/

theorem sim_emit (hu : s.up = none) (l : LogId) (k : Kind) (e : Event) : Goes env (emit s l k e) (fin s s.stack (publish env s.w l k e)) := by
  obtain ⟨w, gen, old, st, up⟩ := s
  simp only at hu
  subst hu
  simp only [emit, publish]
  cases hL : w.logs l with
  | none => exact .refl _
  | some L =>
    simp only
    split
    · exact .refl _
    · refine sim_hooks (L.hooks k) (s := ⟨{ w with pub := w.pub ++ [(k, e)] }, gen, old, .hooks l (gen l) k e 0 :: st, none⟩) (i := 0) rfl rfl ?_
      simp [St.list, hL]

theorem sim_emitExc (hu : s.up = none) (l : LogId) (e : Event) : Goes env (emitExc s l e) (fin s s.stack (publishExc env s.w l e)) := by
  obtain ⟨w, gen, old, st, up⟩ := s
  simp only at hu
  subst hu
  simp only [emitExc, publishExc]
  cases hL : w.logs l with
  | none => exact .refl _
  | some L =>
    refine sim_hooks (L.hooks .exception) (s := ⟨w, gen, old, .hooks l (gen l) .exception e 0 :: st, none⟩) (i := 0) rfl rfl ?_
    simp [St.list, hL]

theorem fin_self (hu : s.up = none) : fin s s.stack (s.w, none) = s := by
  obtain ⟨w, gen, old, st, up⟩ := s
  simp only at hu
  subst hu
  rfl

theorem fin_world (hu : s.up = none) (w : World) : fin s s.stack (w, none) = s.world w := fin_self (s := s.world w) hu

theorem sim_emitW (hu : s.up = none) (w : World) (l : LogId) (k : Kind) (e : Event) :
    Goes env (emit (s.world w) l k e) (fin s s.stack (publish env w l k e)) := sim_emit (s := s.world w) hu l k e

theorem sim_begin (hu : s.up = none) (a : ActId) (m : Option String) (f : List Val) (kw : Dict) :
    Goes env (begin_ env s a m f kw) (fin s s.stack (Verif.begin_ env s.w a m f kw)) := by
  simp only [begin_, Verif.begin_]
  cases hx : s.w.acts a with
  | none => simp only; rw [fin_self hu]; exact .refl _
  | some x =>
    cases hb : x.beginEv with
    | some b =>
      simp only [hb]
      rw [fin_world hu]
      exact .refl _
    | none =>
      simp only [hb]
      exact sim_emitW hu _ _ _ _

theorem sim_warn (hu : s.up = none) (a : ActId) (m : String) (f : List Val) (kw : Dict) :
    Goes env (warn env s a m f kw) (fin s s.stack (Verif.warn env s.w a m f kw)) := by
  simp only [warn, Verif.warn]
  cases hx : s.w.acts a with
  | none => simp only; rw [fin_self hu]; exact .refl _
  | some x => simp only; exact sim_emitW hu _ _ _ _

theorem sim_endWith (hu : s.up = none) (a : ActId) (st : Status) (m : String) (f : List Val) (t : Int) (exc : Option Exc) :
    Goes env (endWith s a st m f t exc) (fin s s.stack (Verif.endWith env s.w a st m f t exc)) := by
  simp only [endWith, Verif.endWith]
  cases hx : s.w.acts a with
  | none => simp only; rw [fin_self hu]; exact .refl _
  | some x =>
    simp only
    split
    · rw [fin_world hu]; exact .refl _
    · exact sim_emitW hu _ _ _ _


theorem sim_endWithW (hu : s.up = none) (w : World) (a : ActId) (st : Status) (m : String) (f : List Val) (t : Int) (exc : Option Exc) :
    Goes env (endWith (s.world w) a st m f t exc) (fin s s.stack (Verif.endWith env w a st m f t exc)) := sim_endWith (s := s.world w) hu ..

theorem sim_beginW (hu : s.up = none) (w : World) (a : ActId) (m : Option String) (f : List Val) (kw : Dict) :
    Goes env (begin_ env (s.world w) a m f kw) (fin s s.stack (Verif.begin_ env w a m f kw)) := sim_begin (s := s.world w) hu ..

theorem sim_end (hu : s.up = none) (a : ActId) (st : Status) (m : String) (f : List Val) (kw : Dict) (t : Option Int) (exc : Option Exc) :
    Goes env (end_ env s a st m f kw t exc) (fin s s.stack (Verif.end_ env s.w a st m f kw t exc)) := by
  simp only [end_, Verif.end_]
  cases hx : s.w.acts a with
  | none => simp only; rw [fin_self hu]; exact .refl _
  | some x =>
    simp only
    split
    · cases t with
      | none => exact sim_endWithW hu _ _ _ _ _ _ _
      | some t =>
        simp only
        split
        · exact sim_endWithW hu _ _ _ _ _ _ _
        · exact sim_endWithW hu _ _ _ _ _ _ _
    · refine Goes.trans (sim_begin (by exact hu) a none [] []) ?_
      show Goes env (fin _ (.endRest a st m f exc :: s.stack) (Verif.begin_ env (s.w.setAct a { x with data := x.data.update kw }) a none [] [])) _
      generalize Verif.begin_ env (s.w.setAct a { x with data := x.data.update kw }) a none [] [] = r
      obtain ⟨w, r⟩ := r
      cases r with
      | some err => exact goes_up rfl rfl (.refl _)
      | none =>
        refine goes_go rfl nofun rfl ?_
        simp only [resume, andThen]
        show Goes env (match (w.acts a).bind (·.beginEv) with | none => _ | some b => _) _
        cases (w.acts a).bind (·.beginEv) with
        | none => exact .refl _
        | some b => exact sim_endWith (s := ⟨w, s.gen, s.old, s.stack, none⟩) rfl _ _ _ _ _ _

theorem sim_success (hu : s.up = none) (a : ActId) (m : Option String) (f : List Val) (kw : Dict) :
    Goes env (success env s a m f kw) (fin s s.stack (Verif.success env s.w a m f kw)) := by
  simp only [success, Verif.success]
  cases hx : s.w.acts a with
  | none => simp only; rw [fin_self hu]; exact .refl _
  | some x => simp only; exact sim_end hu _ _ _ _ _ _ _

theorem sim_failure (hu : s.up = none) (a : ActId) (m : Option String) (f : List Val) (kw : Dict) :
    Goes env (failure env s a m f kw) (fin s s.stack (Verif.failure env s.w a m f kw)) := by
  simp only [failure, Verif.failure]
  cases hx : s.w.acts a with
  | none => simp only; rw [fin_self hu]; exact .refl _
  | some x => simp only; exact sim_end hu _ _ _ _ _ _ _

theorem sim_then {f : Frame} {fs : List Frame} (hf : f ≠ .code) (hun : ∀ err s', unwind s' err f = s') {k : World → World × Option Exc}
    (h : ∀ w, Goes env (resume env ⟨w, s.gen, s.old, fs, none⟩ f) (fin s fs (k w))) (r : World × Option Exc) :
    Goes env (fin s (f :: fs) r) (fin s fs (andThen r k)) := by
  obtain ⟨w, r⟩ := r
  cases r with
  | some err =>
    refine goes_up rfl rfl ?_
    rw [hun]; exact .refl _
  | none => exact goes_go rfl hf rfl (h w)

theorem sim_exception (hu : s.up = none) (a : ActId) (cur : Option Exc) (m : Option String) (f : List Val) (kw : Dict) :
    Goes env (exception_ env s a cur m f kw) (fin s s.stack (Verif.exception_ env s.w a cur m f kw)) := by
  simp only [exception_, Verif.exception_]
  cases hx : s.w.acts a with
  | none => simp only; rw [fin_self hu]; exact .refl _
  | some x =>
    simp only
    cases env.excInfoErr cur with
    | some err => exact .refl _
    | none =>
      simp only
      generalize (if falsy m = true then env.excText cur x.name !List.isEmpty x.data else Except.ok (m.getD "")) = mm
      cases mm with
      | error err => exact .refl _
      | ok msg =>
        refine Goes.trans (sim_emitExc (by exact hu) _ _) ?_
        exact sim_then (s := s) (f := .excRest a msg f kw (s.w.now env) cur) (fs := s.stack) nofun (fun _ _ => rfl)
          (k := fun w => Verif.end_ env w a .exception msg f kw (some (s.w.now env)) cur)
          (fun w => sim_end (s := ⟨w, s.gen, s.old, s.stack, none⟩) rfl a .exception msg f kw (some (s.w.now env)) cur) _

theorem sim_comment (hu : s.up = none) (l : LogId) (m : String) (f : List Val) (kw : Dict) :
    Goes env (comment env s l m f kw) (fin s s.stack (Verif.comment env s.w l m f kw)) := by
  simp only [comment, Verif.comment]
  cases hx : s.w.logs l with
  | none => simp only; rw [fin_self hu]; exact .refl _
  | some L => simp only; exact sim_emitW hu _ _ _ _

theorem sim_enter (hu : s.up = none) (a : ActId) : Goes env (enter env s a) (fin s s.stack (Verif.enter env s.w a)) := by
  simp only [enter, Verif.enter]
  cases hx : s.w.acts a with
  | none => simp only; rw [fin_self hu]; exact .refl _
  | some x => simp only; exact sim_beginW hu _ _ _ _ _

/-- The outcome of `__exit__`, but for what it returns. -/
def exitOut (r : World × Except Exc Bool) : World × Option Exc :=
  (r.1, match r.2 with | .ok _ => none | .error e => some e)

theorem sim_exitRest {fs : List Frame} {a : ActId} {x : Verif.Act} (r : World × Option Exc)
    (hk : ∃ y, r.1.acts a = some y ∧ y.logger = x.logger ∧ y.parent = x.parent) (b : Bool) :
    Goes env (fin s (.exitRest a :: fs) r)
      (fin s fs (exitOut (match (generalizing := false) r with
        | (w, some err) => (w, Except.error err)
        | (w, none) => (w.setActive x.logger x.parent, Except.ok b)))) := by
  obtain ⟨w', r⟩ := r
  cases r with
  | some err => exact goes_up rfl rfl (.refl _)
  | none =>
    obtain ⟨y, hy, h1, h2⟩ := hk
    refine goes_go rfl nofun rfl ?_
    simp only [resume]
    have : (fin s (.exitRest a :: fs) (w', none)).w.acts a = some y := hy
    simp only [this, h1, h2]
    exact .refl _

theorem sim_exit (hw : Verif.Reachable env s.w) (hu : s.up = none) {a : ActId} (hh : s.w.held a = true) (exc : Option Exc) :
    Goes env (exit env s a exc) (fin s s.stack (exitOut (Verif.exit env s.w a exc))) := by
  obtain ⟨x, hx, hh⟩ := held_iff.1 hh
  have ht : TransOK s.w.core := hw.inv (fun _ _ h s => transOK_step h s) transOK_init
  obtain ⟨-, y, hy, hg⟩ := grows_star (core_exitPublish (env := env) hx hh (ht a x hx) exc) hw.idInv (a := a) (x := x) hx
  have hk : ∃ y, (exitPublish env s.w a exc).1.acts a = some y ∧ y.logger = x.logger ∧ y.parent = x.parent := by
    have := hg.fixed
    simp only [Act.fixed, Prod.mk.injEq] at this
    exact ⟨y, hy, this.1, this.2.2.2.2.1⟩
  simp only [exit, Verif.exit, hx]
  refine Goes.trans ?_ (sim_exitRest (s := s) (fs := s.stack) _ hk _)
  have hu' : ((s.world (s.w.setAct a { x with defer := false })).push (.exitRest a)).up = none := hu
  cases exc with
  | none =>
    simp only
    split
    · rename_i ev he
      rw [exitPublish_ended hx he]
      exact sim_emit hu' _ _ _
    · rename_i he
      rw [exitPublish_open hx he]
      exact sim_success hu' _ _ _ _
  | some e =>
    rw [exitPublish_exc hx]
    simp only
    refine Goes.trans (sim_exception (s := ((s.world (s.w.setAct a { x with defer := false })).push (.exitRest a)).push (.exitTry a)) hu _ _ _ _ _) ?_
    show Goes env (fin s (.exitTry a :: .exitRest a :: s.stack) (Verif.exception_ env (s.w.setAct a { x with defer := false }) a (some e) none [] [])) _
    generalize Verif.exception_ env (s.w.setAct a { x with defer := false }) a (some e) none [] [] = r
    obtain ⟨w', r⟩ := r
    cases r with
    | none => exact goes_go rfl nofun rfl (.refl _)
    | some err =>
      refine goes_up rfl rfl ?_
      simp only [unwind]
      cases hc : err.cls with
      | baseOnly => exact .refl _
      | ordinary => exact sim_noteAll (s := ⟨w', s.gen, s.old, .notes "action_exit" 0 :: .exitRest a :: s.stack, none⟩) rfl rfl

/-! ## Flushing -/

theorem setLog_setLog (w : World) (l : LogId) (A B : Log) : (w.setLog l A).setLog l B = w.setLog l B := by
  simp only [World.setLog]
  congr 1
  funext m
  split <;> simp_all

theorem setLog_self {w : World} {l : LogId} {A : Log} (h : w.logs l = some A) : w.setLog l A = w := by
  obtain ⟨n, ac, lg, at', cl, ca, nh, tk, tr, pb⟩ := w
  simp only [World.setLog]
  congr 1
  funext m
  simp only at h
  split
  · subst_vars; exact h.symm
  · rfl

theorem callAll_logs (os : List Obs) (w : World) : (callAll env os w).1.logs = w.logs := by rw [callAll_eq]; rfl
theorem callAll_notes (os : List Obs) (w : World) : (callAll env os w).1.noteHandlers = w.noteHandlers := by rw [callAll_eq]; rfl

theorem sim_preflush {l : LogId} {fs : List Frame} (rest : List Nat) : ∀ {s : St} {i : Nat} {L : Log},
    s.stack = .preflush l i :: fs → s.up = none → s.w.logs l = some L → L.preflush.drop i = rest →
    (∃ w, runPreflush env l rest s.w = (w, none) ∧ w.logs = s.w.logs ∧ Goes env s { s with w := w, stack := .drain l :: fs }) ∨
    (∃ w e, runPreflush env l rest s.w = (w, some e) ∧ Goes env s { s with w := w, stack := fs, up := some e }) := by
  induction rest with
  | nil =>
    intro s i L hs hu hL hd
    left
    refine ⟨s.w, rfl, rfl, goes_go hs nofun hu ?_⟩
    have : L.preflush[i]? = none := by
      rw [List.getElem?_eq_none_iff]
      exact List.drop_eq_nil_iff.1 hd
    simp only [resume, hL, this]
    exact .refl _
  | cons h rest ih =>
    intro s i L hs hu hL hd
    obtain ⟨h1, h2⟩ := drop_cons hd
    have hgo : ∀ t, Goes env ⟨{ s.w with trace := s.w.trace ++ [Obs.preflush l h] }, s.gen, s.old, .code :: .preflush l (i + 1) :: fs, none⟩ t → Goes env s t := by
      intro t ht
      refine goes_go hs nofun hu ?_
      simp only [resume, hL, h1, enterCode]
      rw [show s.up = none from hu] at *
      exact ht
    have hrun : runPreflush env l (h :: rest) s.w = match env.raises s.w.trace (.preflush l h) with
        | none => runPreflush env l rest { s.w with trace := s.w.trace ++ [Obs.preflush l h] }
        | some e => match e.cls with
          | .baseOnly => ({ s.w with trace := s.w.trace ++ [Obs.preflush l h] }, some e)
          | .ordinary => match noteAll env "preflush" { s.w with trace := s.w.trace ++ [Obs.preflush l h] } with
            | (w'', none) => runPreflush env l rest w''
            | (w'', some e') => (w'', some e') := by
      simp only [runPreflush, callback]
      cases env.raises s.w.trace (.preflush l h) <;> rfl
    rw [hrun]
    clear hrun
    cases hr : env.raises s.w.trace (.preflush l h) with
    | none =>
      have := ih (s := ⟨{ s.w with trace := s.w.trace ++ [Obs.preflush l h] }, s.gen, s.old, .preflush l (i + 1) :: fs, none⟩) (L := L) rfl rfl hL h2
      rcases this with ⟨w, e1, e2, g⟩ | ⟨w, e, e1, g⟩
      · refine .inl ⟨w, e1, e2, hgo _ (goes_ret rfl rfl ?_)⟩
        rw [hu]; exact g
      · exact .inr ⟨w, e, e1, hgo _ (goes_ret rfl rfl g)⟩
    | some err =>
      cases hc : err.cls with
      | baseOnly =>
        simp only [hc]
        refine .inr ⟨_, err, rfl, hgo _ (goes_raise err rfl rfl (goes_up rfl rfl ?_))⟩
        simp only [unwind, hc]
        exact .refl _
      | ordinary =>
        have hn := sim_noteAll (env := env) (nm := "preflush") (fs := .preNote l (i + 1) :: fs)
          (s := ⟨{ s.w with trace := s.w.trace ++ [Obs.preflush l h] }, s.gen, s.old, .notes "preflush" 0 :: .preNote l (i + 1) :: fs, none⟩) rfl rfl
        have hl : (noteAll env "preflush" { s.w with trace := s.w.trace ++ [Obs.preflush l h] }).1.logs = s.w.logs := callAll_logs ..
        simp only at hn
        simp only [hc]
        generalize noteAll env "preflush" { s.w with trace := s.w.trace ++ [Obs.preflush l h] } = r at hn hl ⊢
        obtain ⟨w', r⟩ := r
        have hstart : ∀ t, Goes env ⟨{ s.w with trace := s.w.trace ++ [Obs.preflush l h] }, s.gen, s.old, .notes "preflush" 0 :: .preNote l (i + 1) :: fs, none⟩ t → Goes env s t := by
          intro t ht
          refine hgo _ (goes_raise err rfl rfl (goes_up rfl rfl ?_))
          simp only [unwind, hc]
          exact ht
        cases r with
        | some e' =>
          refine .inr ⟨w', e', rfl, hstart _ (hn.trans (goes_up rfl rfl (.refl _)))⟩
        | none =>
          have := ih (s := ⟨w', s.gen, s.old, .preflush l (i + 1) :: fs, none⟩) (L := L) rfl rfl (by show w'.logs l = _; rw [hl]; exact hL) h2
          rcases this with ⟨w, e1, e2, g⟩ | ⟨w, e, e1, g⟩
          · refine .inl ⟨w, e1, e2.trans hl, hstart _ (hn.trans (goes_go rfl nofun rfl ?_))⟩
            rw [hu]; exact g
          · exact .inr ⟨w, e, e1, hstart _ (hn.trans (goes_go rfl nofun rfl g))⟩

theorem sim_drain {l : LogId} {fs : List Frame} {L : Log} (q : List (Kind × Event)) : ∀ {s : St}, s.stack = .drain l :: fs → s.up = none →
    s.w.logs l = some { L with queue := q } →
    Goes env s (fin s fs (match drain env l L q s.w with
      | (w2, some e) => (w2, some e)
      | (w2, none) => (w2.tick.setLog l { L with queue := [], lastFlush := w2.now env }, none))) := by
  induction q with
  | nil =>
    intro s hs hu hL
    refine goes_go hs nofun hu ?_
    simp only [resume, hL, drain]
    rw [setLog_self hL]
    obtain ⟨w, gen, old, st, up⟩ := s
    simp only at hu
    subst hu
    exact .refl _
  | cons p q ih =>
    obtain ⟨k, e⟩ := p
    intro s hs hu hL
    refine goes_go hs nofun hu ?_
    simp only [resume, hL, drain]
    have hL2 : (s.w.setLog l { L with queue := q }).logs l = some { L with queue := q } := by simp
    have hD : ∀ {r : World × Option Exc}, r = deliver env L k e (s.w.setLog l { L with queue := q }) → r.1.logs l = some { L with queue := q } := by
      rintro r rfl
      have : (deliver env L k e (s.w.setLog l { L with queue := q })).1.logs = (s.w.setLog l { L with queue := q }).logs := by
        cases k <;> exact callAll_logs ..
      rw [this]; exact hL2
    have key : Goes env (match k with
        | .exception => ((({ s with stack := fs } : St).world (s.w.setLog l { L with queue := q })).push (.drain l)).push (.notes "flush" 0)
        | _ => ((({ s with stack := fs } : St).world (s.w.setLog l { L with queue := q })).push (.drain l)).push (.hooks l (s.gen l) k e 0))
        (fin s (.drain l :: fs) (deliver env L k e (s.w.setLog l { L with queue := q }))) := by
      have hh : ∀ k, Goes env (((({ s with stack := fs } : St).world (s.w.setLog l { L with queue := q })).push (.drain l)).push (.hooks l (s.gen l) k e 0))
          (fin s (.drain l :: fs) (callAll env (hookCalls L k e) (s.w.setLog l { L with queue := q }))) := by
        intro k
        refine sim_hooks (L.hooks k) (s := ((({ s with stack := fs } : St).world (s.w.setLog l { L with queue := q })).push (.drain l)).push (.hooks l (s.gen l) k e 0))
          (i := 0) rfl hu ?_
        simp [St.list, St.push, St.world]
      cases k with
      | exception =>
        exact sim_noteAll (s := ((({ s with stack := fs } : St).world (s.w.setLog l { L with queue := q })).push (.drain l)).push (.notes "flush" 0)) rfl hu
      | begin => exact hh _
      | end_ => exact hh _
      | warn => exact hh _
      | comment => exact hh _
    refine Goes.trans ?_ (Goes.trans key ?_)
    · cases k <;> exact .refl _
    · have hD' := hD rfl
      generalize deliver env L k e (s.w.setLog l { L with queue := q }) = r at hD' ⊢
      obtain ⟨w', r⟩ := r
      cases r with
      | some err => exact goes_up rfl rfl (.refl _)
      | none => exact ih (s := fin s (.drain l :: fs) (w', none)) rfl rfl hD'

theorem sim_flush (hu : s.up = none) (l : LogId) : Goes env (flush s l) (fin s s.stack (Verif.flush env s.w l)) := by
  simp only [flush, Verif.flush]
  cases hL : s.w.logs l with
  | none => simp only; rw [fin_self hu]; exact .refl _
  | some L =>
    simp only
    rcases sim_preflush (env := env) L.preflush (s := s.push (.preflush l 0)) (i := 0) (L := L) rfl hu hL rfl with ⟨w, e1, e2, g⟩ | ⟨w, e, e1, g⟩
    · rw [show runPreflush env l L.preflush s.w = (w, none) from e1]
      refine g.trans ?_
      refine sim_drain (env := env) L.queue (L := L) (s := ⟨w, s.gen, s.old, .drain l :: s.stack, s.up⟩) rfl hu ?_
      show w.logs l = _
      rw [e2]; exact hL
    · rw [show runPreflush env l L.preflush s.w = (w, some e) from e1]
      exact g

theorem sim_ctx {fs : List Frame} (ls : List LogId) : ∀ {s : St}, s.stack = .ctx ls :: fs → s.up = none →
    Goes env s (fin s fs (ctxFlush env ls s.w)) := by
  induction ls with
  | nil =>
    intro s hs hu
    refine goes_go hs nofun hu ?_
    obtain ⟨w, gen, old, st, up⟩ := s
    simp only at hu
    subst hu
    exact .refl _
  | cons l ls ih =>
    intro s hs hu
    refine goes_go hs nofun hu ?_
    simp only [resume, ctxFlush]
    refine Goes.trans (sim_flush (s := ({ s with stack := fs } : St).push (.ctx ls)) hu l) ?_
    show Goes env (fin s (.ctx ls :: fs) (Verif.flush env s.w l)) _
    generalize Verif.flush env s.w l = r
    obtain ⟨w', r⟩ := r
    cases r with
    | none => exact ih (s := fin s (.ctx ls :: fs) (w', none)) rfl rfl
    | some err =>
      cases hc : err.cls with
      | baseOnly =>
        refine goes_up rfl rfl ?_
        simp only [unwind, hc]
        exact .refl _
      | ordinary =>
        refine goes_up rfl rfl ?_
        simp only [unwind, hc]
        refine Goes.trans (sim_noteAll (fs := .ctxNote ls :: fs) (s := ⟨w', s.gen, s.old, .notes "context_flush" 0 :: .ctxNote ls :: fs, none⟩) rfl rfl) ?_
        simp only
        generalize noteAll env "context_flush" w' = r
        obtain ⟨w'', r⟩ := r
        cases r with
        | some e' => exact goes_up rfl rfl (.refl _)
        | none => exact goes_go rfl nofun rfl (ih (s := fin s (.ctx ls :: fs) (w'', none)) rfl rfl)

theorem sim_disable (hu : s.up = none) (u : Bool) : Goes env (call env s (.op (.disableAsync u))) (fin s s.stack (Verif.disableAsync env s.w u)) := by
  simp only [call, Verif.disableAsync]
  generalize (if u = true then s.w.ctxLoggers.foldl (fun w l => setAsync w l false) s.w else s.w) = w
  refine Goes.trans (sim_ctx (s := ((s.world w).push .disable).push (.ctx w.ctxLoggers)) (fs := .disable :: s.stack) _ rfl hu) ?_
  show Goes env (fin s (.disable :: s.stack) (ctxFlush env w.ctxLoggers w)) _
  generalize ctxFlush env w.ctxLoggers w = r
  obtain ⟨w', r⟩ := r
  cases r with
  | none => exact goes_go rfl nofun rfl (.refl _)
  | some err => exact goes_up rfl rfl (.refl _)

/-- An outcome at the application: it catches what was raised. -/
theorem goes_app (r : World × Option Exc) (hs : s.stack = [.code]) : Goes env (fin s s.stack r) ⟨r.1, s.gen, s.old, [.code], none⟩ := by
  obtain ⟨w, r⟩ := r
  cases r with
  | none => rw [hs]; exact .refl _
  | some err => exact goes_up (f := .code) (fs := []) hs rfl (.refl _)

theorem sim_guard (hs : s.stack = [.code]) (hu : s.up = none) {a : ActId} {t : St} {r : World × Option Exc} (h : Goes env t (fin s s.stack r)) :
    Goes env (onAct s a t) ⟨(guard s.w a r).1, s.gen, s.old, [.code], none⟩ := by
  simp only [onAct, guard]
  cases s.w.held a with
  | true => exact h.trans (goes_app r hs)
  | false =>
    obtain ⟨w, gen, old, st, up⟩ := s
    simp only at hu hs
    subst hu hs
    exact .refl _

/-- Every call of the world model is made by the machine, with sinks, hooks and handlers that return or raise at once. -/
theorem sim_item (hw : Verif.Reachable env s.w) (hs : s.stack = [.code]) (hu : s.up = none) (it : Item) :
    ∃ gen old, Goes env s ⟨Verif.stepItem env s.w it, gen, old, [.code], none⟩ := by
  have hstep : ∀ {t}, Goes env (call env s it) t → Goes env s t := fun h => .step (.call it) (by simpa only [Stack.step, hs, hu] using h)
  have plain : ∀ {o : Op}, it = .op o → call env s it = s.world (Verif.step env s.w o).1 → ∃ gen old, Goes env s ⟨Verif.stepItem env s.w it, gen, old, [.code], none⟩ := by
    rintro o rfl h
    refine ⟨s.gen, s.old, hstep ?_⟩
    rw [h]
    obtain ⟨w, gen, old, st, up⟩ := s
    simp only at hu hs
    subst hu hs
    exact .refl _
  have sinks : ∀ {l ss}, Goes env s (setSinks env s l ss) → ∃ gen old, Goes env s ⟨onLog s.w l (fun L => Verif.setSinks env L ss), gen, old, [.code], none⟩ := by
    intro l ss h
    obtain ⟨w, gen, old, st, up⟩ := s
    simp only at hu hs
    subst hu hs
    simp only [setSinks] at h
    simp only [onLog]
    cases hL : w.logs l with
    | none => exact ⟨gen, old, .refl _⟩
    | some L => simp only [hL] at h; exact ⟨_, _, h⟩
  cases it with
  | enter a => exact ⟨_, _, hstep (sim_guard hs hu (sim_enter hu a))⟩
  | exit a exc =>
    refine ⟨s.gen, s.old, hstep ?_⟩
    simp only [call, onAct, stepItem]
    cases hh : s.w.held a with
    | true => exact (sim_exit hw hu hh exc).trans (goes_app _ hs)
    | false =>
      obtain ⟨w, gen, old, st, up⟩ := s
      simp only at hu hs
      subst hu hs
      exact .refl _
  | op o =>
    cases o with
    | begin a m f kw => exact ⟨_, _, hstep (sim_guard hs hu (sim_begin hu a m f kw))⟩
    | warn a m f kw => exact ⟨_, _, hstep (sim_guard hs hu (sim_warn hu a m f kw))⟩
    | success a m f kw => exact ⟨_, _, hstep (sim_guard hs hu (sim_success hu a m f kw))⟩
    | failure a m f kw => exact ⟨_, _, hstep (sim_guard hs hu (sim_failure hu a m f kw))⟩
    | exception a cur m f kw => exact ⟨_, _, hstep (sim_guard hs hu (sim_exception hu a cur m f kw))⟩
    | comment l m f kw => exact ⟨_, _, hstep ((sim_comment hu l m f kw).trans (goes_app _ hs))⟩
    | flush l => exact ⟨_, _, hstep ((sim_flush hu l).trans (goes_app _ hs))⟩
    | ctxFlush => exact ⟨_, _, hstep ((sim_ctx (s := s.push (.ctx s.w.ctxLoggers)) (fs := s.stack) _ rfl hu).trans (goes_app (s := s) _ hs))⟩
    | disableAsync u => exact ⟨_, _, hstep ((sim_disable hu u).trans (goes_app _ hs))⟩
    | setSinks l ss => exact sinks (hstep (.refl _))
    | clearSinks l => exact sinks (hstep (.refl _))
    | newLogger => exact plain rfl rfl
    | newAction => exact plain rfl rfl
    | setItem => exact plain rfl rfl
    | setAsync => exact plain rfl rfl
    | addSink => exact plain rfl rfl
    | addPreflush => exact plain rfl rfl
    | addNoteHandler => exact plain rfl rfl
    | enableAsync => exact plain rfl rfl
    | addLogger => exact plain rfl rfl
    | removeLogger => exact plain rfl rfl

theorem sim_run (its : List Item) : ∀ {s : St}, Verif.Reachable env s.w → s.stack = [.code] → s.up = none →
    ∃ gen old, Goes env s ⟨Verif.run env s.w its, gen, old, [.code], none⟩ := by
  induction its with
  | nil =>
    intro s _ hs hu
    obtain ⟨w, gen, old, st, up⟩ := s
    simp only at hu hs
    subst hu hs
    exact ⟨_, _, .refl _⟩
  | cons it its ih =>
    intro s hw hs hu
    obtain ⟨g, o, h⟩ := sim_item hw hs hu it
    obtain ⟨pre, hp⟩ := hw
    obtain ⟨g', o', h'⟩ := ih (s := ⟨Verif.stepItem env s.w it, g, o, [.code], none⟩)
      ⟨pre ++ [it], by simp only [hp, Verif.run, List.foldl_append]; rfl⟩ rfl rfl
    exact ⟨g', o', h.trans h'⟩

end Verif.Stack
