import Verif.Lemmas.DelInv
import Verif.Lemmas.Calls
import Verif.Lemmas.Config
import Verif.Spec.Contexts
/-!
# What calls on other loggers leave alone
-/
namespace Verif

/-- Nothing of logger `l` is different in `w'`, and nobody heard of it in between. -/
structure Apart (l : LogId) (w w' : World) : Prop where
  log : w'.logs l = w.logs l
  active : w'.active l = w.active l
  act : ∀ a x, x.logger = l → (w'.acts a = some x ↔ w.acts a = some x)
  trace : ∃ t, w'.trace = w.trace ++ t ∧ ∀ o ∈ t, o.log? ≠ some l
  pub : ∃ p, w'.pub = w.pub ++ p ∧ ∀ q ∈ p, q.2.logger ≠ l

namespace Apart
variable {l : LogId} {env : Env}

theorem refl (w : World) : Apart l w w := ⟨rfl, rfl, fun _ _ _ => Iff.rfl, ⟨[], by simp⟩, ⟨[], by simp⟩⟩

theorem trans {a b c : World} (h : Apart l a b) (g : Apart l b c) : Apart l a c := by
  obtain ⟨t, ht, ht'⟩ := h.trace
  obtain ⟨u, hu, hu'⟩ := g.trace
  obtain ⟨p, hp, hp'⟩ := h.pub
  obtain ⟨q, hq, hq'⟩ := g.pub
  refine ⟨g.log.trans h.log, g.active.trans h.active, fun x y e => (g.act x y e).trans (h.act x y e), ⟨t ++ u, ?_, ?_⟩, ⟨p ++ q, ?_, ?_⟩⟩
  · rw [hu, ht, List.append_assoc]
  · intro o ho; rcases List.mem_append.1 ho with h | h
    · exact ht' o h
    · exact hu' o h
  · rw [hq, hp, List.append_assoc]
  · intro o ho; rcases List.mem_append.1 ho with h | h
    · exact hp' o h
    · exact hq' o h

/-- Counters and context fields do not matter. -/
theorem ofEq {w w' : World} (h1 : w'.logs = w.logs) (h2 : w'.active = w.active) (h3 : w'.acts = w.acts) (h4 : w'.trace = w.trace)
    (h5 : w'.pub = w.pub) : Apart l w w' :=
  ⟨by rw [h1], by rw [h2], by rw [h3]; exact fun _ _ _ => Iff.rfl, ⟨[], by simp [h4]⟩, ⟨[], by simp [h5]⟩⟩

theorem setLog (w : World) {m : LogId} (h : m ≠ l) (L : Log) : Apart l w (w.setLog m L) :=
  ⟨by simp [World.setLog, Ne.symm h], rfl, fun _ _ _ => Iff.rfl, ⟨[], by simp [World.setLog]⟩, ⟨[], by simp [World.setLog]⟩⟩

theorem setActive (w : World) {m : LogId} (h : m ≠ l) (p : Option ActId) : Apart l w (w.setActive m p) :=
  ⟨rfl, by simp [World.setActive, Ne.symm h], fun _ _ _ => Iff.rfl, ⟨[], by simp [World.setActive]⟩, ⟨[], by simp [World.setActive]⟩⟩

/-- Writing an action of another logger, old or new. -/
theorem setAct (w : World) {a : ActId} (h0 : ∀ x, w.acts a = some x → x.logger ≠ l) {y : Act} (h : y.logger ≠ l) :
    Apart l w (w.setAct a y) := by
  refine ⟨rfl, rfl, ?_, ⟨[], by simp [World.setAct]⟩, ⟨[], by simp [World.setAct]⟩⟩
  intro b x e
  by_cases hb : b = a
  · subst hb
    constructor
    · intro hx; simp [World.setAct] at hx; subst hx; exact absurd e h
    · intro hx; exact absurd e (h0 x hx)
  · simp [World.setAct, hb]

theorem logged (w : World) {t : List Obs} (h : ∀ o ∈ t, o.log? ≠ some l) : Apart l w (w.logged t) :=
  ⟨rfl, rfl, fun _ _ _ => Iff.rfl, ⟨t, rfl, h⟩, ⟨[], by simp [World.logged]⟩⟩

theorem callAll (w : World) {os : List Obs} (h : ∀ o ∈ os, o.log? ≠ some l) : Apart l w (callAll env os w).1 := by
  rw [callAll_eq]
  exact logged w fun o ho => h o ((ran_prefix env os w.trace).subset ho)

theorem noteAll (w : World) (n : String) : Apart l w (noteAll env n w).1 := by
  refine callAll w ?_
  intro o ho; obtain ⟨h, _, rfl⟩ := List.mem_map.1 ho; simp [Obs.log?]

theorem hooks (w : World) (L : Log) (k : Kind) {e : Event} (h : e.logger ≠ l) : Apart l w (Verif.callAll env (hookCalls L k e) w).1 := by
  refine callAll w ?_
  intro o ho; obtain ⟨s, _, rfl⟩ := List.mem_map.1 ho; simpa [Obs.log?] using h

theorem publish (w : World) {m : LogId} (hm : m ≠ l) (k : Kind) {e : Event} (h : e.logger ≠ l) : Apart l w (publish env w m k e).1 := by
  have h0 : Apart l w { w with pub := w.pub ++ [(k, e)] } :=
    ⟨rfl, rfl, fun _ _ _ => Iff.rfl, ⟨[], by simp⟩, ⟨[(k, e)], rfl, by simpa using h⟩⟩
  simp only [Verif.publish]
  split
  · exact h0
  · split
    · exact h0.trans (setLog _ hm _)
    · exact h0.trans (hooks _ _ _ h)

theorem publishExc (w : World) (m : LogId) {e : Event} (h : e.logger ≠ l) : Apart l w (publishExc env w m e).1 := by
  simp only [Verif.publishExc]
  split
  · exact refl w
  · exact hooks _ _ _ h

theorem tick (w : World) : Apart l w w.tick := ofEq rfl rfl rfl rfl rfl
theorem bump (w : World) : Apart l w w.bump := ofEq rfl rfl rfl rfl rfl

/-- Action `a`, if there is one, belongs to another logger. -/
abbrev Foreign (l : LogId) (w : World) (a : ActId) : Prop := ∀ x, w.acts a = some x → x.logger ≠ l

theorem foreign {w w' : World} (h : Apart l w w') {a : ActId} (hf : Foreign l w a) : Foreign l w' a :=
  fun x hx e => hf x ((h.act a x e).1 hx) e

theorem begin_ {w : World} {a : ActId} (hf : Foreign l w a) (m : Option String) (f : List Val) (kw : Dict) :
    Apart l w (begin_ env w a m f kw).1 := by
  cases hx : w.acts a with
  | none => simp only [Verif.begin_, hx]; exact refl w
  | some x =>
    simp only [Verif.begin_, hx]
    split
    · exact setAct w hf (hf x hx)
    · exact Apart.trans (((tick w).trans (bump _)).trans (setAct w.tick.bump hf (by exact hf x hx))) (publish _ (hf x hx) _ (hf x hx))

theorem warn {w : World} {a : ActId} (hf : Foreign l w a) (m : String) (f : List Val) (kw : Dict) :
    Apart l w (warn env w a m f kw).1 := by
  cases hx : w.acts a with
  | none => simp only [Verif.warn, hx]; exact refl w
  | some x =>
    simp only [Verif.warn, hx]
    exact Apart.trans (((tick w).trans (bump _)).trans (setAct w.tick.bump hf (by exact hf x hx))) (publish _ (hf x hx) _ (hf x hx))

theorem endWith {w : World} {a : ActId} (hf : Foreign l w a) (st : Status) (m : String) (f : List Val) (t : Int) (exc : Option Exc) :
    Apart l w (endWith env w a st m f t exc).1 := by
  cases hx : w.acts a with
  | none => simp only [Verif.endWith, hx]; exact refl w
  | some x =>
    simp only [Verif.endWith, hx]
    split
    · exact (bump w).trans (setAct w.bump hf (hf x hx))
    · exact Apart.trans ((bump w).trans (setAct w.bump hf (by exact hf x hx))) (publish _ (hf x hx) _ (hf x hx))

theorem andThen {w : World} {r : World × Option Exc} {k : World → World × Option Exc} (h : Apart l w r.1)
    (hk : ∀ w', Apart l w w' → Apart l w' (k w').1) : Apart l w (andThen r k).1 := by
  obtain ⟨w1, e⟩ := r
  cases e with
  | none => exact h.trans (hk w1 h)
  | some e => exact h

theorem end_ {w : World} {a : ActId} (hf : Foreign l w a) (st : Status) (m : String) (f : List Val) (kw : Dict) (et : Option Int)
    (exc : Option Exc) : Apart l w (end_ env w a st m f kw et exc).1 := by
  cases hx : w.acts a with
  | none => simp only [Verif.end_, hx]; exact refl w
  | some x =>
    have h0 : Apart l w (w.setAct a { x with data := x.data.update kw }) := setAct w hf (hf x hx)
    have h1 := h0.trans (tick _)
    simp only [Verif.end_, hx]
    split
    · cases et with
      | none => exact h1.trans (endWith (h1.foreign hf) _ _ _ _ _)
      | some t =>
        simp only
        split
        · exact h1.trans (endWith (h1.foreign hf) _ _ _ _ _)
        · exact h0.trans (endWith (h0.foreign hf) _ _ _ _ _)
    · refine h0.trans (andThen (begin_ (h0.foreign hf) _ _ _) fun w' hw => ?_)
      split
      · exact refl _
      · exact endWith (hw.foreign (h0.foreign hf)) _ _ _ _ _

theorem success {w : World} {a : ActId} (hf : Foreign l w a) (m : Option String) (f : List Val) (kw : Dict) :
    Apart l w (success env w a m f kw).1 := by
  simp only [Verif.success]; split
  · exact refl w
  · exact end_ hf ..

theorem failure {w : World} {a : ActId} (hf : Foreign l w a) (m : Option String) (f : List Val) (kw : Dict) :
    Apart l w (failure env w a m f kw).1 := by
  simp only [Verif.failure]; split
  · exact refl w
  · exact end_ hf ..

theorem exception_ {w : World} {a : ActId} (hf : Foreign l w a) (cur : Option Exc) (m : Option String) (f : List Val) (kw : Dict) :
    Apart l w (exception_ env w a cur m f kw).1 := by
  cases hx : w.acts a with
  | none => simp only [Verif.exception_, hx]; exact refl w
  | some x =>
    simp only [Verif.exception_, hx]
    split
    · exact tick w
    · split
      · exact tick w
      · rename_i msg _
        have h1 := ((tick w).trans (bump _)).trans (setAct (l := l) w.tick.bump hf
          (y := { x with excEvs := x.excEvs ++ [mkEvent w.tick a x.logger .exception .exception (w.now env) msg f cur] }) (hf x hx))
        refine h1.trans (andThen (publishExc _ _ (hf x hx)) fun w' hw => ?_)
        exact end_ (hw.foreign (h1.foreign hf)) ..

theorem enter {w : World} {a : ActId} (hf : Foreign l w a) : Apart l w (enter env w a).1 := by
  cases hx : w.acts a with
  | none => simp only [Verif.enter, hx]; exact refl w
  | some x =>
    simp only [Verif.enter, hx]
    have h0 := (setAct w hf (y := { x with isTrans := true, defer := true }) (hf x hx)).trans (setActive _ (hf x hx) (some a))
    exact h0.trans (begin_ (h0.foreign hf) ..)

theorem exitPublish {w : World} {a : ActId} (hf : Foreign l w a) (he : ∀ x ev, w.acts a = some x → x.endEv = some ev → ev.logger ≠ l)
    (exc : Option Exc) : Apart l w (exitPublish env w a exc).1 := by
  cases hx : w.acts a with
  | none => simp only [Verif.exitPublish, hx]; exact refl w
  | some x =>
    simp only [Verif.exitPublish, hx]
    have h0 := setAct w hf (y := { x with defer := false }) (hf x hx)
    cases exc with
    | some e =>
      simp only
      have h2 := h0.trans (exception_ (env := env) (h0.foreign hf) (some e) none [] [])
      cases hr : Verif.exception_ env (w.setAct a { x with defer := false }) a (some e) none [] [] with
      | mk w1 r =>
        rw [hr] at h2
        cases r with
        | none => exact h2
        | some err =>
          obtain ⟨c, tg⟩ := err
          cases c with
          | baseOnly => exact h2
          | ordinary => exact h2.trans (noteAll _ _)
    | none =>
      simp only
      split
      · rename_i ev hev
        exact h0.trans (publish _ (hf x hx) _ (he x ev hx hev))
      · exact h0.trans (success (h0.foreign hf) ..)

theorem exit {w : World} {a : ActId} (hf : Foreign l w a) (he : ∀ x ev, w.acts a = some x → x.endEv = some ev → ev.logger ≠ l)
    (exc : Option Exc) : Apart l w (exit env w a exc).1 := by
  cases hx : w.acts a with
  | none => simp only [Verif.exit, hx]; exact refl w
  | some x =>
    simp only [Verif.exit, hx]
    have h := exitPublish (env := env) hf he exc
    cases hr : Verif.exitPublish env w a exc with
    | mk w1 r =>
      rw [hr] at h
      cases r with
      | some e => exact h
      | none => exact h.trans (setActive _ (hf x hx) _)

theorem setItem {w : World} {a : ActId} (hf : Foreign l w a) (k : String) (v : Val) : Apart l w (setItem w a k v) := by
  cases hx : w.acts a with
  | none => simp only [Verif.setItem, hx]; exact refl w
  | some x => simp only [Verif.setItem, hx]; exact setAct w hf (hf x hx)

theorem newAction {w : World} (hn : w.acts w.nextId = none) {m : LogId} (hm : m ≠ l) (lv : Int) (nm : String) (kw : Dict) :
    Apart l w (newAction w m lv nm kw).1 := by
  simp only [Verif.newAction]
  exact (bump w).trans (setAct w.bump (by intro x hx; rw [show w.bump.acts w.nextId = none from hn] at hx; cases hx) hm)

theorem comment {w : World} (hn : w.acts w.nextId = none) {m : LogId} (hm : m ≠ l) (msg : String) (f : List Val) (kw : Dict) :
    Apart l w (comment env w m msg f kw).1 := by
  simp only [Verif.comment]
  split
  · exact refl w
  · refine Apart.trans (b := w.bump.tick.bump.bump.bump) (ofEq rfl rfl rfl rfl rfl) ?_
    refine (setAct _ (a := w.nextId) ?_ (by exact hm)).trans (publish _ hm _ (by exact hm))
    intro x hx; rw [show w.bump.tick.bump.bump.bump.acts w.nextId = none from hn] at hx; cases hx

theorem runPreflush {m : LogId} (hm : m ≠ l) (hs : List Nat) (w : World) : Apart l w (runPreflush env m hs w).1 := by
  induction hs generalizing w with
  | nil => exact refl w
  | cons h hs ih =>
    have h0 : Apart l w (callback env w (.preflush m h)).1 := logged w (t := [.preflush m h]) (by simpa [Obs.log?] using hm)
    simp only [Verif.runPreflush]
    cases hr : callback env w (.preflush m h) with
    | mk w1 r =>
      rw [hr] at h0
      cases r with
      | none => exact h0.trans (ih _)
      | some e =>
        obtain ⟨c, tg⟩ := e
        cases c with
        | baseOnly => exact h0
        | ordinary =>
          simp only
          have h1 := h0.trans (noteAll (env := env) w1 "preflush")
          cases hn : Verif.noteAll env "preflush" w1 with
          | mk w2 r =>
            rw [hn] at h1
            cases r with
            | none => exact h1.trans (ih _)
            | some e => exact h1

theorem drain {m : LogId} (hm : m ≠ l) (L : Log) (q : List (Kind × Event)) (hq : ∀ p ∈ q, p.2.logger ≠ l) (w : World) :
    Apart l w (drain env m L q w).1 := by
  induction q generalizing w with
  | nil => exact setLog w hm _
  | cons p q ih =>
    obtain ⟨k, e⟩ := p
    have he : e.logger ≠ l := hq (k, e) (by simp)
    have h0 : Apart l w (deliver env L k e (w.setLog m { L with queue := q })).1 := by
      refine (setLog w hm { L with queue := q }).trans ?_
      cases k <;> first | exact noteAll _ _ | exact hooks _ _ _ he
    simp only [Verif.drain]
    cases hr : deliver env L k e (w.setLog m { L with queue := q }) with
    | mk w1 r =>
      rw [hr] at h0
      cases r with
      | some e => exact h0
      | none => exact h0.trans (ih (fun p hp => hq p (List.mem_cons_of_mem _ hp)) w1)

theorem flush {w : World} (hi : QInv env w.del) {m : LogId} (hm : m ≠ l) : Apart l w (flush env w m).1 := by
  cases hL : w.logs m with
  | none => simp only [Verif.flush, hL]; exact refl w
  | some L =>
    have hq : ∀ p ∈ L.queue, p.2.logger ≠ l := by
      rintro ⟨k, e⟩ h
      have := (hi.q m k e (by simpa [Del.queue, World.del, hL] using h)).1
      simpa [this] using hm
    simp only [Verif.flush, hL]
    have h1 := runPreflush (env := env) hm L.preflush w
    cases hr : Verif.runPreflush env m L.preflush w with
    | mk w1 r =>
      rw [hr] at h1
      cases r with
      | some e => exact h1
      | none =>
        simp only
        have h2 := h1.trans (drain (env := env) hm L L.queue hq w1)
        cases hd : Verif.drain env m L L.queue w1 with
        | mk w2 r =>
          rw [hd] at h2
          cases r with
          | some e => exact h2
          | none => exact (h2.trans (tick _)).trans (setLog _ hm _)

theorem setAsync (w : World) {m : LogId} (hm : m ≠ l) (b : Bool) : Apart l w (setAsync w m b) := by
  simp only [Verif.setAsync]; split
  · exact refl w
  · exact setLog w hm _

theorem onLog (w : World) {m : LogId} (hm : m ≠ l) (f : Log → Log) : Apart l w (onLog w m f) := by
  simp only [Verif.onLog]; split
  · exact refl w
  · exact setLog w hm _

theorem guard {w : World} {a : ActId} {r : World × Option Exc} (h : Apart l w r.1) : Apart l w (guard w a r).1 := by
  simp only [Verif.guard]; split
  · exact h
  · exact refl w

end Apart

theorem apart_item {env : Env} {w : World} {l : LogId} (hn : w.acts w.nextId = none) (hev : EvInv w.core) (hi : QInv env w.del)
    (it : Item) (hs : Contexts.isCall it) (h : it.about w ≠ some l) : Apart l w (stepItem env w it) := by
  have hf : ∀ a, (w.acts a).map (·.logger) ≠ some l → Apart.Foreign l w a := by
    intro a ha x hx e; rw [hx] at ha; exact ha (by simp [e])
  cases it with
  | enter a => exact Apart.guard (.enter (hf a h))
  | exit a exc =>
    simp only [stepItem]; split
    · refine .exit (hf a h) ?_ exc
      intro x ev hx he
      rw [(hev.act a x ev hx (.inr (.inl he))).2]
      exact hf a h x hx
    · exact .refl w
  | op o =>
    cases o <;> simp only [Contexts.isCall, Bool.false_eq_true] at hs <;> simp only [Item.about] at h <;> simp only [stepItem, step, ret]
    case newAction m lv nm kw =>
      split
      · exact .refl w
      · exact .newAction hn (by simpa using h) ..
    case begin a m f kw => exact Apart.guard (.begin_ (hf a h) ..)
    case warn a m f kw => exact Apart.guard (.warn (hf a h) ..)
    case success a m f kw => exact Apart.guard (.success (hf a h) ..)
    case failure a m f kw => exact Apart.guard (.failure (hf a h) ..)
    case exception a c m f kw => exact Apart.guard (.exception_ (hf a h) ..)
    case setItem a k v => exact Apart.guard (.setItem (hf a h) ..)
    case comment m t f kw => exact .comment hn (by simpa using h) ..
    case flush m => exact .flush hi (by simpa using h)
    case setAsync m b => exact .setAsync w (by simpa using h) b
    case setSinks m ss => exact .onLog w (by simpa using h) _
    case addSink m ss => exact .onLog w (by simpa using h) _
    case clearSinks m => exact .onLog w (by simpa using h) _
    case addPreflush m p => exact .onLog w (by simpa using h) _

end Verif
