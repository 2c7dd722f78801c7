import Verif.Lemmas.Basic
/-!
# Every history is a sequence of a few elementary changes of actions, ids and publications
-/
namespace Verif

/-- The part of the state invariants about actions and publications speak of. -/
structure Core where
  nextId : Nat
  acts : ActId → Option Act
  pub : List (Kind × Event)

def World.core (w : World) : Core := ⟨w.nextId, w.acts, w.pub⟩

/-- Elementary changes. -/
inductive CoreStep : Core → Core → Prop
  | newAct (c : Core) (x : Act) : x.beginEv = none → x.endEv = none → x.warnEvs = [] →
      x.excEvs = [] → x.isTrans = false → x.defer = false → x.handle = true →
      CoreStep c ⟨c.nextId + 1, updAct c.acts c.nextId x, c.pub⟩
  | upd (c : Core) (a : ActId) (x : Act) (d : Dict) (t f : Bool) : c.acts a = some x →
      x.handle = true → (t = true → x.beginEv.isSome) →
      CoreStep c ⟨c.nextId, updAct c.acts a { x with data := d, isTrans := t, defer := f }, c.pub⟩
  | begin (c : Core) (a : ActId) (x : Act) (d : Dict) (t f : Bool) (e : Event) : c.acts a = some x →
      x.handle = true → x.beginEv = none → e.id = c.nextId → e.act = a → e.logger = x.logger →
      e.kind = .begin → e.status = .begin →
      CoreStep c ⟨c.nextId + 1,
        updAct c.acts a { x with data := d, isTrans := t, defer := f, beginEv := some e },
        c.pub ++ [(.begin, e)]⟩
  | warn (c : Core) (a : ActId) (x : Act) (d : Dict) (e : Event) : c.acts a = some x →
      x.handle = true → e.id = c.nextId → e.act = a → e.logger = x.logger →
      e.kind = .warn → e.status = .warning →
      CoreStep c ⟨c.nextId + 1,
        updAct c.acts a { x with data := d, warnEvs := x.warnEvs ++ [e] }, c.pub ++ [(.warn, e)]⟩
  | exc (c : Core) (a : ActId) (x : Act) (e : Event) : c.acts a = some x →
      x.handle = true → e.id = c.nextId → e.act = a → e.logger = x.logger →
      e.kind = .exception → e.status = .exception →
      CoreStep c ⟨c.nextId + 1, updAct c.acts a { x with excEvs := x.excEvs ++ [e] }, c.pub⟩
  | fin (c : Core) (a : ActId) (x : Act) (e : Event) : c.acts a = some x →
      x.handle = true → x.beginEv.isSome → e.id = c.nextId → e.act = a → e.logger = x.logger →
      e.kind = .end_ → (e.status = .success ∨ e.status = .failure ∨ e.status = .exception) →
      (e.status = .exception → x.excEvs ≠ []) →
      CoreStep c ⟨c.nextId + 1, updAct c.acts a { x with endEv := some e }, c.pub⟩
  | pubEnd (c : Core) (a : ActId) (x : Act) (e : Event) : c.acts a = some x →
      x.handle = true → x.endEv = some e →
      CoreStep c ⟨c.nextId, c.acts, c.pub ++ [(.end_, e)]⟩
  | comment (c : Core) (x : Act) (b en e : Event) : x.beginEv = some b → x.endEv = some en →
      x.warnEvs = [] → x.excEvs = [] → x.isTrans = false → x.defer = false → x.handle = false →
      b.id = c.nextId + 1 → en.id = c.nextId + 2 → e.id = c.nextId + 3 →
      b.act = c.nextId → en.act = c.nextId → e.act = c.nextId →
      b.logger = x.logger → en.logger = x.logger → e.logger = x.logger →
      b.kind = .begin → en.kind = .end_ → e.kind = .comment →
      b.status = .begin → en.status = .success → e.status = .comment →
      CoreStep c ⟨c.nextId + 4, updAct c.acts c.nextId x, c.pub ++ [(.comment, e)]⟩

/-- Zero or more elementary changes. -/
inductive CoreStar : Core → Core → Prop
  | refl (c : Core) : CoreStar c c
  | tail {a b c : Core} : CoreStar a b → CoreStep b c → CoreStar a c

theorem CoreStar.single {a b : Core} (h : CoreStep a b) : CoreStar a b := .tail (.refl a) h
theorem CoreStar.trans {a b c : Core} (h : CoreStar a b) (g : CoreStar b c) : CoreStar a c := by
  induction g with
  | refl => exact h
  | tail _ s ih => exact .tail ih s
theorem CoreStar.ofEq {a b : Core} (h : b = a) : CoreStar a b := h ▸ .refl a

/-- An elementary invariant holds in every later state. -/
theorem CoreStar.inv {P : Core → Prop} (hs : ∀ a b, P a → CoreStep a b → P b) {a b : Core}
    (h : CoreStar a b) (ha : P a) : P b := by
  induction h with
  | refl => exact ha
  | tail _ s ih => exact hs _ _ ih s

theorem FlushLike.coreEq {w w' : World} (h : FlushLike w w') : w'.core = w.core := by
  simp [World.core, h.core.nextId, h.core.acts, h.core.pub]

theorem core_begin {env : Env} {w : World} {a : ActId} {x : Act} (hx : w.acts a = some x)
    (hh : x.handle = true) (ht : x.isTrans = true → x.beginEv.isSome)
    (m : Option String) (f : List Val) (kw : Dict) :
    CoreStar w.core (begin_ env w a m f kw).1.core := by
  obtain ⟨lg, lv, nm, d, rr, p, b, en, wv, ev, t, df, h⟩ := x
  simp only [begin_, hx]
  cases b with
  | some b =>
    exact .single (.upd w.core a _ (d.update kw) t df hx hh ht)
  | none =>
    have := CoreStep.begin w.core a _ (d.update kw) t df
      (mkEvent w a lg .begin .begin (w.now env) (if falsy m then nm ++ " beginning" else m.getD "") f none)
      hx hh rfl rfl rfl rfl rfl rfl
    refine .single ?_
    simpa [World.core, mkEvent, World.now] using this

/-- `__enter__` changes the flags first; the state in between is not observable. -/
theorem core_enter {env : Env} {w : World} {a : ActId} {x : Act} (hx : w.acts a = some x)
    (hh : x.handle = true) : CoreStar w.core (enter env w a).1.core := by
  obtain ⟨lg, lv, nm, d, rr, p, b, en, wv, ev, t, df, h⟩ := x
  simp only [enter, hx, begin_, setActive_acts, setAct_acts, updAct_same]
  cases b with
  | some b =>
    have := CoreStep.upd w.core a _ (d.update []) true true hx hh (by simp)
    refine .single ?_
    simpa [World.core] using this
  | none =>
    have := CoreStep.begin w.core a _ (d.update []) true true
      (mkEvent w a lg .begin .begin (w.now env) (nm ++ " beginning") [] none)
      hx hh rfl rfl rfl rfl rfl rfl
    refine .single ?_
    simpa [World.core, mkEvent, World.now, falsy] using this

theorem core_warn {env : Env} {w : World} {a : ActId} {x : Act} (hx : w.acts a = some x)
    (hh : x.handle = true) (m : String) (f : List Val) (kw : Dict) :
    CoreStar w.core (warn env w a m f kw).1.core := by
  simp only [warn, hx]
  have := CoreStep.warn w.core a x (x.data.update kw)
    (mkEvent w a x.logger .warn .warning (w.now env) m f none) hx hh rfl rfl rfl rfl rfl
  refine .single ?_
  simpa [World.core, mkEvent, World.now] using this

theorem core_endWith {env : Env} {w : World} {a : ActId} {x : Act} (hx : w.acts a = some x)
    (hh : x.handle = true) (hb : x.beginEv.isSome) {st : Status}
    (hst : st = .success ∨ st = .failure ∨ st = .exception) (hxe : st = .exception → x.excEvs ≠ [])
    (m : String) (f : List Val) (t : Int) (exc : Option Exc) :
    CoreStar w.core (endWith env w a st m f t exc).1.core := by
  simp only [endWith, hx]
  have h1 := CoreStep.fin w.core a x (mkEvent w a x.logger .end_ st t m f exc) hx hh hb rfl rfl rfl rfl hst hxe
  split
  · refine .single ?_
    simpa [World.core, mkEvent, World.now] using h1
  · refine (CoreStar.single h1).tail ?_
    have h2 := CoreStep.pubEnd
      ⟨w.core.nextId + 1, updAct w.core.acts a
        { x with endEv := some (mkEvent w a x.logger .end_ st t m f exc) }, w.core.pub⟩ a
      { x with endEv := some (mkEvent w a x.logger .end_ st t m f exc) }
      (mkEvent w a x.logger .end_ st t m f exc) (by simp) hh rfl
    simpa [World.core, mkEvent, World.now] using h2

/-- The record after `begin_`: begun, and the fields other changes leave alone. -/
theorem begin_acts {env : Env} {w : World} {a : ActId} {x : Act} (hx : w.acts a = some x)
    (m : Option String) (f : List Val) (kw : Dict) :
    ∃ b, (begin_ env w a m f kw).1.acts =
      updAct w.acts a { x with data := x.data.update kw, beginEv := some b } := by
  simp only [begin_, hx]
  cases hb : x.beginEv with
  | some b => exact ⟨b, by simp [← hb]⟩
  | none => exact ⟨_, by simp only [publish_acts]; rfl⟩

theorem core_end {env : Env} {w : World} {a : ActId} {x : Act} (hx : w.acts a = some x)
    (hh : x.handle = true) (ht : x.isTrans = true → x.beginEv.isSome) {st : Status}
    (hst : st = .success ∨ st = .failure ∨ st = .exception) (hxe : st = .exception → x.excEvs ≠ [])
    (m : String) (f : List Val) (kw : Dict) (et : Option Int) (exc : Option Exc) :
    CoreStar w.core (end_ env w a st m f kw et exc).1.core := by
  simp only [end_, hx]
  have h1 := CoreStep.upd w.core a x (x.data.update kw) x.isTrans x.defer hx hh ht
  have h1' : CoreStar w.core (w.setAct a { x with data := x.data.update kw }).core := .single h1
  by_cases htr : x.isTrans = true
  · have hb := ht htr
    have h2 : ∀ t, CoreStar (w.setAct a { x with data := x.data.update kw }).core
        (endWith env (w.setAct a { x with data := x.data.update kw }) a st m f t exc).1.core := fun t =>
      core_endWith (x := { x with data := x.data.update kw }) (by simp) hh hb hst hxe m f t exc
    have h3 : ∀ t, CoreStar (w.setAct a { x with data := x.data.update kw }).core
        (endWith env (w.setAct a { x with data := x.data.update kw }).tick a st m f t exc).1.core := fun t =>
      core_endWith (w := (w.setAct a { x with data := x.data.update kw }).tick)
        (x := { x with data := x.data.update kw }) (by simp) hh hb hst hxe m f t exc
    simp only [htr, if_true]
    cases et with
    | none => simpa [htr] using h1'.trans (h3 _)
    | some t =>
      by_cases h0 : t = 0
      · simpa [h0, htr] using h1'.trans (h3 _)
      · simpa [h0, htr] using h1'.trans (h2 t)
  · rw [if_neg htr]
    have hb1 := core_begin (env := env) (w := w.setAct a { x with data := x.data.update kw }) (a := a)
      (x := { x with data := x.data.update kw }) (by simp) hh ht none [] []
    obtain ⟨b, hb⟩ := begin_acts (env := env) (w := w.setAct a { x with data := x.data.update kw })
      (a := a) (x := { x with data := x.data.update kw }) (by simp) none [] []
    cases hr : begin_ env (w.setAct a { x with data := x.data.update kw }) a none [] [] with
    | mk w1 r =>
      rw [hr] at hb1 hb
      simp only at hb1 hb
      cases r with
      | some e => exact h1'.trans hb1
      | none =>
        simp only [andThen, hb, updAct_same, Option.bind_some]
        refine (h1'.trans hb1).trans ?_
        have hw1 := hb ▸ updAct_same (w.setAct a { x with data := x.data.update kw }).acts a
          { x with data := (x.data.update kw).update [], beginEv := some b }
        exact core_endWith hw1 hh rfl hst hxe m f _ exc

theorem core_success {env : Env} {w : World} {a : ActId} {x : Act} (hx : w.acts a = some x)
    (hh : x.handle = true) (ht : x.isTrans = true → x.beginEv.isSome)
    (m : Option String) (f : List Val) (kw : Dict) :
    CoreStar w.core (success env w a m f kw).1.core := by
  simp only [success, hx]; exact core_end hx hh ht (.inl rfl) (by simp) _ _ _ _ _

theorem core_failure {env : Env} {w : World} {a : ActId} {x : Act} (hx : w.acts a = some x)
    (hh : x.handle = true) (ht : x.isTrans = true → x.beginEv.isSome)
    (m : Option String) (f : List Val) (kw : Dict) :
    CoreStar w.core (failure env w a m f kw).1.core := by
  simp only [failure, hx]; exact core_end hx hh ht (.inr (.inl rfl)) (by simp) _ _ _ _ _

theorem core_exception {env : Env} {w : World} {a : ActId} {x : Act} (hx : w.acts a = some x)
    (hh : x.handle = true) (ht : x.isTrans = true → x.beginEv.isSome) (cur : Option Exc)
    (m : Option String) (f : List Val) (kw : Dict) :
    CoreStar w.core (exception_ env w a cur m f kw).1.core := by
  simp only [exception_, hx]
  cases env.excInfoErr cur with
  | some err => exact .refl _
  | none =>
    simp only
    cases (if falsy m then env.excText cur x.name (!x.data.isEmpty) else Except.ok (m.getD "")) with
    | error err => exact .refl _
    | ok msg =>
      simp only
      have h1 := CoreStep.exc w.core a x
        (mkEvent w a x.logger .exception .exception (w.now env) msg f cur) hx hh rfl rfl rfl rfl rfl
      have h1' : CoreStar w.core (((w.tick).bump.setAct a { x with excEvs := x.excEvs ++
        [mkEvent w.tick a x.logger .exception .exception (w.now env) msg f cur] })).core := .single h1
      have hp := publishExc_core env ((w.tick).bump.setAct a { x with excEvs := x.excEvs ++
        [mkEvent w.tick a x.logger .exception .exception (w.now env) msg f cur] }) x.logger
        (mkEvent w.tick a x.logger .exception .exception (w.now env) msg f cur)
      cases hr : publishExc env ((w.tick).bump.setAct a { x with excEvs := x.excEvs ++
        [mkEvent w.tick a x.logger .exception .exception (w.now env) msg f cur] }) x.logger
        (mkEvent w.tick a x.logger .exception .exception (w.now env) msg f cur) with
      | mk w1 r =>
        rw [hr] at hp
        dsimp only at hp
        have hc : w1.core = (((w.tick).bump.setAct a { x with excEvs := x.excEvs ++
          [mkEvent w.tick a x.logger .exception .exception (w.now env) msg f cur] })).core := by
          simp [World.core, hp.nextId, hp.acts, hp.pub]
        cases r with
        | some e => simp only [andThen]; rw [hc]; exact h1'
        | none =>
          simp only [andThen]
          refine h1'.trans ?_
          rw [← hc]
          exact core_end (x := { x with excEvs := x.excEvs ++
            [mkEvent w.tick a x.logger .exception .exception (w.now env) msg f cur] })
            (by rw [hp.acts]; simp) hh ht (.inr (.inr rfl)) (by simp) _ _ _ _ _

theorem core_exitPublish {env : Env} {w : World} {a : ActId} {x : Act} (hx : w.acts a = some x)
    (hh : x.handle = true) (ht : x.isTrans = true → x.beginEv.isSome) (exc : Option Exc) :
    CoreStar w.core (exitPublish env w a exc).1.core := by
  simp only [exitPublish, hx]
  have h1 := CoreStep.upd w.core a x x.data x.isTrans false hx hh ht
  have h1' : CoreStar w.core (w.setAct a { x with defer := false }).core := .single h1
  cases exc with
  | some e =>
    simp only
    have h2 := core_exception (env := env) (w := w.setAct a { x with defer := false }) (a := a)
      (x := { x with defer := false }) (by simp) hh ht (some e) none [] []
    cases hr : exception_ env (w.setAct a { x with defer := false }) a (some e) none [] [] with
    | mk w1 r =>
      rw [hr] at h2
      cases r with
      | none => exact h1'.trans h2
      | some err =>
        obtain ⟨c, tg⟩ := err
        cases c with
        | baseOnly => exact h1'.trans h2
        | ordinary =>
          simp only
          rw [(noteAll_flushLike env "action_exit" w1).coreEq]
          exact h1'.trans h2
  | none =>
    simp only
    split
    · rename_i ev he
      refine h1'.tail ?_
      have h3 := CoreStep.pubEnd (w.setAct a { x with defer := false }).core a
        { x with defer := false } ev (by simp [World.core]) hh he
      simpa [World.core] using h3
    · exact h1'.trans (core_success (x := { x with defer := false }) (by simp) hh ht _ _ _)

theorem core_exit {env : Env} {w : World} {a : ActId} {x : Act} (hx : w.acts a = some x)
    (hh : x.handle = true) (ht : x.isTrans = true → x.beginEv.isSome) (exc : Option Exc) :
    CoreStar w.core (exit env w a exc).1.core := by
  simp only [exit, hx]
  have h := core_exitPublish (env := env) hx hh ht exc
  cases hr : exitPublish env w a exc with
  | mk w1 r =>
    rw [hr] at h
    cases r with
    | some e => exact h
    | none => exact h

theorem core_newAction (w : World) (l : LogId) (lv : Int) (nm : String) (kw : Dict) :
    CoreStar w.core (newAction w l lv nm kw).1.core :=
  .single (.newAct w.core _ rfl rfl rfl rfl rfl rfl rfl)

theorem core_setItem {w : World} {a : ActId} {x : Act} (hx : w.acts a = some x)
    (hh : x.handle = true) (ht : x.isTrans = true → x.beginEv.isSome) (k : String) (v : Val) :
    CoreStar w.core (setItem w a k v).core := by
  simp only [setItem, hx]
  exact .single (.upd w.core a x (x.data.set k v) x.isTrans x.defer hx hh ht)

theorem core_comment (env : Env) (w : World) (l : LogId) (m : String) (f : List Val) (kw : Dict) :
    CoreStar w.core (comment env w l m f kw).1.core := by
  simp only [comment]
  cases hl : w.logs l with
  | none => exact .refl _
  | some L =>
    simp only
    refine .single ?_
    have := CoreStep.comment w.core
      { logger := l, level := 90, name := "_comment", data := kw.erase "parent_action"
        reraise := .bool true
        parent := initParent w l kw
        beginEv := some (mkEvent w.bump.tick w.nextId l .begin .begin (w.now env)
          (m ++ " (begin comment)") f none)
        endEv := some (mkEvent w.bump.tick.bump w.nextId l .end_ .success (w.now env)
          (m ++ " (end comment)") f none)
        warnEvs := [], excEvs := [], isTrans := false, defer := false, handle := false }
      _ _ (mkEvent w.bump.tick.bump.bump w.nextId l .comment .comment (w.now env) m f none)
      rfl rfl rfl rfl rfl rfl rfl rfl rfl rfl rfl rfl rfl rfl rfl rfl rfl rfl rfl rfl rfl rfl
    simpa [World.core, mkEvent, World.now, Nat.add_assoc] using this

/-- Entered actions have begun. -/
def TransOK (c : Core) : Prop :=
  ∀ a x, c.acts a = some x → x.isTrans = true → x.beginEv.isSome

theorem transOK_step {c d : Core} (h : TransOK c) (s : CoreStep c d) : TransOK d := by
  intro a y hy ht
  cases s with
  | newAct x hb he hw hx htr hd hh =>
    simp only [updAct] at hy
    split at hy
    · cases hy; simp [htr] at ht
    · exact h a y hy ht
  | upd b x dd t f hx hh htr =>
    simp only [updAct] at hy
    split at hy
    · cases hy; exact htr ht
    · exact h a y hy ht
  | begin b x dd t f e hx =>
    simp only [updAct] at hy
    split at hy
    · cases hy; rfl
    · exact h a y hy ht
  | warn b x dd e hx =>
    simp only [updAct] at hy
    split at hy
    · cases hy; exact h b x hx ht
    · exact h a y hy ht
  | exc b x e hx =>
    simp only [updAct] at hy
    split at hy
    · cases hy; exact h b x hx ht
    · exact h a y hy ht
  | fin b x e hx =>
    simp only [updAct] at hy
    split at hy
    · cases hy; exact h b x hx ht
    · exact h a y hy ht
  | pubEnd b x e hx => exact h a y hy ht
  | comment x b en e hb he hw hx htr =>
    simp only [updAct] at hy
    split at hy
    · cases hy; simp [htr] at ht
    · exact h a y hy ht

theorem held_iff {w : World} {a : ActId} :
    w.held a = true ↔ ∃ x, w.acts a = some x ∧ x.handle = true := by
  simp only [World.held]
  cases w.acts a <;> simp

theorem onLog_flushLike (w : World) (l : LogId) (f : Log → Log) : FlushLike w (onLog w l f) := by
  simp only [onLog]; split
  · exact .refl w
  · exact .setLog _ _ _

theorem core_guard {w : World} {a : ActId} {r : World × Option Exc}
    (h : ∀ x, w.acts a = some x → x.handle = true → CoreStar w.core r.1.core) :
    CoreStar w.core (guard w a r).1.core := by
  simp only [guard]
  split
  · rename_i hh
    obtain ⟨x, hx, hh⟩ := held_iff.1 hh
    exact h x hx hh
  · exact .refl _

theorem core_step {env : Env} {w : World} (ht : TransOK w.core) (o : Op) :
    CoreStar w.core (step env w o).1.core := by
  cases o <;> simp only [step, ret]
  case newLogger l ss as =>
    split
    · exact .refl _
    · simp only [addLogger]; split <;> exact .refl _
  case newAction l lv nm kw =>
    split
    · exact .refl _
    · exact core_newAction _ _ _ _ _
  case begin a m f kw => exact core_guard fun x hx hh => core_begin hx hh (ht a x hx) _ _ _
  case warn a m f kw => exact core_guard fun x hx hh => core_warn hx hh _ _ _
  case success a m f kw => exact core_guard fun x hx hh => core_success hx hh (ht a x hx) _ _ _
  case failure a m f kw => exact core_guard fun x hx hh => core_failure hx hh (ht a x hx) _ _ _
  case exception a cur m f kw =>
    exact core_guard fun x hx hh => core_exception hx hh (ht a x hx) _ _ _ _
  case setItem a k v => exact core_guard fun x hx hh => core_setItem hx hh (ht a x hx) _ _
  case comment l m f kw => exact core_comment _ _ _ _ _ _
  case flush l => exact .ofEq (flush_flushLike _ _ _).coreEq
  case setAsync l b => exact .ofEq (setAsync_flushLike _ _ _).coreEq
  case setSinks l ss => exact .ofEq (onLog_flushLike _ _ _).coreEq
  case addSink l ss => exact .ofEq (onLog_flushLike _ _ _).coreEq
  case clearSinks l => exact .ofEq (onLog_flushLike _ _ _).coreEq
  case addPreflush l h => exact .ofEq (onLog_flushLike _ _ _).coreEq
  case addNoteHandler h => exact .refl _
  case ctxFlush => exact .ofEq (ctxFlush_flushLike _ _ _).coreEq
  case enableAsync u =>
    simp only [enableAsync]
    cases u
    · exact .refl _
    · have := (foldl_setAsync_flushLike w.ctxLoggers false { w with ctxAsync := true }).coreEq
      exact .ofEq this
  case disableAsync u =>
    simp only [disableAsync]
    have h1 : ∀ w' : World, w'.core = w.core → CoreStar w.core
        (match ctxFlush env w'.ctxLoggers w' with
          | (w, some e) => (w, some e)
          | (w, none) => ({ w with ctxAsync := false }, none) : World × Option Exc).1.core := by
      intro w' hw'
      have h2 := (ctxFlush_flushLike env w'.ctxLoggers w').coreEq
      cases hr : ctxFlush env w'.ctxLoggers w' with
      | mk w2 r =>
        rw [hr] at h2
        cases r <;> exact .ofEq (h2.trans hw')
    cases u
    · exact h1 _ rfl
    · exact h1 _ (foldl_setAsync_flushLike w.ctxLoggers false w).coreEq
  case addLogger l =>
    split
    · exact .refl _
    · simp only [addLogger]; split <;> exact .refl _
  case removeLogger l => exact .refl _

theorem core_stepItem {env : Env} {w : World} (ht : TransOK w.core) (it : Item) :
    CoreStar w.core (stepItem env w it).core := by
  cases it with
  | op o => exact core_step ht o
  | enter a => exact core_guard fun x hx hh => core_enter hx hh
  | exit a exc =>
    simp only [stepItem]
    split
    · rename_i hh
      obtain ⟨x, hx, hh⟩ := held_iff.1 hh
      exact core_exit hx hh (ht a x hx) exc
    · exact .refl _

theorem core_run {env : Env} {w : World} (ht : TransOK w.core) (its : List Item) :
    CoreStar w.core (run env w its).core ∧ TransOK (run env w its).core := by
  induction its generalizing w with
  | nil => exact ⟨.refl _, ht⟩
  | cons it its ih =>
    have h1 := core_stepItem (env := env) ht it
    have h2 := h1.inv (P := TransOK) (fun _ _ h s => transOK_step h s) ht
    have h3 := ih h2
    exact ⟨h1.trans h3.1, h3.2⟩

theorem transOK_init : TransOK World.init.core := by
  intro a x h; simp [World.core, World.init] at h

/-- Elementary invariants that hold initially hold in every reachable state. -/
theorem Reachable.inv {env : Env} {w : World} (h : Reachable env w) {P : Core → Prop}
    (hs : ∀ a b, P a → CoreStep a b → P b) (h0 : P World.init.core) : P w.core := by
  obtain ⟨its, rfl⟩ := h
  exact (core_run transOK_init its).1.inv hs h0

end Verif
