import Verif.Props.ExcExact
/-!
# C04, C15: what exactly comes out of a call
-/
namespace Verif
open scoped List
attribute [local irreducible] QUEUE_LIMIT

/-- No sink or handler that was called on the way from `w` to `w'` raised. -/
def NoneRaised (env : Env) (w w' : World) : Prop :=
  ∀ pre o post, w'.trace = pre ++ o :: post → w.trace.length ≤ pre.length → env.raises pre o = none

/-- The last call made on the way from `w` to `w'` was `o`, it raised `err`, and no call before it raised. -/
def LastRaised (env : Env) (w w' : World) (o : Obs) (err : Exc) : Prop :=
  ∃ pre, w'.trace = pre ++ [o] ∧ w.trace.length ≤ pre.length ∧ env.raises pre o = some err ∧
    ∀ p q post, pre = p ++ q :: post → w.trace.length ≤ p.length → env.raises p q = none

section
variable {env : Env} {w : World} {a : ActId}

/-- The calls `t`, made after `tr`, do not raise. -/
def Fine (env : Env) (tr t : List Obs) : Prop := ∀ p o q, t = p ++ o :: q → env.raises (tr ++ p) o = none

theorem Fine.nil {tr : List Obs} : Fine env tr [] := by intro p o q h; simp at h

theorem Fine.append {tr t u : List Obs} (h : Fine env tr t) (g : Fine env (tr ++ t) u) : Fine env tr (t ++ u) := by
  intro p o q hp
  rcases List.append_eq_append_iff.1 hp with ⟨c, hc1, hc2⟩ | ⟨c, hc1, hc2⟩
  · rw [hc1, ← List.append_assoc]; exact g _ _ _ hc2
  · cases c with
    | nil => rw [List.append_nil] at hc1; rw [← hc1]; simpa using g [] o q (by simpa using hc2.symm)
    | cons o' c =>
      simp only [List.cons_append, List.cons.injEq] at hc2
      rw [hc2.1]; exact h _ _ _ hc1

/-- What a function that calls sinks reports: nothing if no call raised, else what the last call raised. -/
def Honest (env : Env) (w : World) (r : World × Option Exc) : Prop :=
  ∃ t, r.1.trace = w.trace ++ t ∧ (∀ o ∈ t, ∃ s k ev, o = .hook s k ev) ∧
    (r.2 = none ∧ Fine env w.trace t ∨
      ∃ p o err, r.2 = some err ∧ t = p ++ [o] ∧ Fine env w.trace p ∧ env.raises (w.trace ++ p) o = some err)

theorem Fine.at {tr t : List Obs} (h : Fine env tr t) {pre post : List Obs} {o : Obs} (he : tr ++ t = pre ++ o :: post)
    (hl : tr.length ≤ pre.length) : env.raises pre o = none := by
  obtain ⟨p, rfl⟩ : ∃ p, pre = tr ++ p := by
    have := List.prefix_of_prefix_length_le (l₁ := tr) (l₂ := pre) (l₃ := tr ++ t) (by simp) (by rw [he]; simp) hl
    obtain ⟨p, rfl⟩ := this; exact ⟨p, rfl⟩
  rw [List.append_assoc, List.append_cancel_left_eq] at he
  exact h _ _ _ he

theorem Honest.none {r : World × Option Exc} (h : Honest env w r) : r.2 = none ↔ NoneRaised env w r.1 := by
  obtain ⟨t, ht, hk, ⟨h1, h2⟩ | ⟨p, o, err, h1, rfl, h2, h3⟩⟩ := h
  · exact iff_of_true h1 fun pre o post hp hl => h2.at (ht.symm.trans hp) hl
  · refine iff_of_false (by simp [h1]) fun h => ?_
    have := h (w.trace ++ p) o [] (by rw [ht]; simp) (by simp)
    rw [h3] at this; cases this

theorem Honest.some {r : World × Option Exc} (h : Honest env w r) (err : Exc) : r.2 = some err ↔ ∃ s k ev, LastRaised env w r.1 (.hook s k ev) err := by
  constructor
  · intro he
    obtain ⟨t, ht, hk, ⟨h1, h2⟩ | ⟨p, o, err', h1, rfl, h2, h3⟩⟩ := h
    · simp [h1] at he
    · rw [h1, Option.some.injEq] at he; subst he
      obtain ⟨s, k, ev, rfl⟩ := hk o (by simp)
      exact ⟨s, k, ev, w.trace ++ p, by rw [ht]; simp, by simp, h3, fun p' q post hp hl => h2.at hp hl⟩
  · rintro ⟨s, k, ev, pre, h1, h2, h3, -⟩
    cases hr : r.2 with
    | none =>
      have := h.none.1 hr pre _ [] h1 h2
      rw [h3] at this; cases this
    | some err' =>
      obtain ⟨t, ht, hk, ⟨h4, h5⟩ | ⟨p, o', err'', h4, rfl, h5, h6⟩⟩ := h
      · rw [hr] at h4; cases h4
      · rw [ht, ← List.append_assoc] at h1
        obtain ⟨h7, h8⟩ := List.append_inj' h1 rfl
        simp only [List.cons.injEq, and_true] at h8
        subst h7 h8
        rw [h3] at h6
        rw [← hr, h4, h6]

theorem Honest.pure {w' : World} (h : w'.trace = w.trace) : Honest env w (w', Option.none) := ⟨[], by simp [h], by simp, .inl ⟨rfl, .nil⟩⟩

theorem Honest.pre {w0 : World} {r : World × Option Exc} (h : w.trace = w0.trace) (g : Honest env w r) : Honest env w0 r := by
  obtain ⟨t, h1, hk, h2⟩ := g
  exact ⟨t, by rw [h1, h], hk, by rw [← h]; exact h2⟩

/-- One after the other, the second only if the first did not raise. -/
theorem Honest.then {r : World × Option Exc} {s : World × Option Exc} (h : Honest env w r) (hr : r.2 = Option.none)
    (g : Honest env r.1 s) : Honest env w s := by
  obtain ⟨t, h1, hk, ⟨-, h2⟩ | ⟨_, _, _, h2, _⟩⟩ := h
  swap
  · rw [hr] at h2; cases h2
  obtain ⟨u, g1, hk', g2⟩ := g
  refine ⟨t ++ u, by rw [g1, h1, List.append_assoc], fun o ho => (List.mem_append.1 ho).elim (hk o) (hk' o), ?_⟩
  rcases g2 with ⟨g2, g3⟩ | ⟨p, o, err, g2, rfl, g3, g4⟩
  · exact .inl ⟨g2, h2.append (h1 ▸ g3)⟩
  · exact .inr ⟨t ++ p, o, err, g2, by simp, h2.append (h1 ▸ g3), by rw [← List.append_assoc, ← h1]; exact g4⟩

theorem Honest.andThen {r : World × Option Exc} {k : World → World × Option Exc} (h : Honest env w r) (g : Honest env r.1 (k r.1)) :
    Honest env w (andThen r k) := by
  obtain ⟨w1, x⟩ := r
  cases x with
  | none => exact h.then rfl g
  | some e => exact h

theorem honest_callAll (os : List Obs) (hos : ∀ o ∈ os, ∃ s k ev, o = .hook s k ev) (w : World) : Honest env w (callAll env os w) := by
  induction os generalizing w with
  | nil => exact .pure rfl
  | cons o os ih =>
    simp only [callAll, callback]
    cases h : env.raises w.trace o with
    | none =>
      refine Honest.then (r := ({ w with trace := w.trace ++ [o] }, Option.none)) ⟨[o], rfl, by simpa using hos o (by simp), .inl ⟨rfl, ?_⟩⟩ rfl
        (ih (fun o ho => hos o (by simp [ho])) _)
      intro p q r hp
      cases p with
      | nil => simp at hp; rw [← hp.1, List.append_nil]; exact h
      | cons p ps => simp at hp
    | some err => exact ⟨[o], rfl, by simpa using hos o (by simp), .inr ⟨[], o, err, rfl, rfl, .nil, by simpa using h⟩⟩

theorem honest_publish (l : LogId) (k : Kind) (e : Event) : Honest env w (publish env w l k e) := by
  simp only [publish]
  split
  · exact .pure rfl
  · split
    · exact .pure rfl
    · exact (honest_callAll _ (by simp [hookCalls]) _).pre rfl

theorem honest_publishExc (l : LogId) (e : Event) : Honest env w (publishExc env w l e) := by
  simp only [publishExc]
  split
  · exact .pure rfl
  · exact honest_callAll _ (by simp [hookCalls]) _

theorem honest_begin (m : Option String) (f : List Val) (kw : Dict) : Honest env w (begin_ env w a m f kw) := by
  simp only [begin_]
  split
  · exact .pure rfl
  · split
    · exact .pure rfl
    · exact (honest_publish _ _ _).pre rfl

theorem honest_warn (m : String) (f : List Val) (kw : Dict) : Honest env w (warn env w a m f kw) := by
  simp only [warn]
  split
  · exact .pure rfl
  · exact (honest_publish _ _ _).pre rfl

theorem honest_endWith (st : Status) (m : String) (f : List Val) (t : Int) (exc : Option Exc) :
    Honest env w (endWith env w a st m f t exc) := by
  simp only [endWith]
  split
  · exact .pure rfl
  · split
    · exact .pure rfl
    · exact (honest_publish _ _ _).pre rfl

theorem honest_end (st : Status) (m : String) (f : List Val) (kw : Dict) (t : Option Int) (exc : Option Exc) :
    Honest env w (end_ env w a st m f kw t exc) := by
  simp only [end_]
  split
  · exact .pure rfl
  · split
    · split
      · split
        · exact (honest_endWith ..).pre rfl
        · exact (honest_endWith ..).pre rfl
      · exact (honest_endWith ..).pre rfl
    · refine Honest.pre (w := _) rfl (Honest.andThen (honest_begin ..) ?_)
      split
      · exact .pure rfl
      · exact honest_endWith ..

theorem honest_success (m : Option String) (f : List Val) (kw : Dict) : Honest env w (success env w a m f kw) := by
  simp only [success]
  split
  · exact .pure rfl
  · exact honest_end ..

theorem honest_failure (m : Option String) (f : List Val) (kw : Dict) : Honest env w (failure env w a m f kw) := by
  simp only [failure]
  split
  · exact .pure rfl
  · exact honest_end ..

theorem honest_enter : Honest env w (enter env w a) := by
  simp only [enter]
  split
  · exact .pure rfl
  · exact (honest_begin ..).pre rfl

theorem honest_comment (l : LogId) (m : String) (f : List Val) (kw : Dict) : Honest env w (comment env w l m f kw) := by
  simp only [comment]
  split
  · exact .pure rfl
  · exact (honest_publish _ _ _).pre rfl

theorem honest_exit : Honest env w (exitPublish env w a none) := by
  simp only [exitPublish]
  split
  · exact .pure rfl
  · split
    · exact (honest_publish _ _ _).pre rfl
    · exact (honest_success ..).pre rfl

theorem honest_exception {x : Act} (hx : w.acts a = some x) (cur : Option Exc) (m : Option String) (f : List Val) (kw : Dict)
    (he : excEarly env x cur m = none) : Honest env w (exception_ env w a cur m f kw) := by
  rcases exception_spec (env := env) hx cur m f kw with ⟨err, h, -⟩ | ⟨-, msg, ev, w1, hs, ⟨err, hp, hr⟩ | ⟨hp, hr⟩⟩
  · rw [he] at h; cases h
  · rw [hr]
    have := honest_publishExc (env := env) (w := w1) x.logger ev
    rw [show publishExc env w1 x.logger ev = ((publishExc env w1 x.logger ev).1, some err) from Prod.ext rfl hp] at this
    exact this.pre hs.trace
  · rw [hr]
    exact ((honest_publishExc (env := env) (w := w1) x.logger ev).then hp (honest_end ..)).pre hs.trace

/-! ## The theorems -/

/-- The calls that publish an event: begin, warn, success and failure of an action, a comment, entering a block. -/
inductive Publishes (env : Env) (w : World) : World × Res → Prop
  | begin (a : ActId) (m : Option String) (f : List Val) (kw : Dict) : Publishes env w (step env w (.begin a m f kw))
  | warn (a : ActId) (m : String) (f : List Val) (kw : Dict) : Publishes env w (step env w (.warn a m f kw))
  | success (a : ActId) (m : Option String) (f : List Val) (kw : Dict) : Publishes env w (step env w (.success a m f kw))
  | failure (a : ActId) (m : Option String) (f : List Val) (kw : Dict) : Publishes env w (step env w (.failure a m f kw))
  | comment (l : LogId) (m : String) (f : List Val) (kw : Dict) : Publishes env w (step env w (.comment l m f kw))
  | enter (a : ActId) : Publishes env w (guard w a (enter env w a))

/-- **C15, exactly.**  A call that publishes an event raises exactly what the last sink it called raised: it returns normally if and
only if no sink it called raised, and raises `err` if and only if the last sink it called raised `err`; no sink is called after one
that raised. -/
theorem sink_error_exact {r : World × Res} (h : Publishes env w r) :
    (r.2 = .ok ↔ NoneRaised env w r.1) ∧ ∀ err, r.2 = .exc err ↔ ∃ s k ev, LastRaised env w r.1 (.hook s k ev) err := by
  have key : ∀ q : World × Option Exc, Honest env w q →
      ((ret q).2 = .ok ↔ NoneRaised env w (ret q).1) ∧ ∀ err, (ret q).2 = .exc err ↔ ∃ s k ev, LastRaised env w (ret q).1 (.hook s k ev) err := by
    intro q hq
    have h1 : (ret q).2 = .ok ↔ q.2 = none := by cases h : q.2 <;> simp [ret, h, Res.ofExc]
    have h2 : ∀ err, (ret q).2 = .exc err ↔ q.2 = some err := by intro err; cases h : q.2 <;> simp [ret, h, Res.ofExc]
    exact ⟨h1.trans hq.none, fun err => (h2 err).trans (hq.some err)⟩
  have gd : ∀ (b : ActId) (q : World × Option Exc), Honest env w q →
      ((guard w b q).2 = .ok ↔ NoneRaised env w (guard w b q).1) ∧
        ∀ err, (guard w b q).2 = .exc err ↔ ∃ s k ev, LastRaised env w (guard w b q).1 (.hook s k ev) err := by
    intro b q hq
    simp only [guard]
    split
    · exact key q hq
    · exact key (w, none) (.pure rfl)
  cases h with
  | begin a m f kw => exact gd _ _ (honest_begin ..)
  | warn a m f kw => exact gd _ _ (honest_warn ..)
  | success a m f kw => exact gd _ _ (honest_success ..)
  | failure a m f kw => exact gd _ _ (honest_failure ..)
  | comment l m f kw => exact key _ (honest_comment ..)
  | enter a => exact gd _ _ honest_enter

/-- The last call made on the way from `w` to `w'` was `o`, and it raised `err`. -/
def LastCall (env : Env) (w w' : World) (o : Obs) (err : Exc) : Prop :=
  ∃ pre, w'.trace = pre ++ [o] ∧ w.trace.length ≤ pre.length ∧ env.raises pre o = some err

/-- The call of a note handler. -/
def Obs.IsNote (o : Obs) : Prop := ∃ h n, o = .note h n

/-- What the code that describes the exception `e` for the action raises, if it does. -/
def descErr (env : Env) (w : World) (a : ActId) (e : Exc) (err : Exc) : Prop :=
  ∃ x, w.acts a = some x ∧ (env.excInfoErr (some e) = some err ∨
    env.excInfoErr (some e) = none ∧ env.excText (some e) x.name (!x.data.isEmpty) = .error err)

theorem descErr_iff {x : Act} (hx : w.acts a = some x) (e err : Exc) :
    descErr env w a e err ↔ excEarly env { x with defer := false } (some e) none = some err := by
  simp only [descErr, hx, Option.some.injEq, exists_eq_left', excEarly, falsy]
  cases env.excInfoErr (some e) with
  | some y => simp
  | none => cases env.excText (some e) x.name (!x.data.isEmpty) <;> simp

theorem lastCall_iff {w' : World} {t : List Obs} (ht : w'.trace = w.trace ++ t) (o : Obs) (err : Exc) :
    LastCall env w w' o err ↔ ∃ p, t = p ++ [o] ∧ env.raises (w.trace ++ p) o = some err := by
  constructor
  · rintro ⟨pre, h1, h2, h3⟩
    obtain ⟨p, rfl⟩ : ∃ p, pre = w.trace ++ p := by
      have := List.prefix_of_prefix_length_le (l₁ := w.trace) (l₂ := pre) (l₃ := w.trace ++ t) (by simp) (by rw [← ht, h1]; simp) h2
      obtain ⟨p, rfl⟩ := this; exact ⟨p, rfl⟩
    rw [ht, List.append_assoc, List.append_cancel_left_eq] at h1
    exact ⟨p, h1, h3⟩
  · rintro ⟨p, rfl, h⟩
    exact ⟨w.trace ++ p, by rw [ht]; simp, by simp, h⟩

theorem ran_some_iff (os tr : List Obs) (err : Exc) :
    (ran env os tr).2 = some err ↔ ∃ p o, (ran env os tr).1 = p ++ [o] ∧ env.raises (tr ++ p) o = some err := by
  constructor
  · intro h
    obtain ⟨pre, o, post, -, h2, h3⟩ := ran_split h
    exact ⟨pre, o, h2, h3⟩
  · rintro ⟨p, o, h1, h2⟩
    cases hr : (ran env os tr).2 with
    | none =>
      have := ran_none_at hr (pre := p) (o := o) (post := []) (by rw [ran_none env os tr hr] at h1; exact h1)
      rw [h2] at this; cases this
    | some err' =>
      obtain ⟨pre, o', post, -, h4, h5⟩ := ran_split hr
      obtain ⟨h6, h7⟩ := List.append_inj' (h1.symm.trans h4) rfl
      simp only [List.cons.injEq, and_true] at h7
      subst h6 h7
      rw [← h2, h5]

/-- Leaving a block by the exception `e` raises an error of its own if and only if the code that describes the exception, or the
last sink called, raised an error that is not an `Exception`, or the last call was to a note handler and that raised. -/
theorem exit_exc_error {x : Act} (hx : w.acts a = some x) (e err : Exc) :
    (exitPublish env w a (some e)).2 = some err ↔
      descErr env w a e err ∧ err.cls = .baseOnly ∨
        ∃ o, LastCall env w (exitPublish env w a (some e)).1 o err ∧ (o.IsNote ∨ err.cls = .baseOnly) := by
  rw [exitPublish_exc hx, descErr_iff hx]
  generalize hE : exception_ env (w.setAct a { x with defer := false }) a (some e) none [] [] = E
  -- the notes
  have notes : ∀ (w1 : World), ∃ t, (noteAll env "action_exit" w1).1.trace = w1.trace ++ t ∧ (∀ o ∈ t, o.IsNote) ∧
      ∀ err, (noteAll env "action_exit" w1).2 = some err ↔ ∃ p o, t = p ++ [o] ∧ env.raises (w1.trace ++ p) o = some err := by
    intro w1
    rw [noteAll_eq]
    refine ⟨_, rfl, ?_, fun err => ran_some_iff ..⟩
    intro o ho
    have := (ran_prefix env (w1.noteHandlers.map (fun h => Obs.note h "action_exit")) w1.trace).subset ho
    simp only [List.mem_map] at this
    obtain ⟨h, -, rfl⟩ := this
    exact ⟨h, _, rfl⟩
  cases hd : excEarly env { x with defer := false } (some e) none with
  | some err' =>
    rcases exception_spec (env := env) (w := w.setAct a { x with defer := false }) (a := a) (x := { x with defer := false }) (by simp)
      (some e) none [] [] with ⟨err'', h, hr⟩ | ⟨h, -⟩
    swap
    · rw [hd] at h; cases h
    rw [hd] at h; cases h
    rw [← hE, hr]
    dsimp only
    cases hc : err'.cls with
    | ordinary =>
      obtain ⟨t, h1, h2, h3⟩ := notes (w.setAct a { x with defer := false }).tick
      rw [h3]
      simp only [lastCall_iff (w := w) (t := t) h1]
      constructor
      · rintro ⟨p, o, rfl, h⟩
        exact .inr ⟨o, ⟨p, rfl, h⟩, .inl (h2 o (by simp))⟩
      · rintro (⟨h, h'⟩ | ⟨o, ⟨p, h4, h5⟩, -⟩)
        · cases h; rw [hc] at h'; cases h'
        · exact ⟨p, o, h4, h5⟩
    | baseOnly =>
      simp only [lastCall_iff (w := w) (t := []) (w' := (w.setAct a { x with defer := false }).tick) (by simp [World.tick, World.setAct])]
      constructor
      · intro h; cases h; exact .inl ⟨rfl, hc⟩
      · rintro (⟨h, -⟩ | ⟨o, ⟨p, h, -⟩, -⟩)
        · exact h
        · simp at h
  | none =>
    obtain ⟨t, h1, hk, h2⟩ := honest_exception (env := env) (w := w.setAct a { x with defer := false }) (a := a)
      (x := { x with defer := false }) (by simp) (some e) none [] [] hd
    rw [hE] at h1 h2
    have htr : (w.setAct a { x with defer := false }).trace = w.trace := rfl
    rw [htr] at h1 h2
    obtain ⟨w1, y⟩ := E
    rcases h2 with ⟨h2, h3⟩ | ⟨p, o, err', h2, rfl, h3, h4⟩
    · dsimp only at h1 h2
      subst h2
      simp only [lastCall_iff (w := w) (t := t) h1, reduceCtorEq, false_and, false_or, false_iff]
      rintro ⟨o, ⟨p, rfl, h5⟩, -⟩
      have := h3 p o [] rfl
      rw [h5] at this; cases this
    · dsimp only at h1 h2
      subst h2
      dsimp only
      simp only [reduceCtorEq, false_and, false_or]
      obtain ⟨s, k, ev, rfl⟩ := hk o (by simp)
      cases hc : err'.cls with
      | baseOnly =>
        simp only [lastCall_iff (w := w) (w' := w1) h1]
        constructor
        · intro h; cases h
          exact ⟨_, ⟨p, rfl, h4⟩, .inr hc⟩
        · rintro ⟨o', ⟨p', h5, h6⟩, -⟩
          obtain ⟨h7, h8⟩ := List.append_inj' h5 rfl
          simp only [List.cons.injEq, and_true] at h8
          subst h7 h8
          rw [← h6, h4]
      | ordinary =>
        obtain ⟨u, g1, g2, g3⟩ := notes w1
        rw [g3]
        rw [h1, List.append_assoc] at g1
        simp only [lastCall_iff (w := w) g1]
        constructor
        · rintro ⟨q, o, rfl, h⟩
          exact ⟨o, ⟨p ++ [Obs.hook s k ev] ++ q, by simp, by rw [h1] at h; simpa using h⟩, .inl (g2 o (by simp))⟩
        · rintro ⟨o, ⟨q, h5, h6⟩, h7⟩
          rcases List.eq_nil_or_concat u with rfl | ⟨u', o', rfl⟩
          · exfalso
            rw [List.append_nil] at h5
            obtain ⟨h8, h9⟩ := List.append_inj' h5 rfl
            simp only [List.cons.injEq, and_true] at h9
            subst h8 h9
            rw [h4, Option.some.injEq] at h6
            subst h6
            rcases h7 with ⟨_, _, h⟩ | h
            · cases h
            · rw [hc] at h; cases h
          · rw [List.concat_eq_append, ← List.append_assoc] at h5
            obtain ⟨h8, h9⟩ := List.append_inj' h5 rfl
            simp only [List.cons.injEq, and_true] at h9
            subst h8 h9
            exact ⟨u', o', by simp, by rw [h1]; simpa using h6⟩

/-- What an action's record says at the end of the body of its block. -/
theorem body_act (hr : Reachable env w) (hh : w.held a = true) {x : Act} (hx : w.acts a = some x) (body : World → Prog) :
    ∃ y, (exec env (body (enter env w a).1) (enter env w a).1).1.acts a = some y ∧ y.fixed = x.fixed := by
  have he : stepItem env w (.enter a) = (enter env w a).1 := by simp [stepItem, guard, hh, ret]
  have hrun : run env w (.enter a :: items env (body (enter env w a).1) (enter env w a).1) =
      (exec env (body (enter env w a).1) (enter env w a).1).1 := by
    rw [run_cons, he, run_items]
    rw [← he]; exact (hr.item _).good
  obtain ⟨y, hy, hf⟩ := hr.good.fixed_run
    (.enter a :: items env (body (enter env w a).1) (enter env w a).1) hx
  rw [hrun] at hy
  exact ⟨y, hy, hf⟩

theorem exit_trace {x : Act} (hx : w.acts a = some x) (exc : Option Exc) : (exit env w a exc).1.trace = (exitPublish env w a exc).1.trace := by
  simp only [exit, hx]
  cases exitPublish env w a exc with
  | mk w1 r => cases r <;> rfl

/-- **C04, exactly (1).**  A with statement whose body ends normally raises exactly what the last sink called by leaving it raised: it
ends normally if and only if none of them raised. -/
theorem with_normal_exact (hr : Reachable env w) (hh : w.held a = true) (body : World → Prog) (hent : (enter env w a).2 = none)
    (hb : (exec env (body (enter env w a).1) (enter env w a).1).2 = none) :
    ((exec env (withStmt a body) w).2 = none ↔
      NoneRaised env (exec env (body (enter env w a).1) (enter env w a).1).1 (exec env (withStmt a body) w).1) ∧
    ∀ err, (exec env (withStmt a body) w).2 = some err ↔
      ∃ s k ev, LastRaised env (exec env (body (enter env w a).1) (enter env w a).1).1 (exec env (withStmt a body) w).1 (.hook s k ev) err := by
  obtain ⟨x, hx, hxh⟩ := held_iff.1 hh
  obtain ⟨y, hy, hf⟩ := body_act hr hh hx body
  have hw : exec env (withStmt a body) w = (exec env (match (withOutcome none (exit env (exec env (body (enter env w a).1) (enter env w a).1).1 a none).2) with
      | none => .done | some e => .raise e) (exit env (exec env (body (enter env w a).1) (enter env w a).1).1 a none).1) := by
    simp only [withStmt, exec, hh, if_true, hent, hb]
    rfl
  generalize exec env (body (enter env w a).1) (enter env w a).1 = b at *
  have ho := honest_exit (env := env) (w := b.1) (a := a)
  have h1 : (exec env (withStmt a body) w).2 = (exitPublish env b.1 a none).2 ∧
      (exec env (withStmt a body) w).1.trace = (exitPublish env b.1 a none).1.trace := by
    rw [hw, ← exit_trace hy]
    simp only [exit, hy]
    cases exitPublish env b.1 a none with
    | mk w1 r => cases r <;> simp [withOutcome, exec]
  simp only [NoneRaised, LastRaised, h1.1, h1.2]
  exact ⟨ho.none, ho.some⟩

/-- **C04, exactly (2).**  A with statement whose body raises `e` raises `e`, or nothing for `reraise=False`, unless leaving the block
raises an error of its own.  That happens if and only if the code that describes `e`, or the last sink called, raised something that is
not an `Exception`, or the last call was to a note handler and that raised; the error then takes the place of `e`. -/
theorem with_exception_exact (hr : Reachable env w) (hh : w.held a = true) (body : World → Prog) (hent : (enter env w a).2 = none)
    {e : Exc} (hb : (exec env (body (enter env w a).1) (enter env w a).1).2 = some e) :
    (∃ err, (descErr env (exec env (body (enter env w a).1) (enter env w a).1).1 a e err ∧ err.cls = .baseOnly ∨
        ∃ o, LastCall env (exec env (body (enter env w a).1) (enter env w a).1).1 (exec env (withStmt a body) w).1 o err ∧
          (o.IsNote ∨ err.cls = .baseOnly)) ∧
      (exec env (withStmt a body) w).2 = some err) ∨
    (¬ ∃ err, descErr env (exec env (body (enter env w a).1) (enter env w a).1).1 a e err ∧ err.cls = .baseOnly ∨
        ∃ o, LastCall env (exec env (body (enter env w a).1) (enter env w a).1).1 (exec env (withStmt a body) w).1 o err ∧
          (o.IsNote ∨ err.cls = .baseOnly)) ∧
      (exec env (withStmt a body) w).2 = if (w.acts a).map (·.reraise) = some (.bool false) then none else some e := by
  obtain ⟨x, hx, hxh⟩ := held_iff.1 hh
  obtain ⟨y, hy, hf⟩ := body_act hr hh hx body
  have hre : y.reraise = x.reraise := by simp only [Act.fixed, Prod.mk.injEq] at hf; exact hf.2.2.2.1
  have hw : exec env (withStmt a body) w = (exec env (match (withOutcome (some e) (exit env (exec env (body (enter env w a).1) (enter env w a).1).1 a (some e)).2) with
      | none => .done | some e => .raise e) (exit env (exec env (body (enter env w a).1) (enter env w a).1).1 a (some e)).1) := by
    simp only [withStmt, exec, hh, if_true, hent, hb]
    rfl
  generalize exec env (body (enter env w a).1) (enter env w a).1 = b at *
  have key := exit_exc_error (env := env) hy e
  have h1 : (exec env (withStmt a body) w).2 =
        (match (exitPublish env b.1 a (some e)).2 with
        | some err => some err
        | none => if y.reraise = .bool false then none else some e) ∧
      (exec env (withStmt a body) w).1.trace = (exitPublish env b.1 a (some e)).1.trace := by
    rw [hw, ← exit_trace hy]
    simp only [exit, hy]
    cases exitPublish env b.1 a (some e) with
    | mk w1 r =>
      cases r with
      | none => by_cases hrr : y.reraise = .bool false <;> simp [withOutcome, exec, hrr]
      | some err => simp [withOutcome, exec]
  simp only [LastCall, h1.1, h1.2] at key ⊢
  simp only [← key]
  cases h : (exitPublish env b.1 a (some e)).2 with
  | some err => exact .inl ⟨err, rfl, rfl⟩
  | none => right; simp [hx, hre]

/-- **C05, exactly.**  For a block whose body leaves the active parents as it found them: the with statement restores the active parents
if and only if neither entering nor leaving the block raises and the action's own parent is what was active before; or, if one of them
raises, if and only if the action was the active parent already. -/
theorem active_restored_exact (hr : Reachable env w) (hh : w.held a = true) {x : Act} (hx : w.acts a = some x) (body : World → Prog)
    (hb : (exec env (body (enter env w a).1) (enter env w a).1).1.active = (enter env w a).1.active) :
    (exec env (withStmt a body) w).1.active = w.active ↔
      w.active x.logger =
        if (enter env w a).2 = none ∧ ∃ b, (exit env (exec env (body (enter env w a).1) (enter env w a).1).1 a
            (exec env (body (enter env w a).1) (enter env w a).1).2).2 = .ok b
        then x.parent else some a := by
  obtain ⟨y, hy, hf⟩ := body_act hr hh hx body
  simp only [Act.fixed, Prod.mk.injEq] at hf
  have hact : (enter env w a).1.active = (w.setActive x.logger (some a)).active := by
    simp only [enter, hx]
    rw [(keep_begin (env := env) ..).active]
    simp [World.setActive]
  have hset : ∀ (v : World) (p : Option ActId), v.active = (w.setActive x.logger (some a)).active →
      ((v.setActive x.logger p).active = w.active ↔ w.active x.logger = p) := by
    intro v p hv
    constructor
    · intro h
      have := congrFun h x.logger
      simp only [World.setActive, if_true] at this
      exact this.symm
    · intro h
      funext l
      simp only [World.setActive, hv]
      by_cases hl : l = x.logger <;> simp [hl, h]
  have hstay : ∀ v : World, v.active = (w.setActive x.logger (some a)).active → (v.active = w.active ↔ w.active x.logger = some a) := by
    intro v hv
    have := hset v (some a) hv
    rw [← this]
    constructor
    · intro h
      funext l
      simp only [World.setActive]
      by_cases hl : l = x.logger
      · subst hl
        rw [if_pos rfl, ← congrFun h x.logger, hv]
        simp [World.setActive]
      · rw [if_neg hl, h]
    · intro h
      rw [← h]
      funext l
      simp only [World.setActive, hv]
      by_cases hl : l = x.logger <;> simp [hl]
  cases he : (enter env w a).2 with
  | some err =>
    simp only [withStmt, exec, hh, if_true, he, reduceCtorEq, false_and, if_false]
    exact hstay _ hact
  | none =>
    have hw : (exec env (withStmt a body) w).1 = (exit env (exec env (body (enter env w a).1) (enter env w a).1).1 a
        (exec env (body (enter env w a).1) (enter env w a).1).2).1 := by
      simp only [withStmt, exec, hh, if_true, he]
      split <;> rfl
    rw [hw]
    generalize exec env (body (enter env w a).1) (enter env w a).1 = b at *
    have hk := keep_exitPublish (env := env) (w := b.1) a b.2
    have hka := hk.active
    simp only [exit, hy, true_and]
    cases hq : exitPublish env b.1 a b.2 with
    | mk w1 r =>
      rw [hq] at hka
      dsimp only at hka
      cases r with
      | none =>
        simp only [Except.ok.injEq, exists_eq', if_true]
        rw [hf.1, hf.2.2.2.2.1]
        exact hset _ _ (by rw [hka, hb, hact])
      | some err =>
        simp only [reduceCtorEq, exists_false, if_false]
        exact hstay _ (by rw [hka, hb, hact])

end

/-! ## The hypotheses can be met -/

/-- A sink that raises in `on_end`: the with statement raises it. -/
example : ∃ s k ev, LastRaised (Sample.badSink 0 .end_)
    (exec (Sample.badSink 0 .end_) .done (enter (Sample.badSink 0 .end_) (Sample.one (Sample.badSink 0 .end_)) 0).1).1
    (exec (Sample.badSink 0 .end_) (withStmt 0 fun _ => .done) (Sample.one (Sample.badSink 0 .end_))).1 (.hook s k ev) Sample.sinkErr :=
  ((with_normal_exact (Sample.one_reachable _) (by decide) (fun _ => .done) (by decide) (by decide)).2 _).1 (by decide +kernel)

/-- A sink whose `on_end` raises and a note handler that raises: the note handler's error takes the place of the body's. -/
example : ∃ o err, LastCall Sample.badEndAndNote
    (enter Sample.badEndAndNote (run Sample.badEndAndNote World.init (Sample.setup ++ [.op (.addNoteHandler 7), Sample.mk "a"])) 0).1
    (exec Sample.badEndAndNote (withStmt 0 fun _ => .raise Sample.boom)
      (run Sample.badEndAndNote World.init (Sample.setup ++ [.op (.addNoteHandler 7), Sample.mk "a"]))).1 o err ∧ o.IsNote := by
  rcases with_exception_exact (env := Sample.badEndAndNote)
    (w := run Sample.badEndAndNote World.init (Sample.setup ++ [.op (.addNoteHandler 7), Sample.mk "a"])) ⟨_, rfl⟩ (a := 0) (by decide)
    (fun _ => .raise Sample.boom) (by decide) (e := Sample.boom) rfl with ⟨err, ⟨⟨x, -, h | ⟨-, h⟩⟩, -⟩ | ⟨o, h, h1 | h1⟩, h2⟩ | ⟨-, h⟩
  · cases h
  · cases h
  · exact ⟨o, err, h, h1⟩
  · exfalso
    have : (exec Sample.badEndAndNote (withStmt 0 fun _ => .raise Sample.boom) (run Sample.badEndAndNote World.init
      (Sample.setup ++ [.op (.addNoteHandler 7), Sample.mk "a"]))).2.map (·.cls) = some .ordinary := by decide +kernel
    rw [h2] at this
    simp [h1] at this
  · exfalso; revert h; decide +kernel

/-- `on_begin` raises: `begin` raises it too. -/
example : ∃ s k ev, LastRaised (Sample.badSink 0 .begin) (Sample.one (Sample.badSink 0 .begin))
    (step (Sample.badSink 0 .begin) (Sample.one (Sample.badSink 0 .begin)) (.begin 0 none [] [])).1 (.hook s k ev) Sample.sinkErr :=
  ((sink_error_exact (.begin 0 none [] [])).2 _).1 (by decide +kernel)

/-- A block on an action made before the enclosing block was entered: the active parent is lost. -/
example : (exec Sample.quiet (withStmt 0 fun _ => .done) (run Sample.quiet World.init
    (Sample.setup ++ [Sample.mk "pre", Sample.mk "outer", .enter 1]))).1.active ≠
    (run Sample.quiet World.init (Sample.setup ++ [Sample.mk "pre", Sample.mk "outer", .enter 1])).active := by
  intro h
  have := (active_restored_exact (env := Sample.quiet) (w := run Sample.quiet World.init
    (Sample.setup ++ [Sample.mk "pre", Sample.mk "outer", .enter 1])) (a := 0) ⟨_, rfl⟩ (by decide) rfl (fun _ => .done) rfl).1 h
  revert this
  rw [if_pos ⟨by decide, false, by decide +kernel⟩]
  decide

end Verif
