import Verif.Lemmas.ExcTrace
import Verif.Lemmas.Grow
import Verif.Spec.Created
import Verif.Spec.Samples
import Mathlib.Data.List.Induction
/-!
# C81, C82, C83: what actions are created with; what sinks are told; `on_exception`
-/
namespace Verif
open scoped List
attribute [local irreducible] QUEUE_LIMIT

section C81
variable {env : Env} {w w0 : World} {l : LogId} {lv : Int} {nm : String} {kw : Dict} {a : ActId}

/-- **C81.**  Whatever happens after its creation, an action keeps the logger, level and name it was created
with, and the parent it got then: the action given as `parent_action`, else the one that was active on its
logger. -/
theorem C81_created (hr : Reachable env w)
    (hnew : step env w (.newAction l lv nm kw) = (w0, .newAct a)) (its : List Item) :
    ∃ x, (run env w0 its).acts a = some x ∧ x.logger = l ∧ x.level = lv ∧ x.name = nm ∧
      x.parent = parentAsked kw (w.active l) := by
  have h0 : Reachable env w0 := by
    have := hr.step (.newAction l lv nm kw); rw [hnew] at this; exact this
  obtain ⟨⟨L, hL⟩, rfl, rfl⟩ := new_inv hnew
  obtain ⟨x, h1, _, _, h3, h4, h5, _, _, _, _, _, h11, _⟩ := newAction_spec (env := env) hL lv nm kw
  obtain ⟨y, hy, g⟩ := h0.grows its h1
  have hf := g.fixed
  simp only [Act.fixed, Prod.mk.injEq] at hf
  refine ⟨y, hy, hf.1.trans h3, hf.2.1.trans h4, hf.2.2.1.trans h5, hf.2.2.2.2.1.trans (h11.trans ?_)⟩
  simp only [initParent, parentAsked, asParent]
  split <;> rename_i h
  · split at h
    · rename_i p hp; cases h; rw [hp]
    · cases h
  · split at h
    · cases h
    · rename_i hp
      split
      · rename_i p hp'; exact absurd hp' (hp p)
      · rfl

/-- **C81**, the keyword `reraise`: what leaving the block does with an exception is decided by what the action
was created with; only `reraise=False` swallows. -/
theorem C81_reraise (hr : Reachable env w)
    (hnew : step env w (.newAction l lv nm kw) = (w0, .newAct a)) (its : List Item) (e : Exc)
    (hret : ∃ b, (exit env (run env w0 its) a (some e)).2 = .ok b) :
    (exit env (run env w0 its) a (some e)).2 = .ok (kw.get? "reraise" = some (.bool false)) := by
  have h0 : Reachable env w0 := by
    have := hr.step (.newAction l lv nm kw); rw [hnew] at this; exact this
  obtain ⟨⟨L, hL⟩, rfl, rfl⟩ := new_inv hnew
  have h1 : ∃ x, (step env w (.newAction l lv nm kw)).1.acts w.nextId = some x ∧
      x.reraise = (kw.get? "reraise").getD .none := by
    simp only [step, hL, newAction]; exact ⟨_, setAct_same .., rfl⟩
  obtain ⟨x, h1, h2⟩ := h1
  obtain ⟨y, hy, g⟩ := h0.grows its h1
  have hf := g.fixed
  simp only [Act.fixed, Prod.mk.injEq] at hf
  have hre : y.reraise = (kw.get? "reraise").getD .none := hf.2.2.2.1.trans h2
  obtain ⟨b, hb⟩ := hret
  simp only [exit, hy] at hb ⊢
  split at hb
  · cases hb
  · rename_i w1 he
    simp only [hre]
    congr 1
    cases kw.get? "reraise" <;> simp

/-- **C64, C81** for comments: the hidden action of a comment has the parent asked for and both a begin and an
end event, for ever. -/
theorem C64_parented (hr : Reachable env w) {L : Log} (hL : w.logs l = some L)
    (m : String) (f : List Val) (kws : Dict) (its : List Item) :
    ∃ c x, (stepItem env w (.op (.comment l m f kws))).pub = w.pub ++ [(.comment, c)] ∧
      (run env (stepItem env w (.op (.comment l m f kws))) its).acts c.act = some x ∧
      x.parent = parentAsked kws (w.active l) ∧ x.logger = l ∧
      (∃ b, x.beginEv = some b) ∧ (∃ en, x.endEv = some en) := by
  have h1 : ∃ x, (stepItem env w (.op (.comment l m f kws))).acts w.nextId = some x ∧
      x.parent = initParent w l kws ∧ x.logger = l ∧ x.beginEv.isSome ∧ x.endEv.isSome := by
    simp only [stepItem, step, ret, comment, hL, publish_acts]
    exact ⟨_, setAct_same .., rfl, rfl, rfl, rfl⟩
  have hp : ∃ c : Event, (stepItem env w (.op (.comment l m f kws))).pub = w.pub ++ [(.comment, c)] ∧
      c.act = w.nextId := by
    simp only [stepItem, step, ret, comment, hL]
    exact ⟨mkEvent w.bump.tick.bump.bump w.nextId l .comment .comment (w.now env) m f none, publish_pub' .., rfl⟩
  obtain ⟨x, hx, h2, h3, h4, h5⟩ := h1
  obtain ⟨c, hc, ha⟩ := hp
  obtain ⟨y, hy, g⟩ := (hr.item (.op (.comment l m f kws))).grows its hx
  have hf := g.fixed
  simp only [Act.fixed, Prod.mk.injEq] at hf
  obtain ⟨b, hb⟩ := Option.isSome_iff_exists.1 h4
  refine ⟨c, y, hc, by rw [ha]; exact hy, ?_, hf.1.trans h3, ⟨b, g.begun b hb⟩,
    Option.isSome_iff_exists.1 (g.ended h5)⟩
  rw [hf.2.2.2.2.1, h2]
  simp only [initParent, parentAsked, asParent]
  split <;> rename_i h
  · split at h
    · rename_i p hp; cases h; rw [hp]
    · cases h
  · split at h
    · cases h
    · rename_i hp
      split
      · rename_i p hp'; exact absurd hp' (hp p)
      · rfl
end C81

section C82
variable {env : Env} {w : World}

/-- Publications have a status that goes with their kind. -/
def PubStatus (c : Core) : Prop := ∀ k e, (k, e) ∈ c.pub → e.status ∈ k.statuses

theorem pubStatus_step {c d : Core} (hev : EvInv c) (h : PubStatus c) (s : CoreStep c d) : PubStatus d := by
  have add : ∀ (k : Kind) (e : Event), e.status ∈ k.statuses → ∀ k' e', (k', e') ∈ c.pub ++ [(k, e)] →
      e'.status ∈ k'.statuses := by
    intro k e hs k' e' hm
    rcases List.mem_append.1 hm with hm | hm
    · exact h k' e' hm
    · simp only [List.mem_singleton, Prod.mk.injEq] at hm; rw [hm.1, hm.2]; exact hs
  cases s with
  | newAct | upd | exc | fin => exact h
  | begin a x d t f e _ _ _ _ _ _ _ hs => exact add _ _ (by simp [Kind.statuses, hs])
  | warn a x d e _ _ _ _ _ _ hs => exact add _ _ (by simp [Kind.statuses, hs])
  | pubEnd a x e hx hh he =>
    obtain ⟨_, h2, _⟩ := hev.endKind a x e hx he
    exact add _ _ (by simpa [Kind.statuses] using h2)
  | comment x b en e _ _ _ _ _ _ _ _ _ _ _ _ _ _ _ _ _ _ _ _ _ hs => exact add _ _ (by simp [Kind.statuses, hs])

theorem Reachable.pubStatus (h : Reachable env w) : PubStatus w.core :=
  (h.inv (P := fun c => IdInv c ∧ EvInv c ∧ PubStatus c)
    (fun _ _ h s => ⟨idInv_step h.1 s, evInv_step h.1 h.2.1 s, pubStatus_step h.2.1 h.2.2 s⟩)
    ⟨idInv_init, evInv_init, by simp [PubStatus, World.core, World.init]⟩).2.2

/-- Hook calls go to hooks that exist, with an event of their kind. -/
def HookOk (env : Env) (d : Del) : Prop := ∀ s k e, Obs.hook s k e ∈ d.trace → e.kind = k ∧ env.hasHook s k = true

theorem hookOk_step {d d' : Del} (hq : QInv env d) (h : HookOk env d) (st : DelStep env d d') : HookOk env d' := by
  have ran : ∀ {l : LogId} {L : Log} (k : Kind) (e : Event), d.logs l = some L → e.kind = k →
      ∀ s k' e', Obs.hook s k' e' ∈ d.trace ++ (ran env (hookCalls L k e) d.trace).1 →
        e'.kind = k' ∧ env.hasHook s k' = true := by
    intro l L k e hL hk s k' e' hm
    rcases List.mem_append.1 hm with hm | hm
    · exact h s k' e' hm
    · have := (ran_prefix env _ _).subset hm
      simp only [hookCalls, (hq.reg l L hL).hooks, List.mem_map, List.mem_filter, Obs.hook.injEq] at this
      obtain ⟨s', ⟨_, h1⟩, rfl, rfl, rfl⟩ := this
      exact ⟨hk, h1⟩
  have other : ∀ t : List Obs, (∀ o ∈ t, o.isHook = false) → ∀ s k e, Obs.hook s k e ∈ d.trace ++ t →
      e.kind = k ∧ env.hasHook s k = true := by
    intro t ht s k e hm
    rcases List.mem_append.1 hm with hm | hm
    · exact h s k e hm
    · have := ht _ hm; simp [Obs.isHook] at this
  cases st with
  | pub st =>
    cases st with
    | sync l L k e hL _ _ hk _ => exact ran k e hL hk
    | async => exact h
    | exc l L e hL _ hk => exact ran .exception e hL hk
    | note t ht => exact other t ht
  | flush st =>
    cases st with
    | pop l L k e q hL hq' _ =>
      refine ran k e hL (hq.q l k e ?_).2.1
      simp [Del.queue, hL, hq']
    | popExc l L e q t _ _ ht => exact other t ht
    | other t ht => exact other t ht
    | _ => exact h
  | cfg st => cases st <;> exact h

theorem Reachable.hookOk (h : Reachable env w) : HookOk env w.del :=
  (h.delInv (P := fun d => QInv env d ∧ HookOk env d) (fun _ _ h s => ⟨qInv_step h.1 s, hookOk_step h.1 h.2 s⟩)
    ⟨qInv_init env, by simp [HookOk, World.del, World.init]⟩).2

/-- An action the application holds has a logger. -/
theorem held_log (hr : Reachable env w) {a : ActId} (h : w.held a = true) :
    ∃ x, w.acts a = some x ∧ ∃ L, w.logs x.logger = some L := by
  simp only [World.held] at h
  cases hx : w.acts a with
  | none => rw [hx] at h; cases h
  | some x =>
    exact ⟨x, rfl, Option.isSome_iff_exists.1 (hr.good.pre.log a x hx)⟩

/-- A call of `exception` that gets as far as making its event. -/
theorem exception_full {a : ActId} {x : Act} {L : Log} (hx : w.acts a = some x) (hL : w.logs x.logger = some L)
    (hreg : RegOk env L) (cur : Option Exc) (m : Option String) (f : List Val) (kw : Dict) :
    (∃ err, excEarly env x cur m = some err ∧ exception_ env w a cur m f kw = (w.tick, some err)) ∨
    (excEarly env x cur m = none ∧ ∃ ev t1 t2 y, ev.act = a ∧ ev.logger = x.logger ∧ ev.kind = .exception ∧
      ev.status = .exception ∧ ev.etime = env.clock w.ticks ∧ ev.excInfo = cur ∧ ev.fargs = f ∧
      (exception_ env w a cur m f kw).1.acts a = some y ∧ y.excEvs = x.excEvs ++ [ev] ∧
      (exception_ env w a cur m f kw).1.trace = w.trace ++ t1 ++ t2 ∧
      t1 <+: (L.sinks.filter fun s => env.hasHook s .exception).map (fun s => Obs.hook s .exception ev) ∧
      (∀ o ∈ t2, o.excHook = false) ∧
      ((∀ tr s, env.raises tr (.hook s .exception ev) = none) →
        t1 = (L.sinks.filter fun s => env.hasHook s .exception).map fun s => Obs.hook s .exception ev)) := by
  rcases exception_trace (env := env) hx hL cur m f kw with h | ⟨h, msg, ev, w1, hs, hst, ⟨y, hy, hy'⟩, t, ht, hno, hstop⟩
  · exact .inl h
  right
  have hc : hookCalls L .exception ev =
      (L.sinks.filter fun s => env.hasHook s .exception).map fun s => Obs.hook s .exception ev := by
    simp only [hookCalls, hreg.hooks]
  refine ⟨h, ev, _, t, y, hs.act, hs.log, hs.kind, hst, hs.time, hs.exc, hs.efargs, hy, hy', ht, ?_, hno, ?_⟩
  · rw [← hc]; exact ran_prefix ..
  · intro hq
    rw [← hc]
    refine ran_none _ _ _ ?_
    cases hr : (ran env (hookCalls L .exception ev) w.trace).2 with
    | none => rfl
    | some e =>
      obtain ⟨pre, o, post, h1, h2, h3⟩ := ran_split hr
      have : o ∈ hookCalls L .exception ev := by rw [h1]; simp
      simp only [hookCalls, List.mem_map] at this
      obtain ⟨s, _, rfl⟩ := this
      rw [hq] at h3; cases h3

/-- Leaving a block by an exception: what `exception` does, then perhaps notes. -/
theorem exit_exc {a : ActId} {x : Act} (hx : w.acts a = some x) (e : Exc) :
    (exit env w a (some e)).1.acts =
      (exception_ env (w.setAct a { x with defer := false }) a (some e) none [] []).1.acts ∧
    NoExc (exception_ env (w.setAct a { x with defer := false }) a (some e) none [] []).1
      (exit env w a (some e)).1 := by
  simp only [exit, hx, exitPublish]
  generalize exception_ env (w.setAct a { x with defer := false }) a (some e) none [] [] = r
  obtain ⟨w1, y⟩ := r
  cases y with
  | none => exact ⟨rfl, .ofEq rfl⟩
  | some err =>
    dsimp only
    cases err.cls with
    | baseOnly => exact ⟨rfl, .refl _⟩
    | ordinary =>
      dsimp only
      have h1 := noExc_note (env := env) (w := w1) "action_exit"
      have h2 := noteAll_acts (env := env) (w := w1) "action_exit"
      generalize noteAll env "action_exit" w1 = r at h1 h2
      obtain ⟨w2, z⟩ := r
      cases z with
      | none => exact ⟨h2, h1.trans (.ofEq rfl)⟩
      | some z => exact ⟨h2, h1⟩

/-- The event an `on_exception` hook is called with is recorded. -/
theorem exc_item (hr : Reachable env w) (it : Item) :
    ∃ t, (stepItem env w it).trace = w.trace ++ t ∧ ∀ s e, Obs.hook s .exception e ∈ t →
      e.status = .exception ∧ ∃ x, (stepItem env w it).acts e.act = some x ∧ e ∈ x.excEvs := by
  have ok : NoExc w (stepItem env w it) → ∃ t, (stepItem env w it).trace = w.trace ++ t ∧
      ∀ s e, Obs.hook s .exception e ∈ t →
        e.status = .exception ∧ ∃ x, (stepItem env w it).acts e.act = some x ∧ e ∈ x.excEvs := by
    rintro ⟨t, h1, h2⟩
    exact ⟨t, h1, fun s e he => by simpa [Obs.excHook] using h2 _ he⟩
  by_cases h1 : ∃ a c m f kw, it = .op (.exception a c m f kw)
  · obtain ⟨a, c, m, f, kw, rfl⟩ := h1
    cases hh : w.held a with
    | false => exact ok (.ofEq (by simp [stepItem, step, guard, hh]))
    | true =>
      obtain ⟨x, hx, L, hL⟩ := held_log hr hh
      have hst : stepItem env w (.op (.exception a c m f kw)) = (exception_ env w a c m f kw).1 := by
        simp [stepItem, step, guard, hh, ret]
      rw [hst] at ok ⊢
      rcases exception_full (env := env) hx hL (hr.qInv.reg _ _ hL) c m f kw with
        ⟨err, _, h⟩ | ⟨_, ev, t1, t2, y, ha, _, _, hs, _, _, _, hy, hy', ht, hp, hno, _⟩
      · exact ok (.ofEq (by rw [h]; rfl))
      · refine ⟨t1 ++ t2, by rw [ht, List.append_assoc], ?_⟩
        intro s e hm
        rcases List.mem_append.1 hm with hm | hm
        · have := hp.subset hm
          simp only [List.mem_map, Obs.hook.injEq] at this
          obtain ⟨_, _, _, _, rfl⟩ := this
          exact ⟨hs, y, by rw [ha]; exact hy, by rw [hy']; simp⟩
        · simpa [Obs.excHook] using hno _ hm
  · by_cases h2 : ∃ a e, it = .exit a (some e)
    · obtain ⟨a, e, rfl⟩ := h2
      cases hh : w.held a with
      | false => exact ok (.ofEq (by simp [stepItem, hh]))
      | true =>
        obtain ⟨x, hx, L, hL⟩ := held_log hr hh
        have hst : stepItem env w (.exit a (some e)) = (exit env w a (some e)).1 := by simp [stepItem, hh]
        rw [hst] at ok ⊢
        obtain ⟨hac, hne⟩ := exit_exc (env := env) hx e
        rcases exception_full (env := env) (w := w.setAct a { x with defer := false }) (setAct_same ..) hL
            (hr.qInv.reg _ _ hL) (some e) none [] [] with
          ⟨err, _, h⟩ | ⟨_, ev, t1, t2, y, ha, _, _, hs, _, _, _, hy, hy', ht, hp, hno, _⟩
        · refine ok (.pre ?_ hne); rw [h]; rfl
        · obtain ⟨t3, ht3, hno3⟩ := hne
          refine ⟨t1 ++ t2 ++ t3, by rw [ht3, ht]; simp, ?_⟩
          intro s e' hm
          rcases List.mem_append.1 hm with hm | hm
          · rcases List.mem_append.1 hm with hm | hm
            · have := hp.subset hm
              simp only [List.mem_map, Obs.hook.injEq] at this
              obtain ⟨_, _, _, _, rfl⟩ := this
              exact ⟨hs, y, by rw [ha, hac]; exact hy, by rw [hy']; simp⟩
            · simpa [Obs.excHook] using hno _ hm
          · simpa [Obs.excHook] using hno3 _ hm
    · exact ok (noExc_item it (fun a c m f kw h => h1 ⟨a, c, m, f, kw, h⟩) (fun a e h => h2 ⟨a, e, h⟩))

theorem exc_recorded (hr : Reachable env w) : ∀ s e, Obs.hook s .exception e ∈ w.trace →
    e.status = .exception ∧ ∃ x, w.acts e.act = some x ∧ e ∈ x.excEvs := by
  obtain ⟨its, rfl⟩ := hr
  induction its using List.reverseRecOn with
  | nil => intro s e h; simp [Verif.run, World.init] at h
  | append_singleton its it ih =>
    have hr : Reachable env (run env World.init its) := ⟨its, rfl⟩
    have hrun : run env World.init (its ++ [it]) = stepItem env (run env World.init its) it := by
      simp [run, List.foldl_append]
    rw [hrun]
    intro s e hm
    obtain ⟨t, ht, hn⟩ := exc_item hr it
    rw [ht] at hm
    rcases List.mem_append.1 hm with hm | hm
    · obtain ⟨h1, x, hx, he⟩ := ih s e hm
      obtain ⟨y, hy, g⟩ := hr.grows [it] hx
      exact ⟨h1, y, hy, g.exc.subset he⟩
    · exact hn s e hm

/-- **C82.**  Nothing is made up.  Whenever a sink's `on_<k>` is called, the sink has that hook; the event has kind
`k` and a status that goes with it; its action exists and belongs to the event's logger; and the event was
published (a begin event is the one the action has, an exception event is among those the action has). -/
theorem C82_sound (hr : Reachable env w) (s : SinkId) (k : Kind) (e : Event) (h : Obs.hook s k e ∈ w.trace) :
    env.hasHook s k = true ∧ e.kind = k ∧ e.status ∈ k.statuses ∧
      (k ≠ .exception → (k, e) ∈ w.pub) ∧
      ∃ x, w.acts e.act = some x ∧ x.logger = e.logger ∧
        (k = .begin → x.beginEv = some e) ∧ (k = .exception → e ∈ x.excEvs) ∧
        (k = .end_ → x.endEv.isSome) := by
  obtain ⟨h1, h2⟩ := hr.hookOk s k e h
  by_cases hk : k = .exception
  · subst hk
    obtain ⟨h3, x, hx, he⟩ := exc_recorded hr s e h
    have := (hr.evInv.act e.act x e hx (.inr (.inr (.inr he)))).2
    exact ⟨h2, h1, by simp [Kind.statuses, h3], by simp, x, hx, this.symm, by simp, fun _ => he, by simp⟩
  · have hp : (k, e) ∈ w.pub := hr.received_pub (s := s) hk (by
      simp only [received, List.mem_filterMap]
      exact ⟨_, h, by simp⟩)
    obtain ⟨_, _, x, hx, hl, _⟩ := hr.evInv.pub k e hp
    refine ⟨h2, h1, hr.pubStatus k e hp, fun _ => hp, x, hx, hl.symm, ?_, fun h => absurd h hk, ?_⟩
    · rintro rfl
      obtain ⟨y, hy, hb⟩ := hr.hasInv.begin e hp
      rw [hx] at hy; cases hy; exact hb
    · rintro rfl
      obtain ⟨y, hy, _, hb, _⟩ := hr.hasInv.fin e hp
      rw [hx] at hy; cases hy; exact hb

end C82

section C83
variable {env : Env} {w : World}

theorem onException_none {t : List Obs} (h : ∀ o ∈ t, o.excHook = false) : onException t = [] := by
  simp only [onException, List.filterMap_eq_nil_iff]
  intro o ho
  have := h o ho
  cases o with
  | hook s k e => cases k <;> simp_all [Obs.excHook]
  | _ => rfl

/-- **C83, exactly when.**  Only `exception` and leaving a with block by an exception call `on_exception` hooks. -/
theorem C83_only (it : Item) (h1 : ∀ a c m f kw, it ≠ .op (.exception a c m f kw))
    (h2 : ∀ a e, it ≠ .exit a (some e)) :
    onException (stepItem env w it).trace = onException w.trace := by
  obtain ⟨t, h, hn⟩ := noExc_item (env := env) (w := w) it h1 h2
  rw [h]
  have := onException_none hn
  simp only [onException] at this ⊢
  rw [List.filterMap_append, this, List.append_nil]

/-- What C83 says of a call that records exception `exc` on action `a`, from `w` to `w'`: before anything else is
called, the `on_exception` hooks of the logger's sinks are called in the order of the sinks with one new event,
which is added to the action's exceptions; if none of them raises, all of them are; and no `on_exception` hook is
called after that. -/
def RecordsException (env : Env) (a : ActId) (exc : Exc) (w w' : World) : Prop :=
  ∃ x L ev y t1 t2, w.acts a = some x ∧ w.logs x.logger = some L ∧
    ev.act = a ∧ ev.logger = x.logger ∧ ev.kind = .exception ∧ ev.status = .exception ∧
    ev.etime = env.clock w.ticks ∧ ev.excInfo = some exc ∧
    w'.acts a = some y ∧ y.excEvs = x.excEvs ++ [ev] ∧
    w'.trace = w.trace ++ t1 ++ t2 ∧
    t1 <+: (L.sinks.filter fun s => env.hasHook s .exception).map (fun s => Obs.hook s .exception ev) ∧
    ((∀ tr s, env.raises tr (.hook s .exception ev) = none) →
      t1 = (L.sinks.filter fun s => env.hasHook s .exception).map fun s => Obs.hook s .exception ev) ∧
    onException t2 = []

/-- **C83, `exception`.**  Whatever the mode of the logger: if the information about the exception can be extracted
and the message built, the exception is recorded and announced at once. -/
theorem C83_exception (hr : Reachable env w) {a : ActId} (hh : w.held a = true) (e : Exc)
    (hinfo : env.excInfoErr (some e) = none) (htext : ∀ n b, ∃ s, env.excText (some e) n b = .ok s)
    (m : Option String) (f : List Val) (kw : Dict) :
    RecordsException env a e w (stepItem env w (.op (.exception a (some e) m f kw))) := by
  obtain ⟨x, hx, L, hL⟩ := held_log hr hh
  have hst : stepItem env w (.op (.exception a (some e) m f kw)) = (exception_ env w a (some e) m f kw).1 := by
    simp [stepItem, step, guard, hh, ret]
  have hne : excEarly env x (some e) m = none := by
    simp only [excEarly, hinfo]
    obtain ⟨s, hs⟩ := htext x.name (!x.data.isEmpty)
    rw [hs]
    by_cases hm : falsy m <;> simp [hm]
  rcases exception_full (env := env) hx hL (hr.qInv.reg _ _ hL) (some e) m f kw with
    ⟨err, h, _⟩ | ⟨_, ev, t1, t2, y, ha, hl, hk, hs, het, hex, _, hy, hy', ht, hp, hno, hq⟩
  · rw [hne] at h; cases h
  · rw [hst]
    exact ⟨x, L, ev, y, t1, t2, hx, hL, ha, hl, hk, hs, het, hex, hy, hy', ht, hp, hq, onException_none hno⟩

/-- **C83, with blocks.**  Likewise when a with block is left by an exception. -/
theorem C83_exit (hr : Reachable env w) {a : ActId} (hh : w.held a = true) (e : Exc)
    (hinfo : env.excInfoErr (some e) = none) (htext : ∀ n b, ∃ s, env.excText (some e) n b = .ok s) :
    RecordsException env a e w (stepItem env w (.exit a (some e))) := by
  obtain ⟨x, hx, L, hL⟩ := held_log hr hh
  have hst : stepItem env w (.exit a (some e)) = (exit env w a (some e)).1 := by simp [stepItem, hh]
  have hne : excEarly env { x with defer := false } (some e) none = none := by
    simp only [excEarly, hinfo]
    obtain ⟨s, hs⟩ := htext x.name (!x.data.isEmpty)
    simp [falsy, hs]
  obtain ⟨hac, t3, ht3, hno3⟩ := exit_exc (env := env) hx e
  rcases exception_full (env := env) (w := w.setAct a { x with defer := false }) (setAct_same ..) hL
      (hr.qInv.reg _ _ hL) (some e) none [] [] with
    ⟨err, h, _⟩ | ⟨_, ev, t1, t2, y, ha, hl, hk, hs, het, hex, _, hy, hy', ht, hp, hno, hq⟩
  · rw [hne] at h; cases h
  · rw [hst]
    refine ⟨x, L, ev, y, t1, t2 ++ t3, hx, hL, ha, hl, hk, hs, het, hex, by rw [hac]; exact hy, hy',
      by rw [ht3, ht]; simp, hp, hq, onException_none ?_⟩
    intro o ho
    rcases List.mem_append.1 ho with ho | ho
    · exact hno o ho
    · exact hno3 o ho

end C83

/-! ## The hypotheses can be met -/
namespace Sample

/-- Inside the block of action 0, an action is made with the outer one active, another with an explicit parent. -/
def family : List Item :=
  setup ++ [mk "outer", .enter 0, mk "inner", mk "other" [("parent_action", .act 2), ("reraise", .bool false)]]

def familyW : World := run quiet World.init family
theorem familyW_new (kw : Dict) : (step quiet familyW (.newAction 0 20 "leaf" kw)).2 = .newAct 4 := rfl

example : ∃ x, (run quiet (step quiet familyW (.newAction 0 20 "leaf" [("parent_action", .act 2)])).1
      [.enter 4, .exit 0 none, .op (.comment 0 "c" [] [])]).acts 4 = some x ∧ x.logger = 0 ∧ x.level = 20 ∧
      x.name = "leaf" ∧ x.parent = some 2 :=
  C81_created (w := familyW) (l := 0) (lv := 20) (nm := "leaf") (kw := [("parent_action", .act 2)]) ⟨family, rfl⟩
    (by rw [← familyW_new]) _
example : familyW.active 0 = some 0 := by decide +kernel
example : (familyW.acts 2).map (·.parent) = some (some 0) := by decide +kernel
example : (exit quiet (run quiet (step quiet familyW (.newAction 0 20 "leaf" [("reraise", .bool false)])).1
    [.enter 4]) 4 (some boom)).2 = .ok true :=
  (C81_reraise (w := familyW) (l := 0) (lv := 20) (nm := "leaf") (kw := [("reraise", .bool false)]) ⟨family, rfl⟩
    (by rw [← familyW_new]) [.enter 4] boom ⟨true, by decide +kernel⟩).trans (by decide +kernel)
example : ∃ c x, (stepItem quiet familyW (.op (.comment 0 "c" [] []))).pub = familyW.pub ++ [(.comment, c)] ∧
    (run quiet (stepItem quiet familyW (.op (.comment 0 "c" [] []))) [.exit 0 none]).acts c.act = some x ∧
    x.parent = some 0 ∧ x.logger = 0 ∧ (∃ b, x.beginEv = some b) ∧ (∃ en, x.endEv = some en) :=
  C64_parented ⟨family, rfl⟩ rfl "c" [] [] [.exit 0 none]

/-- A queued history: only `on_exception` reaches the sinks before the flush. -/
def queuedBoom : List Item := setupAsync ++ [mk "a", .enter 0, .op (.exception 0 (some boom) none [] []), .exit 0 (some boom)]
example : (onException (run quiet World.init queuedBoom).trace).map (·.1) = [0, 1, 0, 1] := by decide +kernel
example : (run quiet World.init queuedBoom).trace.length = 4 := by decide +kernel
example : RecordsException quiet 0 boom (run quiet World.init (queuedBoom.take 3))
    (stepItem quiet (run quiet World.init (queuedBoom.take 3)) (.op (.exception 0 (some boom) none [] []))) :=
  C83_exception ⟨_, rfl⟩ (by decide +kernel) boom rfl (fun _ _ => ⟨_, rfl⟩) none [] []
example : RecordsException quiet 0 boom (run quiet World.init (queuedBoom.take 4))
    (stepItem quiet (run quiet World.init (queuedBoom.take 4)) (.exit 0 (some boom))) :=
  C83_exit ⟨_, rfl⟩ (by decide +kernel) boom rfl (fun _ _ => ⟨_, rfl⟩)
example : onException (stepItem quiet (run quiet World.init queuedBoom) (.op (.flush 0))).trace =
    onException (run quiet World.init queuedBoom).trace :=
  C83_only _ (by simp) (by simp)
example : (run quiet World.init (queuedBoom ++ [.op (.flush 0)])).trace.length = 8 := by decide +kernel
example (s : SinkId) (k : Kind) (e : Event)
    (h : Obs.hook s k e ∈ (run quiet World.init (queuedBoom ++ [.op (.flush 0)])).trace) : e.kind = k :=
  (C82_sound ⟨_, rfl⟩ s k e h).2.1

end Sample
end Verif
