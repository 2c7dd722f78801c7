import Verif.Props.WithBlock
import Verif.Lemmas.ExcTrace
/-!
# C03: when exactly an exception that leaves a with block is recorded
-/
namespace Verif
open scoped List
attribute [local irreducible] QUEUE_LIMIT

/-- No `on_exception` method of a sink that was called on the way from `w` to `w'` raised. -/
def HooksFine (env : Env) (w w' : World) : Prop :=
  ∀ (pre : List Obs) (s : SinkId) (ev : Event) (post : List Obs), w'.trace = pre ++ .hook s .exception ev :: post →
    w.trace.length ≤ pre.length → env.raises pre (.hook s .exception ev) = none

section
variable {env : Env} {w : World} {a : ActId}

theorem ran_none_at {os tr : List Obs} (h : (ran env os tr).2 = none) {pre post : List Obs} {o : Obs} (ho : os = pre ++ o :: post) :
    env.raises (tr ++ pre) o = none := by
  induction os generalizing tr pre with
  | nil => simp at ho
  | cons o' os ih =>
    simp only [ran] at h
    cases hr : env.raises tr o' with
    | some e => simp [hr] at h
    | none =>
      simp only [hr] at h
      cases pre with
      | nil =>
        simp only [List.nil_append, List.cons.injEq] at ho
        rw [← ho.1, List.append_nil]; exact hr
      | cons p pre =>
        simp only [List.cons_append, List.cons.injEq] at ho
        have := ih h ho.2
        rw [ho.1] at this
        simpa using this

/-- From the start of `_exception` on: `t` is what the hooks were called with, and nobody else's `on_exception` was called. -/
theorem hooksFine_iff {w w' : World} {os t : List Obs} (htr : w'.trace = w.trace ++ ((ran env os w.trace).1 ++ t))
    (hos : ∀ o ∈ os, o.excHook = true) (ht : ∀ o ∈ t, o.excHook = false) : HooksFine env w w' ↔ (ran env os w.trace).2 = none := by
  constructor
  · intro h
    cases hr : (ran env os w.trace).2 with
    | none => rfl
    | some err =>
      obtain ⟨pre, o, post, h1, h2, h3⟩ := ran_split hr
      have ho := hos o (by rw [h1]; simp)
      obtain ⟨s, ev, rfl⟩ : ∃ s ev, o = .hook s .exception ev := by
        cases o with
        | hook s k ev => cases k <;> simp_all [Obs.excHook]
        | _ => simp [Obs.excHook] at ho
      have := h (w.trace ++ pre) s ev t (by rw [htr, h2]; simp) (by simp)
      rw [h3] at this; cases this
  · intro h pre s ev post hp hl
    rw [ran_none env os w.trace h] at htr
    rw [htr] at hp
    obtain ⟨pre', rfl⟩ : ∃ pre', pre = w.trace ++ pre' := by
      have := List.prefix_of_prefix_length_le (l₁ := w.trace) (l₂ := pre) (l₃ := w.trace ++ (os ++ t)) (by simp) (by rw [hp]; simp) hl
      obtain ⟨p, rfl⟩ := this; exact ⟨p, rfl⟩
    rw [List.append_assoc, List.append_cancel_left_eq] at hp
    rcases List.append_eq_append_iff.1 hp with ⟨c, hc1, hc2⟩ | ⟨c, hc1, hc2⟩
    · -- the call is among the others
      exfalso
      have : Obs.hook s .exception ev ∈ t := by rw [hc2]; simp
      have := ht _ this
      simp [Obs.excHook] at this
    · cases c with
      | nil =>
        exfalso
        have : Obs.hook s .exception ev ∈ t := by simp at hc2; rw [← hc2]; simp
        have := ht _ this
        simp [Obs.excHook] at this
      | cons o c =>
        simp only [List.cons_append, List.cons.injEq] at hc2
        rw [hc2.1]
        exact ran_none_at h hc1

/-- **C03, exactly.**  An exception that leaves an entered block is recorded, with an end event of status `exception` that carries it,
if and only if it can be described and no `on_exception` method that is called raises; otherwise the exit publishes no end event and
leaves the action's status as it was.  All other sinks, note handlers and what they raise make no difference. -/
theorem exception_recorded_exact (hno : env.NeedsExc) (hr : Reachable env w) (hh : w.held a = true) (its : List Item)
    (hent : Item.enter a ∈ its) (e : Exc) :
    ((∃ ev, ev.status = .exception ∧ ev.excInfo = some e ∧ (run env w (its ++ [.exit a (some e)])).statusOf a = some .exception ∧
        pubsOf (run env w (its ++ [.exit a (some e)])).pub .end_ a = pubsOf (run env w its).pub .end_ a ++ [ev]) ↔
      env.excInfoErr (some e) = none ∧
      (∀ x, (run env w its).acts a = some x → ∃ m, env.excText (some e) x.name (!x.data.isEmpty) = .ok m) ∧
      HooksFine env (run env w its) (run env w (its ++ [.exit a (some e)]))) ∧
    ((∃ ev, pubsOf (run env w (its ++ [.exit a (some e)])).pub .end_ a = pubsOf (run env w its).pub .end_ a ++ [ev]) ∨
      pubsOf (run env w (its ++ [.exit a (some e)])).pub .end_ a = pubsOf (run env w its).pub .end_ a ∧
      (run env w (its ++ [.exit a (some e)])).statusOf a = (run env w its).statusOf a) := by
  obtain ⟨x0, hx0, hxh0⟩ := held_iff.1 hh
  obtain ⟨x, hx, hlife⟩ := life_run hno hr hx0 hxh0 its
  have hxh : x.handle = true := (Act.fixed_handle hlife.fixed).trans hxh0
  have hheld : (run env w its).held a = true := held_iff.2 ⟨x, hx, hxh⟩
  have ht : x.isTrans = true := hlife.trans.2 (.inr hent)
  have hrun : run env w (its ++ [.exit a (some e)]) = (exit env (run env w its) a (some e)).1 := by
    rw [run_append, show run env (run env w its) [.exit a (some e)] =
      stepItem env (run env w its) (.exit a (some e)) from rfl]
    simp [stepItem, hheld]
  have hbs := (hr.run its).transOK a x hx ht
  rw [hrun]
  generalize run env w its = W at hx hbs
  obtain ⟨q1, q2⟩ := exit_acts_pub (env := env) hx (some e)
  have q3 : (exit env W a (some e)).1.trace = (exitPublish env W a (some e)).1.trace := by
    simp only [exit, hx]
    cases exitPublish env W a (some e) with
    | mk w1 r => cases r <;> rfl
  have hst : (exit env W a (some e)).1.statusOf a = (exitPublish env W a (some e)).1.statusOf a := by
    simp [World.statusOf, q1]
  have hfine : HooksFine env W (exit env W a (some e)).1 ↔ HooksFine env W (exitPublish env W a (some e)).1 := by
    simp [HooksFine, q3]
  rw [q2, hst, hfine]
  clear q1 q2 q3 hst hfine hrun
  rw [exitPublish_exc hx]
  have hall : (∀ y, W.acts a = some y → ∃ m, env.excText (some e) y.name (!y.data.isEmpty) = .ok m) ↔
      ∃ m, env.excText (some e) x.name (!x.data.isEmpty) = .ok m := by simp [hx]
  rw [hall]
  -- what is left of an exit that fails
  have fails : ∀ (w1 : World) (err : Exc), w1.pub = W.pub → w1.statusOf a = W.statusOf a →
      ∀ r : World × Option Exc, r = (match err.cls with | .ordinary => noteAll env "action_exit" w1 | .baseOnly => (w1, some err)) →
        pubsOf r.1.pub .end_ a = pubsOf W.pub .end_ a ∧ r.1.statusOf a = W.statusOf a ∧ NoExc w1 r.1 := by
    intro w1 err hp hs r hr
    rw [hr]
    split
    · exact ⟨by rw [noteAll_pub, hp], by rw [← hs]; simp [World.statusOf, noteAll_acts], noExc_note _⟩
    · exact ⟨by rw [hp], hs, .refl _⟩
  -- the goal, for the state `r` that the exit leads to
  let G : World → Prop := fun r =>
    ((∃ ev, ev.status = .exception ∧ ev.excInfo = some e ∧ r.statusOf a = some .exception ∧ pubsOf r.pub .end_ a = pubsOf W.pub .end_ a ++ [ev]) ↔
      env.excInfoErr (some e) = none ∧ (∃ m, env.excText (some e) x.name (!x.data.isEmpty) = .ok m) ∧ HooksFine env W r) ∧
    ((∃ ev, pubsOf r.pub .end_ a = pubsOf W.pub .end_ a ++ [ev]) ∨
      pubsOf r.pub .end_ a = pubsOf W.pub .end_ a ∧ r.statusOf a = W.statusOf a)
  have hx' : (W.setAct a { x with defer := false }).acts a = some { x with defer := false } := by simp
  rcases exception_spec (env := env) hx' (some e) none [] [] with
    ⟨err, he, hr⟩ | ⟨he, msg, ev, w1, hs, ⟨err, hp, hr⟩ | ⟨hp, hr⟩⟩
  · rw [hr]
    suffices H : ∀ r : World, pubsOf r.pub .end_ a = pubsOf W.pub .end_ a ∧ r.statusOf a = W.statusOf a ∧
        NoExc (W.setAct a { x with defer := false }).tick r → G r from
      H _ (fails (W.setAct a { x with defer := false }).tick err rfl (by simp [World.statusOf, World.tick, hx, Act.status]) _ rfl)
    rintro r ⟨f1, f2, -⟩
    refine ⟨iff_of_false ?_ ?_, .inr ⟨f1, f2⟩⟩
    · rintro ⟨ev, -, -, -, h⟩
      rw [f1] at h
      simpa using congrArg List.length h
    · rintro ⟨h1, ⟨m, h2⟩, -⟩
      simp [excEarly, h1, falsy, h2] at he
  · rw [hr]
    suffices H : ∀ r : World, pubsOf r.pub .end_ a = pubsOf W.pub .end_ a ∧ r.statusOf a = W.statusOf a ∧
        NoExc (publishExc env w1 x.logger ev).1 r → G r from
      H _ (fails (publishExc env w1 x.logger ev).1 err (by rw [publishExc_pub', hs.pub]; rfl)
        (by simp [World.statusOf, publishExc_acts', hs.acts, hx, Act.status]) _ rfl)
    rintro r ⟨f1, f2, f3⟩
    refine ⟨iff_of_false ?_ ?_, .inr ⟨f1, f2⟩⟩
    · rintro ⟨ev, -, -, -, h⟩
      rw [f1] at h
      simpa using congrArg List.length h
    · rintro ⟨-, -, h⟩
      simp only [publishExc] at hp f3
      cases hl : w1.logs x.logger with
      | none => simp [hl] at hp
      | some L =>
        simp only [hl] at hp f3
        rw [callAll_eq] at hp f3
        obtain ⟨t, ht1, ht2⟩ := f3
        have htr : w1.trace = W.trace := hs.trace
        have := (hooksFine_iff (env := env) (w := W) (os := hookCalls L .exception ev) (t := t)
          (by rw [ht1]; simp [World.logged, htr]) (by simp [hookCalls, Obs.excHook]) ht2).1 h
        rw [htr, this] at hp
        cases hp
  · rw [hr]
    have hx1 : (publishExc env w1 x.logger ev).1.acts a = some { { x with defer := false } with excEvs := x.excEvs ++ [ev] } := by
      rw [publishExc_acts', hs.acts]; simp
    obtain ⟨t, ht1, ht2⟩ := noExc_end (env := env) (w := (publishExc env w1 x.logger ev).1) a .exception msg [] []
      (some ((W.setAct a { x with defer := false }).now env)) (some e)
    rcases end_spec (env := env) hx1 (fun _ => hbs) .exception msg [] [] (some ((W.setAct a { x with defer := false }).now env)) (some e) with
      ⟨b, e', h⟩ | ⟨b, y, h, _⟩
    swap
    · have := h.notTrans; simp [ht] at this
    generalize hE : end_ env (publishExc env w1 x.logger ev).1 a .exception msg [] [] (some ((W.setAct a { x with defer := false }).now env)) (some e) = E
      at h ht1
    have hpub : pubsOf E.1.pub .end_ a = pubsOf W.pub .end_ a ++ [e'] := by
      rw [h.pub, publishExc_pub', hs.pub]
      have hbn : x.beginEv.isNone = false := by
        obtain ⟨b', hb'⟩ := Option.isSome_iff_exists.1 hbs; simp [hb']
      simp only [hbn, if_false, pubsOf_append, pubsOf_single, h.eact, Bool.false_eq_true, List.append_nil]
      simp
    have hstat : E.1.statusOf a = some .exception := by
      simp [World.statusOf, h.acts, Act.status, h.estatus]
    -- what comes after
    have hrest : ∀ F r : World × Option Exc, r = (match F with
        | (w, none) => (w, none)
        | (w, some err) => match err.cls with | .ordinary => noteAll env "action_exit" w | .baseOnly => (w, some err)) →
        pubsOf F.1.pub .end_ a = pubsOf W.pub .end_ a ++ [e'] → F.1.statusOf a = some .exception →
        pubsOf r.1.pub .end_ a = pubsOf W.pub .end_ a ++ [e'] ∧ r.1.statusOf a = some .exception ∧ NoExc F.1 r.1 := by
      intro F r hr hpub hstat
      rw [hr]
      obtain ⟨w2, o⟩ := F
      cases o with
      | none => exact ⟨hpub, hstat, .refl _⟩
      | some err =>
        dsimp only
        split
        · exact ⟨by rw [noteAll_pub]; exact hpub, by rw [← hstat]; simp [World.statusOf, noteAll_acts], noExc_note _⟩
        · exact ⟨hpub, hstat, .refl _⟩
    suffices H : ∀ r : World, pubsOf r.pub .end_ a = pubsOf W.pub .end_ a ++ [e'] ∧ r.statusOf a = some .exception ∧ NoExc E.1 r → G r from
      H _ (hrest E _ rfl hpub hstat)
    rintro r ⟨r1, r2, u, r3, r4⟩
    refine ⟨iff_of_true ⟨e', h.estatus, h.eexc, r2, r1⟩ ⟨?_, ?_, ?_⟩, .inl ⟨e', r1⟩⟩
    · cases hi : env.excInfoErr (some e) with
      | none => rfl
      | some err => simp [excEarly, hi] at he
    · cases hm : env.excText (some e) x.name (!x.data.isEmpty) with
      | ok m => exact ⟨m, rfl⟩
      | error err =>
        cases hi : env.excInfoErr (some e) with
        | none => simp [excEarly, hi, falsy, hm] at he
        | some err => simp [excEarly, hi] at he
    · have htr : w1.trace = W.trace := hs.trace
      have htu : ∀ o ∈ t ++ u, o.excHook = false := fun o ho => (List.mem_append.1 ho).elim (ht2 o) (r4 o)
      simp only [publishExc] at hp ht1
      cases hl : w1.logs x.logger with
      | none =>
        simp only [hl] at ht1
        exact (hooksFine_iff (env := env) (w := W) (os := []) (t := t ++ u)
          (by rw [r3, ht1, htr]; simp [ran]) (by simp) htu).2 rfl
      | some L =>
        simp only [hl] at hp ht1
        rw [callAll_eq] at hp ht1
        rw [htr] at hp ht1
        exact (hooksFine_iff (env := env) (w := W) (os := hookCalls L .exception ev) (t := t ++ u)
          (by rw [r3, ht1]; simp [World.logged, htr]) (by simp [hookCalls, Obs.excHook]) htu).2 hp

end

/-- A sink's `on_exception` that raises: the exit publishes nothing. -/
example : ¬ HooksFine (Sample.badSink 0 .exception)
    (run (Sample.badSink 0 .exception) World.init (Sample.setup ++ [Sample.mk "a", .enter 0]))
    (run (Sample.badSink 0 .exception) World.init (Sample.setup ++ [Sample.mk "a", .enter 0] ++ [.exit 0 (some Sample.boom)])) := by
  intro h
  have := (exception_recorded_exact (env := Sample.badSink 0 .exception)
    (w := run (Sample.badSink 0 .exception) World.init (Sample.setup ++ [Sample.mk "a"])) (a := 0) Sample.quiet_needs ⟨_, rfl⟩
    (by decide) [.enter 0] (by simp) Sample.boom).1.2 ⟨by decide, fun _ _ => ⟨_, rfl⟩, h⟩
  obtain ⟨ev, -, -, h, -⟩ := this
  revert h; decide

end Verif
