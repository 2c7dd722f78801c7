import Verif.Props.DevDebug
import Verif.Props.ExcExact
/-!
# C98: when exactly a debug sink keeps the end of a block from being recorded
-/
namespace Verif
open scoped List
attribute [local irreducible] QUEUE_LIMIT

section
variable {env : Env} {devs : SinkId → Bool} {d : DevDebug} {w : World} {a : ActId}

/-- The `on_exception` methods called when an exception leaves a block are those of the sinks registered, about this exception. -/
theorem exit_exc_hooks {x : Act} (hx : w.acts a = some x) (e : Exc) :
    ∃ t, (exitPublish env w a (some e)).1.trace = w.trace ++ t ∧ ∀ s ev, Obs.hook s .exception ev ∈ t →
      ev.excInfo = some e ∧ ∃ L, w.logs x.logger = some L ∧ s ∈ L.hooks .exception := by
  rw [exitPublish_exc hx]
  have hx' : (w.setAct a { x with defer := false }).acts a = some { x with defer := false } := by simp
  let G : World → Prop := fun r => ∃ t, r.trace = w.trace ++ t ∧ ∀ s ev, Obs.hook s .exception ev ∈ t →
      ev.excInfo = some e ∧ ∃ L, w.logs x.logger = some L ∧ s ∈ L.hooks .exception
  have later : ∀ {w1 w2 : World}, G w1 → NoExc w1 w2 → G w2 := by
    rintro w1 w2 ⟨t, h1, h2⟩ ⟨u, g1, g2⟩
    refine ⟨t ++ u, by rw [g1, h1, List.append_assoc], fun s ev h => ?_⟩
    rcases List.mem_append.1 h with h | h
    · exact h2 s ev h
    · have := g2 _ h; simp [Obs.excHook] at this
  have rest : ∀ F : World × Option Exc, G F.1 → ∀ r : World × Option Exc, r = (match F with
        | (w, none) => (w, none)
        | (w, some err) => match err.cls with | .ordinary => noteAll env "action_exit" w | .baseOnly => (w, some err)) → G r.1 := by
    rintro ⟨w1, o⟩ hG r rfl
    cases o with
    | none => exact hG
    | some err =>
      dsimp only
      split
      · exact later hG (noExc_note _)
      · exact hG
  refine rest _ ?_ _ rfl
  have pubd : ∀ (w1 : World) (ev : Event), w1.trace = w.trace → w1.logs = w.logs → ev.excInfo = some e →
      G (publishExc env w1 x.logger ev).1 := by
    intro w1 ev h1 h2 h3
    simp only [publishExc]
    split
    · exact ⟨[], by simp [h1], by simp⟩
    · rename_i L hL
      rw [callAll_eq]
      refine ⟨_, by simp only [World.logged]; rw [h1], fun s ev' h => ?_⟩
      have := (ran_prefix env (hookCalls L .exception ev) w1.trace).subset (by rw [h1]; exact h)
      obtain ⟨s', hs', heq⟩ := List.mem_map.1 this
      simp only [Obs.hook.injEq] at heq
      obtain ⟨rfl, -, rfl⟩ := heq
      exact ⟨h3, L, by rw [← h2]; exact hL, hs'⟩
  rcases exception_spec (env := env) hx' (some e) none [] [] with
    ⟨err, he, hr⟩ | ⟨he, msg, ev, w1, hs, ⟨err, hp, hr⟩ | ⟨hp, hr⟩⟩
  · rw [hr]; exact ⟨[], by simp [World.tick], by simp⟩
  · rw [hr]; exact pubd w1 ev hs.trace hs.logs hs.exc
  · rw [hr]; exact later (pubd w1 ev hs.trace hs.logs hs.exc) (noExc_end ..)

/-- **C98, exactly.**  With debug sinks registered, an exception that leaves an entered block is recorded as the action's end if and
only if no debug sink that is registered when the block is left selects it for raising again; otherwise nothing is published and the
status stays what it was. -/
theorem C98_exact (hd : env.WithDev devs d) (hr : Reachable env w) (hh : w.held a = true) (its : List Item)
    (hent : Item.enter a ∈ its) (e : Exc) :
    ((∃ ev, ev.status = .exception ∧ ev.excInfo = some e ∧ (run env w (its ++ [.exit a (some e)])).statusOf a = some .exception ∧
        pubsOf (run env w (its ++ [.exit a (some e)])).pub .end_ a = pubsOf (run env w its).pub .end_ a ++ [ev]) ↔
      ¬ (d.reraise e = true ∧ ∃ x L s, (run env w its).acts a = some x ∧ (run env w its).logs x.logger = some L ∧
        s ∈ L.hooks .exception ∧ devs s = true)) ∧
    ((d.reraise e = true ∧ ∃ x L s, (run env w its).acts a = some x ∧ (run env w its).logs x.logger = some L ∧
        s ∈ L.hooks .exception ∧ devs s = true) →
      (run env w (its ++ [.exit a (some e)])).pub = (run env w its).pub ∧
      (run env w (its ++ [.exit a (some e)])).statusOf a = (run env w its).statusOf a) := by
  obtain ⟨x0, hx0, hxh0⟩ := held_iff.1 hh
  obtain ⟨x, hx, hlife⟩ := life_run hd.noInfo hr hx0 hxh0 its
  have hxh : x.handle = true := (Act.fixed_handle hlife.fixed).trans hxh0
  have hheld : (run env w its).held a = true := held_iff.2 ⟨x, hx, hxh⟩
  have hrun : run env w (its ++ [.exit a (some e)]) = (exit env (run env w its) a (some e)).1 := by
    rw [run_append, show run env (run env w its) [.exit a (some e)] =
      stepItem env (run env w its) (.exit a (some e)) from rfl]
    simp [stepItem, hheld]
  have lost : (d.reraise e = true ∧ ∃ x L s, (run env w its).acts a = some x ∧ (run env w its).logs x.logger = some L ∧
        s ∈ L.hooks .exception ∧ devs s = true) →
      (run env w (its ++ [.exit a (some e)])).pub = (run env w its).pub ∧
      (run env w (its ++ [.exit a (some e)])).statusOf a = (run env w its).statusOf a := by
    rintro ⟨h1, y, L, s, hy, hL, hs, hds⟩
    rw [hrun]
    exact C98_lost hd hy hL hds hs h1
  refine ⟨⟨?_, fun hn => ?_⟩, lost⟩
  · rintro ⟨ev, -, -, -, h⟩ hl
    rw [(lost hl).1] at h
    simpa using congrArg List.length h
  · refine (exception_recorded_exact hd.noInfo hr hh its hent e).1.2 ⟨hd.info e, fun y _ => hd.text .., ?_⟩
    intro pre s ev post htr hlen
    by_cases hds : devs s = true
    · rw [hd.dev _ _ _ hds]
      have htr2 : (run env w (its ++ [.exit a (some e)])).trace = (exitPublish env (run env w its) a (some e)).1.trace := by
        rw [hrun]
        simp only [exit, hx]
        cases exitPublish env (run env w its) a (some e) with
        | mk w1 r => cases r <;> rfl
      obtain ⟨t, ht, hk⟩ := exit_exc_hooks (env := env) hx e
      rw [htr2, ht] at htr
      have hm : Obs.hook s .exception ev ∈ t := by
        obtain ⟨p, rfl⟩ : (run env w its).trace <+: pre :=
          List.prefix_of_prefix_length_le (List.prefix_append _ t) (by rw [htr]; exact List.prefix_append _ _) hlen
        rw [List.append_assoc, List.append_cancel_left_eq] at htr
        rw [htr]; simp
      obtain ⟨h1, L, hL, hs⟩ := hk s ev hm
      simp only [DevDebug.onException, h1]
      split
      · rename_i hre
        exact absurd ⟨hre, x, L, s, hx, hL, hs, hds⟩ hn
      · rfl
    · exact hd.sinks _ _ _ _ (Or.inl (by simpa using hds))

/-- C98, `DevDebugSink(reraise=True)`: what is no `Exception` (SystemExit, KeyboardInterrupt) is recorded as the end of an
entered block all the same; an `Exception` is recorded exactly if no such sink is registered when the block is left. -/
theorem C98_reraise_true (hd : env.WithDev devs .all) (hr : Reachable env w) (hh : w.held a = true) (its : List Item)
    (hent : Item.enter a ∈ its) (e : Exc) :
    (∃ ev, ev.status = .exception ∧ ev.excInfo = some e ∧ (run env w (its ++ [.exit a (some e)])).statusOf a = some .exception ∧
        pubsOf (run env w (its ++ [.exit a (some e)])).pub .end_ a = pubsOf (run env w its).pub .end_ a ++ [ev]) ↔
      (e.cls = .baseOnly ∨ ∀ x L s, (run env w its).acts a = some x → (run env w its).logs x.logger = some L →
        s ∈ L.hooks .exception → devs s = false) := by
  rw [(C98_exact hd hr hh its hent e).1]
  have hall : DevDebug.all.reraise e = true ↔ e.cls = .ordinary := by simp [DevDebug.all]
  rw [hall]
  constructor
  · intro h
    cases hc : e.cls with
    | baseOnly => exact Or.inl rfl
    | ordinary =>
      refine Or.inr fun x L s h1 h2 h3 => ?_
      cases h4 : devs s with
      | false => rfl
      | true => exact absurd ⟨hc, x, L, s, h1, h2, h3, h4⟩ h
  · rintro h ⟨hc, x, L, s, h1, h2, h3, h4⟩
    rcases h with h | h
    · rw [hc] at h; cases h
    · rw [h x L s h1 h2 h3] at h4; cases h4

end

/-- A debug sink that raises everything again, and one that raises nothing. -/
example : (run (devEnv .all) World.init (Sample.setup ++ [Sample.mk "a", .enter 0, .exit 0 (some Sample.boom)])).statusOf 0 =
      (run (devEnv .all) World.init (Sample.setup ++ [Sample.mk "a", .enter 0])).statusOf 0 ∧
    (run (devEnv .off) World.init (Sample.setup ++ [Sample.mk "a", .enter 0, .exit 0 (some Sample.boom)])).statusOf 0 =
      some .exception := by decide

/-- A keyboard interrupt in a block of a logger with such a sink. -/
example : ∃ ev : Event, ev.status = .exception ∧ ev.excInfo = some ⟨.baseOnly, 9⟩ := by
  obtain ⟨ev, h1, h2, _⟩ := (C98_reraise_true (devEnv_withDev .all) (w := run (devEnv .all) World.init (Sample.setup ++ [Sample.mk "a"]))
    (a := 0) ⟨_, rfl⟩ (by decide) [.enter 0] (by simp) ⟨.baseOnly, 9⟩).2 (Or.inl rfl)
  exact ⟨ev, h1, h2⟩

end Verif
