import Verif.Model.DevDebug
import Verif.Props.WithBlock
/-!
# C98: the debug sink
-/
namespace Verif

/-- An environment in which the sinks of `devs` are debug sinks `d` and nothing else raises. -/
structure Env.WithDev (env : Env) (devs : SinkId → Bool) (d : DevDebug) : Prop where
  hooks : ∀ s k, devs s = true → env.hasHook s k = decide (k = .exception)
  dev : ∀ t s e, devs s = true → env.raises t (.hook s .exception e) = d.onException e
  sinks : ∀ t s k e, devs s = false ∨ k ≠ .exception → env.raises t (.hook s k e) = none
  notes : env.NotesQuiet
  preflush : ∀ t l h, env.raises t (.preflush l h) = none
  info : ∀ e, env.excInfoErr (some e) = none
  noInfo : env.NeedsExc
  text : ∀ c n b, ∃ s, env.excText c n b = .ok s

namespace DevDebug
variable {env : Env} {devs : SinkId → Bool} {d : DevDebug} {w : World} {a : ActId}

theorem publish_none (hd : env.WithDev devs d) (w : World) (l : LogId) {k : Kind} (hk : k ≠ .exception) (ev : Event) :
    (publish env w l k ev).2 = none := by
  simp only [publish]
  split
  · rfl
  · split
    · rfl
    · rename_i L _ _
      cases h : (callAll env (hookCalls L k ev) { w with pub := w.pub ++ [(k, ev)] }).2 with
      | none => rfl
      | some x =>
        rw [callAll_eq] at h
        obtain ⟨pre, o, post, e1, _, h1⟩ := ran_split h
        have ho : o ∈ hookCalls L k ev := by rw [e1]; simp
        simp only [hookCalls, List.mem_map] at ho
        obtain ⟨s, _, rfl⟩ := ho
        rw [hd.sinks _ _ _ _ (Or.inr hk)] at h1
        exact absurd h1 (by simp)

theorem begin_none (hd : env.WithDev devs d) (w : World) (a : ActId) (m : Option String) (f : List Val) (kw : Dict) :
    (begin_ env w a m f kw).2 = none := by
  simp only [begin_]
  split
  · rfl
  · split
    · rfl
    · exact publish_none hd _ _ (by decide) _

theorem endWith_none (hd : env.WithDev devs d) (w : World) (a : ActId) (st : Status) (m : String) (f : List Val) (t : Int)
    (e : Option Exc) : (endWith env w a st m f t e).2 = none := by
  simp only [endWith]
  split
  · rfl
  · split
    · rfl
    · exact publish_none hd _ _ (by decide) _

theorem end_none (hd : env.WithDev devs d) (w : World) (a : ActId) (st : Status) (m : String) (f : List Val) (kw : Dict)
    (t : Option Int) (e : Option Exc) : (end_ env w a st m f kw t e).2 = none := by
  simp only [end_]
  split
  · rfl
  · split
    · split
      · split <;> exact endWith_none hd ..
      · exact endWith_none hd ..
    · rename_i x _ _
      have := begin_none hd (w.setAct a { x with data := x.data.update kw }) a none [] []
      cases hb : begin_ env (w.setAct a { x with data := x.data.update kw }) a none [] [] with
      | mk w1 r =>
        rw [hb] at this
        dsimp only at this
        subst this
        simp only [andThen]
        split
        · rfl
        · exact endWith_none hd ..

theorem publishExc_none (hd : env.WithDev devs d) (w : World) (l : LogId) (ev : Event) :
    (publishExc env w l ev).2 = none ∨ ∃ x, (publishExc env w l ev).2 = some x ∧ ev.excInfo = some x ∧ d.reraise x = true := by
  simp only [publishExc]
  split
  · exact Or.inl rfl
  · rename_i L _
    cases h : (callAll env (hookCalls L .exception ev) w).2 with
    | none => exact Or.inl rfl
    | some x =>
      rw [callAll_eq] at h
      obtain ⟨pre, o, post, e1, _, h1⟩ := ran_split h
      have ho : o ∈ hookCalls L .exception ev := by rw [e1]; simp
      simp only [hookCalls, List.mem_map] at ho
      obtain ⟨s, _, rfl⟩ := ho
      refine Or.inr ⟨x, rfl, ?_⟩
      by_cases hs : devs s = true
      · rw [hd.dev _ _ _ hs] at h1
        unfold onException at h1
        split at h1
        · split at h1
          · simp_all
          · simp at h1
        · simp at h1
      · rw [hd.sinks _ _ _ _ (Or.inl (by simpa using hs))] at h1
        exact absurd h1 (by simp)

theorem exception_none (hd : env.WithDev devs d) (w : World) (a : ActId) (e : Exc) :
    (exception_ env w a (some e) none [] []).2 = none ∨
    (exception_ env w a (some e) none [] []).2 = some e ∧ d.reraise e = true := by
  simp only [exception_]
  split
  · exact Or.inl rfl
  · rename_i x _
    rw [hd.info]
    obtain ⟨s, hs⟩ := hd.text (some e) x.name (!x.data.isEmpty)
    simp only [falsy, if_true, hs]
    have := publishExc_none hd (World.setAct (World.bump w.tick) a
      { x with excEvs := x.excEvs ++ [mkEvent w.tick a x.logger .exception .exception (w.now env) s [] (some e)] }) x.logger
      (mkEvent w.tick a x.logger .exception .exception (w.now env) s [] (some e))
    generalize publishExc env _ x.logger _ = r at *
    obtain ⟨w1, r⟩ := r
    dsimp only at this
    rcases this with rfl | ⟨y, rfl, h1, h2⟩
    · simp only [andThen]
      exact Or.inl (end_none hd ..)
    · simp only [mkEvent, Option.some.injEq] at h1
      subst h1
      exact Or.inr ⟨rfl, h2⟩

/-- What leaving a block by an exception raises by itself. -/
theorem exitPublish_none (hd : env.WithDev devs d) (w : World) (a : ActId) (e : Exc) :
    (exitPublish env w a (some e)).2 = none ∨ (exitPublish env w a (some e)).2 = some e ∧ e.cls = .baseOnly ∧
      d.reraise e = true := by
  cases hx : w.acts a with
  | none => simp [exitPublish, hx]
  | some x =>
    rw [exitPublish_exc hx]
    have := exception_none hd (w.setAct a { x with defer := false }) a e
    generalize exception_ env (w.setAct a { x with defer := false }) a (some e) none [] [] = r at *
    obtain ⟨w1, r⟩ := r
    dsimp only at this
    rcases this with rfl | ⟨rfl, h⟩
    · exact Or.inl rfl
    · dsimp only
      split
      · rw [noteAll_notesQuiet hd.notes]; exact Or.inl rfl
      · rename_i hc
        exact Or.inr ⟨rfl, hc, h⟩

end DevDebug

section
variable {env : Env} {devs : SinkId → Bool} {d : DevDebug} {w : World} {a : ActId}

theorem enter_dev (hd : env.WithDev devs d) : (enter env w a).2 = none := by
  simp only [enter]; split
  · rfl
  · exact DevDebug.begin_none hd ..

/-- **C98.**  Debug sinks never change what leaves a block: a with statement whose body raises `e` raises that `e`, or ends
normally if the action was made with `reraise=False`, which it does whenever `e` is an `Exception`. -/
theorem C98_exception (hd : env.WithDev devs d) (hr : Reachable env w) (hh : w.held a = true) (body : World → Prog)
    {e : Exc} (hb : (exec env (body (enter env w a).1) (enter env w a).1).2 = some e) :
    ((exec env (withStmt a body) w).2 = some e ∨
      (exec env (withStmt a body) w).2 = none ∧ (w.acts a).map (·.reraise) = some (.bool false)) ∧
    (e.cls = .ordinary → (exec env (withStmt a body) w).2 =
      if (w.acts a).map (·.reraise) = some (.bool false) then none else some e) := by
  obtain ⟨x, hx, _⟩ := held_iff.1 hh
  have hent := enter_dev (w := w) (a := a) hd
  have he : stepItem env w (.enter a) = (enter env w a).1 := by simp [stepItem, guard, hh, ret]
  have hrun : run env w (.enter a :: items env (body (enter env w a).1) (enter env w a).1) =
      (exec env (body (enter env w a).1) (enter env w a).1).1 := by
    rw [run_cons, he, run_items]
    rw [← he]; exact (hr.item _).good
  obtain ⟨y, hy, hf⟩ := hr.good.fixed_run
    (.enter a :: items env (body (enter env w a).1) (enter env w a).1) hx
  rw [hrun] at hy
  have hre : y.reraise = x.reraise := by simp only [Act.fixed, Prod.mk.injEq] at hf; exact hf.2.2.2.1
  have hp := DevDebug.exitPublish_none hd (exec env (body (enter env w a).1) (enter env w a).1).1 a e
  simp only [withStmt, exec, hh, if_true, hent, hb, exit, hy, hx, Option.map_some, Option.some.injEq]
  cases hq : exitPublish env (exec env (body (enter env w a).1) (enter env w a).1).1 a (some e) with
  | mk w1 r =>
    rw [hq] at hp; dsimp only at hp
    rcases hp with rfl | ⟨rfl, h1, h2⟩
    · simp only [withOutcome, hre]
      by_cases hrr : x.reraise = .bool false <;> simp [hrr, exec]
    · simp [withOutcome, exec, h1]

/-- C98: a with statement whose body ends normally is not disturbed by debug sinks. -/
theorem C98_normal (hd : env.WithDev devs d) (hh : w.held a = true) (body : World → Prog)
    (hb : (exec env (body (enter env w a).1) (enter env w a).1).2 = none) :
    (exec env (withStmt a body) w).2 = none := by
  have hent := enter_dev (w := w) (a := a) hd
  have hp : (exitPublish env (exec env (body (enter env w a).1) (enter env w a).1).1 a none).2 = none := by
    simp only [exitPublish]
    split
    · rfl
    · split
      · exact DevDebug.publish_none hd _ _ (by decide) _
      · simp only [success]
        split
        · rfl
        · exact DevDebug.end_none hd ..
  simp only [withStmt, exec, hh, if_true, hent, hb, exit]
  cases hx : (exec env (body (enter env w a).1) (enter env w a).1).1.acts a with
  | none => simp [withOutcome, exec]
  | some x =>
    cases hq : exitPublish env (exec env (body (enter env w a).1) (enter env w a).1).1 a none with
    | mk w1 r =>
      rw [hq] at hp; dsimp only at hp; subst hp
      simp [withOutcome, exec]

/-- The full claim: the end of the block is recorded as usual, debug sinks or not. -/
def C98_full (env : Env) (d : DevDebug) : Prop :=
  ∀ (w : World) (a : ActId) (e : Exc), Reachable env w → w.held a = true → d.reraise e = true →
    (run env w [.enter a, .exit a (some e)]).statusOf a = some .exception

theorem ran_first {s : SinkId} {ev : Event} {x : Exc} (hd : env.WithDev devs d) (hs : devs s = true)
    (hx : d.onException ev = some x) : ∀ (ss : List SinkId) (t : List Obs), s ∈ ss →
    (ran env (ss.map fun s => Obs.hook s .exception ev) t).2 ≠ none := by
  intro ss
  induction ss with
  | nil => intro t h; simp at h
  | cons s' ss ih =>
    intro t h
    simp only [List.map_cons, ran]
    cases hc : env.raises t (.hook s' .exception ev) with
    | some y => simp
    | none =>
      simp only
      refine ih _ ?_
      rcases List.mem_cons.1 h with rfl | h
      · rw [hd.dev _ _ _ hs, hx] at hc; simp at hc
      · exact h

/-- C98 fails: whenever a registered debug sink raises an exception again, the action does not end, and no end event is
published. -/
theorem C98_lost (hd : env.WithDev devs d) {x : Act} (hx : w.acts a = some x) {L : Log} (hL : w.logs x.logger = some L)
    {s : SinkId} (hs : devs s = true) (hreg : s ∈ L.hooks .exception) {e : Exc} (he : d.reraise e = true) :
    (exit env w a (some e)).1.pub = w.pub ∧ (exit env w a (some e)).1.statusOf a = w.statusOf a := by
  obtain ⟨q1, q2⟩ := exit_acts_pub (env := env) hx (some e)
  have key : (exitPublish env w a (some e)).1.pub = w.pub ∧
      ∃ z, (exitPublish env w a (some e)).1.acts a = some z ∧ z.endEv = x.endEv := by
    rw [exitPublish_exc hx]
    have h1 : ∃ w1 err z, exception_ env (w.setAct a { x with defer := false }) a (some e) none [] [] = (w1, some err) ∧
        w1.pub = w.pub ∧ w1.acts a = some z ∧ z.endEv = x.endEv := by
      obtain ⟨m, hm⟩ := hd.text (some e) x.name (!x.data.isEmpty)
      have hset : (w.setAct a { x with defer := false }).acts a = some { x with defer := false } := by simp
      simp only [exception_, hset, hd.info, falsy, if_true, hm, publishExc]
      rw [show (World.setAct (World.bump (w.setAct a { x with defer := false }).tick) a _).logs x.logger = some L from hL]
      simp only [callAll_eq, hookCalls]
      have := ran_first (ev := mkEvent (w.setAct a { x with defer := false }).tick a x.logger .exception .exception
        ((w.setAct a { x with defer := false }).now env) m [] (some e)) (x := e) hd hs
        (by simp [DevDebug.onException, mkEvent, he]) (L.hooks .exception) w.trace hreg
      obtain ⟨err, herr⟩ := Option.ne_none_iff_exists'.1 this
      rw [show (World.setAct (World.bump (w.setAct a { x with defer := false }).tick) a _).trace = w.trace from rfl, herr]
      simp only [andThen]
      exact ⟨_, err, _, rfl, rfl, if_pos rfl, rfl⟩
    obtain ⟨w1, err, z, h1, h2, h3, h4⟩ := h1
    rw [h1]
    dsimp only
    split
    · rw [noteAll_pub, noteAll_acts]; exact ⟨h2, z, h3, h4⟩
    · exact ⟨h2, z, h3, h4⟩
  obtain ⟨k1, z, k2, k3⟩ := key
  refine ⟨by rw [q2, k1], ?_⟩
  simp [World.statusOf, q1, k2, hx, Act.status, k3]

/-- An environment with one debug sink, number 1; sink 0 has every hook. -/
def devEnv (d : DevDebug) : Env :=
  { Sample.quiet with
    hasHook := fun s k => s ≠ 1 || k = .exception
    raises := fun _ o =>
      match o with
      | .hook 1 .exception e => d.onException e
      | _ => none }

theorem devEnv_withDev (d : DevDebug) : (devEnv d).WithDev (fun s => s = 1) d where
  hooks s k h := by
    have : s = 1 := by simpa using h
    subst this; simp [devEnv]
  dev t s e h := by
    have : s = 1 := by simpa using h
    subst this; rfl
  sinks t s k e h := by
    simp only [devEnv]
    split
    · rename_i heq
      simp only [Obs.hook.injEq] at heq
      obtain ⟨rfl, rfl, rfl⟩ := heq
      simp at h
    · rfl
  notes t h n := rfl
  preflush t l h := rfl
  info e := rfl
  noInfo := Sample.quiet_needs
  text c n b := ⟨_, rfl⟩

theorem C98_violated : ¬C98_full (devEnv .all) .all := by
  intro h
  have := h (run (devEnv .all) World.init (Sample.setup ++ [Sample.mk "a"])) 0 Sample.boom ⟨_, rfl⟩ (by decide) (by decide)
  exact absurd this (by decide)

/-- C98: a debug sink that raises nothing leaves everything as it is: the exception is recorded. -/
theorem C98_off_partial (hd : env.WithDev devs .off) (hr : Reachable env w) (hh : w.held a = true) (its : List Item)
    (hent : Item.enter a ∈ its) (e : Exc) : (run env w (its ++ [.exit a (some e)])).statusOf a = some .exception := by
  refine (exception_recorded_partial (fun t s ev => ?_) hd.info hd.text hd.noInfo hr hh its hent e).1
  by_cases h : devs s = true
  · rw [hd.dev _ _ _ h]; simp only [DevDebug.onException, DevDebug.off]; split <;> rfl
  · exact hd.sinks _ _ _ _ (Or.inl (by simpa using h))

example : (exec (devEnv .all) (withStmt 0 fun _ => .raise Sample.boom)
    (run (devEnv .all) World.init (Sample.setup ++ [Sample.mk "a"]))).2 = some Sample.boom := by
  have := (C98_exception (devEnv_withDev .all) (w := run (devEnv .all) World.init (Sample.setup ++ [Sample.mk "a"]))
    (a := 0) ⟨_, rfl⟩ (by decide) (fun _ => .raise Sample.boom) (e := Sample.boom) rfl).2 rfl
  rw [this]; decide

end
end Verif
