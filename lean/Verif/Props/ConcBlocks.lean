import Verif.Props.WithBlock
/-!
# C63: with blocks of several threads on one logger

A history is any interleaving of the calls of any number of threads: the threads' `__enter__` and `__exit__` calls
need not be nested.
-/
namespace Verif
variable {env : Env} {w : World} {l : LogId}

/-- The item enters or leaves a block on an action of logger `l`. -/
def Item.blockOn (w : World) (l : LogId) : Item → Prop
  | .op _ => False
  | .enter a => ∃ x, w.acts a = some x ∧ x.logger = l
  | .exit a _ => ∃ x, w.acts a = some x ∧ x.logger = l

/-- Interleavings in which the blocks on logger `l` are nested, whichever threads they belong to, and each is
entered while the active action is still the one its action was made under.  Everything else is arbitrary: all
other calls, and the blocks on other loggers. -/
inductive Nested (env : Env) (l : LogId) : World → List Item → Prop
  | nil (w : World) : Nested env l w []
  | other (w : World) (it : Item) (its : List Item) : ¬ it.blockOn w l → Nested env l (stepItem env w it) its →
      Nested env l w (it :: its)
  | block (w : World) (a : ActId) (x : Act) (body : List Item) (e : Option Exc) (its : List Item) :
      w.held a = true → w.acts a = some x → x.logger = l → x.parent = w.active l →
      Nested env l (stepItem env w (.enter a)) body →
      Nested env l (run env w (.enter a :: body ++ [.exit a e])) its →
      Nested env l w (.enter a :: body ++ .exit a e :: its)

/-- A block on another logger, or another call, does not touch the active action of `l`. -/
theorem stepItem_active_other (it : Item) (h : ¬ it.blockOn w l) :
    (stepItem env w it).active l = w.active l := by
  cases it with
  | op o => simp only [stepItem]; rw [step_active]
  | enter a =>
    simp only [stepItem, guard]
    split
    · rename_i hh
      obtain ⟨x, hx, _⟩ := held_iff.1 hh
      have hl : x.logger ≠ l := fun hl => h ⟨x, hx, hl⟩
      simp only [ret, enter, hx]
      rw [(keep_begin (env := env) ..).active]
      simp [World.setActive, Ne.symm hl]
    · rfl
  | exit a e =>
    simp only [stepItem]
    split
    · rename_i hh
      obtain ⟨x, hx, _⟩ := held_iff.1 hh
      have hl : x.logger ≠ l := fun hl => h ⟨x, hx, hl⟩
      simp only [exit, hx]
      have hk := keep_exitPublish (env := env) (w := w) a e
      split
      · rename_i hq; rw [hq] at hk; exact congrFun hk.active l
      · rename_i hq; rw [hq] at hk
        simp only [World.setActive]
        rw [if_neg (Ne.symm hl)]
        exact congrFun hk.active l
    · rfl

theorem stepItem_enter_active {a : ActId} {x : Act} (hh : w.held a = true) (hx : w.acts a = some x) :
    (stepItem env w (.enter a)).active x.logger = some a := by
  simp only [stepItem, guard_held hh, enter, hx]
  rw [(keep_begin (env := env) ..).active]
  simp [World.setActive]

theorem stepItem_exit_active (hc : env.Calm) {a : ActId} {x : Act} (hh : w.held a = true)
    (hx : w.acts a = some x) (e : Option Exc) : (stepItem env w (.exit a e)).active x.logger = x.parent := by
  simp only [stepItem, hh, if_true, exit, hx]
  have hpn : (exitPublish env w a e).2 = none := exitPublish_calm hc hx _
  cases hq : exitPublish env w a e with
  | mk w1 r =>
    rw [hq] at hpn; dsimp only at hpn; subst hpn
    simp [World.setActive]

/-- No item of the history enters or leaves a block on logger `l`. -/
def NoBlocks (env : Env) (l : LogId) : World → List Item → Prop
  | _, [] => True
  | w, it :: its => ¬ it.blockOn w l ∧ NoBlocks env l (stepItem env w it) its

/-- **C63, what does hold (1).**  Loggers are independent: however many threads enter and leave blocks on actions
of other loggers, in whatever order, and whether or not sinks raise, the active action of `l` stays. -/
theorem concurrent_blocks_other (its : List Item) (h : NoBlocks env l w its) :
    (run env w its).active l = w.active l := by
  induction its generalizing w with
  | nil => rfl
  | cons it its ih => rw [run_cons, ih h.2, stepItem_active_other it h.1]

/-- **C63, what does hold (2).**  If the blocks on a logger are nested, though they may belong to different threads,
and each is entered while the action it was made under is the active one, then once they are all left the active
action is the one it was before: none if there was none.  Sinks do not raise.  Missing: blocks that overlap. -/
theorem concurrent_blocks_partial (hc : env.Calm) (hr : Reachable env w) {its : List Item}
    (h : Nested env l w its) : (run env w its).active l = w.active l := by
  induction h with
  | nil w => rfl
  | other w it its hn _ ih => rw [run_cons, ih (hr.item _), stepItem_active_other it hn]
  | block w a x body e its hh hx hl hp _ _ ihb ihk =>
    have hr1 : Reachable env (run env w (.enter a :: body)) := hr.run _
    obtain ⟨y, hy, hf⟩ := hr.good.fixed_run (.enter a :: body) hx
    simp only [Act.fixed, Prod.mk.injEq] at hf
    have hbh : (run env w (.enter a :: body)).held a = true := by
      obtain ⟨x', hx', hh'⟩ := held_iff.1 hh
      rw [hx] at hx'; cases hx'
      exact held_iff.2 ⟨y, hy, hf.2.2.2.2.2.trans hh'⟩
    have h1 : run env w (.enter a :: body ++ [.exit a e]) =
        stepItem env (run env w (.enter a :: body)) (.exit a e) := by
      rw [run_append, run_cons env _ (.exit a e)]; rfl
    have h2 : run env w (.enter a :: body ++ .exit a e :: its) =
        run env (run env w (.enter a :: body ++ [.exit a e])) its := by
      rw [← run_append]; simp
    have h3 := stepItem_exit_active hc hbh hy e
    rw [hf.1, hl, hf.2.2.2.2.1, hp] at h3
    rw [h2, ihk (hr.run _), h1, h3]

/-- **C63, what does hold (3).**  In every interleaving the last block left decides: the active action is then the
one the block's action was made under.  So if the actions of all blocks on a logger were made under the same
action, or under none, that one is active again as soon as the last block is left, overlapping or not. -/
theorem concurrent_last_exit_partial (hc : env.Calm) (hr : Reachable env w) (before after : List Item) (a : ActId)
    (x : Act) (e : Option Exc) (hh : w.held a = true) (hx : w.acts a = some x) (hl : x.logger = l)
    (hn : NoBlocks env l (run env w (before ++ [.exit a e])) after) :
    (run env w (before ++ .exit a e :: after)).active l = x.parent := by
  obtain ⟨y, hy, hf⟩ := hr.good.fixed_run before hx
  simp only [Act.fixed, Prod.mk.injEq] at hf
  have hbh : (run env w before).held a = true := by
    obtain ⟨x', hx', hh'⟩ := held_iff.1 hh
    rw [hx] at hx'; cases hx'
    exact held_iff.2 ⟨y, hy, hf.2.2.2.2.2.trans hh'⟩
  have h1 : run env w (before ++ [.exit a e]) = stepItem env (run env w before) (.exit a e) := by
    rw [run_append, run_cons env _ (.exit a e)]; rfl
  have h2 : run env w (before ++ .exit a e :: after) = run env (run env w (before ++ [.exit a e])) after := by
    rw [← run_append]; simp
  have h3 := stepItem_exit_active hc hbh hy e
  rw [hf.1, hl, hf.2.2.2.2.1] at h3
  rw [h2, concurrent_blocks_other after hn, h1, h3]

namespace Sample

/-- Thread 1 makes action 1 and enters its block; thread 2 makes action 2, now a child of 1, and enters; thread 1
leaves, then thread 2. -/
def overlap : List Item :=
  setup ++ [mk "one", .enter 0, mk "two", .enter 2, .exit 0 none, .exit 2 none]

/-- Logger 0 with action 0, made by thread 1. -/
def started : World := run quiet World.init (setup ++ [mk "one"])

/-- The hypotheses of `concurrent_blocks_partial` are met: thread 1 is in its block while thread 2 goes through a
whole one. -/
example : (run quiet started ([.enter 0] ++ [mk "two", .enter 2, .exit 2 (some boom)] ++ [.exit 0 none])).active 0 =
    started.active 0 := by
  refine concurrent_blocks_partial quiet_calm ⟨_, rfl⟩ ?_
  refine Nested.block started 0 ((started.acts 0).get (by decide +kernel)) [mk "two", .enter 2, .exit 2 (some boom)]
    none [] (by decide +kernel) (by simp) (by decide +kernel) (by decide +kernel) ?_ (Nested.nil _)
  refine Nested.other _ _ _ (by simp [mk, Item.blockOn]) ?_
  exact Nested.block _ 2 (((run quiet started [.enter 0, mk "two"]).acts 2).get (by decide +kernel)) [] (some boom) []
    (by decide +kernel) (by simp [run]) (by decide +kernel) (by decide +kernel) (Nested.nil _) (Nested.nil _)

/-- Logger 0 with actions 0 and 1, both made outside all blocks. -/
def both : World := run quiet World.init (setup ++ [mk "one", mk "two"])

/-- Those of `concurrent_last_exit_partial` are met by blocks that overlap. -/
example : (run quiet both ([.enter 0, .enter 1, .exit 0 none] ++ .exit 1 none :: [])).active 0 =
    ((both.acts 1).get (by decide +kernel)).parent :=
  concurrent_last_exit_partial quiet_calm ⟨_, rfl⟩ [.enter 0, .enter 1, .exit 0 none] [] 1 _ none
    (by decide +kernel) (by simp [both]) (by decide +kernel) trivial
example : ((both.acts 1).get (by decide +kernel)).parent = none := by decide +kernel

end Sample

/-- **C63 is violated**: two threads, each in one with block on the same logger, no failures.  All blocks have been
left, both actions have ended successfully, and the first is the logger's active action, and the parent of
every action made from then on. -/
theorem concurrent_blocks_violated :
    let w := run Sample.quiet World.init Sample.overlap
    w.statusOf 0 = some .success ∧ w.statusOf 2 = some .success ∧ w.active 0 = some 0 ∧
    ((stepItem Sample.quiet w (Sample.mk "later")).acts w.nextId).map (·.parent) = some (some 0) := by
  decide +kernel

end Verif
