import Verif.Props.ConcBlocks
import Verif.Props.Parents
/-!
# The model of hooks for the active action is the world model (C108)

With the default hooks, and whatever else happens in between, parents and active actions of `Model/Parents.lean` are those of the
world model.  The world model has no threads: its histories are interleavings already, so everything is done by thread 0 here,
which for the default hooks makes no difference.
-/
namespace Verif
variable {env : Env} {w : World}

/-- Only `logger.info(...)` and the like give the application a new action. -/
theorem hidden_item {env : Env} (w : World) (hid : w.acts w.nextId = none) (it : Item) :
    ∀ b y, (stepItem env w it).acts b = some y → w.acts b = none → (∃ l lv nm kw, it = .op (.newAction l lv nm kw)) ∨ y.handle = false := by
  have same : ∀ w', SameFixed w w' →
      ∀ b y, w'.acts b = some y → w.acts b = none → (∃ l lv nm kw, it = .op (.newAction l lv nm kw)) ∨ y.handle = false := by
    intro w' h
    intro b y hy hn
    obtain ⟨x, hx, _⟩ := h.find hy
    rw [hn] at hx; cases hx
  have hg : ∀ a (r : World × Option Exc), SameFixed w r.1 → SameFixed w (guard w a r).1 := by
    intro a r h
    simp only [guard]; split
    · exact h
    · exact .refl w
  cases it with
  | enter a => exact same _ (hg _ _ (fixed_enter ..))
  | exit a exc =>
    simp only [stepItem]; split
    · exact same _ (fixed_exit ..)
    · exact same _ (.refl w)
  | op o =>
    cases o <;> dsimp only [stepItem, step, ret]
    case newLogger l ss as =>
      split
      · exact same _ (.refl w)
      · refine same _ (.ofActs ?_)
        simp only [addLogger]; split <;> rfl
    case newAction l lv nm kw => exact fun _ _ _ _ => .inl ⟨l, lv, nm, kw, rfl⟩
    case comment l m f kw =>
      simp only [comment]
      split
      · exact same _ (.refl w)
      · simp only [publish_acts, setAct_acts]
        intro b y hy hn
        by_cases h : b = w.nextId
        · subst h; simp at hy; subst hy; exact .inr rfl
        · rw [updAct_ne _ _ h] at hy
          have : w.acts b = some y := hy
          simp [hn] at this
    case begin => exact same _ (hg _ _ (fixed_begin ..))
    case warn => exact same _ (hg _ _ (fixed_warn ..))
    case success => exact same _ (hg _ _ (fixed_success ..))
    case failure => exact same _ (hg _ _ (fixed_failure ..))
    case exception => exact same _ (hg _ _ (fixed_exception ..))
    case setItem a k v =>
      refine same _ (hg _ _ ?_)
      simp only [setItem]; split
      · exact .refl w
      · rename_i x hx; exact .upd hx rfl rfl
    case flush l => exact same _ (.ofActs (flush_flushLike ..).core.acts)
    case setAsync l b => exact same _ (.ofActs (setAsync_flushLike ..).core.acts)
    case setSinks l ss => exact same _ (.ofActs (onLog_flushLike ..).core.acts)
    case addSink l ss => exact same _ (.ofActs (onLog_flushLike ..).core.acts)
    case clearSinks l => exact same _ (.ofActs (onLog_flushLike ..).core.acts)
    case addPreflush l h => exact same _ (.ofActs (onLog_flushLike ..).core.acts)
    case addNoteHandler h => exact same { w with noteHandlers := w.noteHandlers ++ [h] } (.ofActs rfl)
    case ctxFlush => exact same _ (.ofActs (ctxFlush_flushLike ..).core.acts)
    case enableAsync u =>
      refine same _ (.ofActs ?_)
      simp only [enableAsync]
      cases u
      · rfl
      · exact (foldl_setAsync_flushLike w.ctxLoggers false { w with ctxAsync := true }).core.acts
    case disableAsync u =>
      refine same _ (.ofActs ?_)
      exact congrArg Core.acts (disableAsync_core env w u)
    case addLogger l =>
      refine same _ (.ofActs ?_)
      split
      · rfl
      · simp only [addLogger]; split <;> rfl
    case removeLogger l => exact same _ (.ofActs rfl)


namespace Parents

/-- An action of the world model. -/
def named (a : ActId) : Id := (0, a)

/-- What an item of a history is in the model of the hooks, if it concerns them. -/
def blockOp (w : World) : Item → Option Op
  | .op (.newAction l _ _ kw) =>
    if (w.logs l).isSome then some (.make w.nextId l ((asParent (kw.get? "parent_action")).map named)) else none
  | .enter a => if w.held a then some (.enter a) else none
  | .exit a _ => if w.held a then some (.exit a) else none
  | _ => none

/-- The schedule of a history. -/
def blockOps (env : Env) : World → List Item → List (Tid × Op)
  | _, [] => []
  | w, it :: its => ((blockOp w it).toList.map fun o => (0, o)) ++ blockOps env (stepItem env w it) its

/-- The hooks know what the world knows. -/
structure Knows (w : World) (s : S LogId) : Prop where
  active : ∀ l, s.active l = (w.active l).map named
  held : ∀ a x, w.acts a = some x → x.handle = true → s.info (named a) = some (x.logger, x.parent.map named)
  rest : ∀ a, w.held a = false → s.info (named a) = none

theorem knows_item (hc : env.Calm) (hg : Good env w) {s : S LogId} (h : Knows w s) (it : Item) :
    Knows (stepItem env w it) (run perLogger s ((blockOp w it).toList.map fun o => (0, o))) := by
  have hid : w.acts w.nextId = none := hg.id.fresh
  have hfix : ∀ a x, w.acts a = some x → ∃ y, (stepItem env w it).acts a = some y ∧ y.fixed = x.fixed :=
    fun a x hx => hg.fixed_item it hx
  -- what an item that makes no action leaves
  have keep : (∀ l lv nm kw, it ≠ .op (.newAction l lv nm kw)) → ∀ s' : S LogId, s'.info = s.info →
      (∀ l, s'.active l = ((stepItem env w it).active l).map named) → Knows (stepItem env w it) s' := by
    intro hn s' hi ha
    have hold : ∀ a y, (stepItem env w it).acts a = some y → y.handle = true → ∃ x, w.acts a = some x ∧ y.fixed = x.fixed := by
      intro a y hy hh
      cases hx : w.acts a with
      | none =>
        rcases hidden_item (env := env) w hid it a y hy hx with ⟨l, lv, nm, kw, e⟩ | e
        · exact absurd e (hn l lv nm kw)
        · rw [e] at hh; cases hh
      | some x =>
        obtain ⟨z, hz, hf⟩ := hfix a x hx
        rw [hy] at hz; cases hz
        exact ⟨x, rfl, hf⟩
    refine ⟨ha, fun a y hy hh => ?_, fun a hh => ?_⟩
    · obtain ⟨x, hx, hf⟩ := hold a y hy hh
      simp only [Act.fixed, Prod.mk.injEq] at hf
      rw [hi, h.held a x hx (hf.2.2.2.2.2 ▸ hh), hf.1, hf.2.2.2.2.1]
    · rw [hi]
      refine h.rest a ?_
      by_contra hne
      rw [Bool.not_eq_false] at hne
      obtain ⟨x, hx, hxh⟩ := held_iff.1 hne
      obtain ⟨y, hy, hf⟩ := hfix a x hx
      simp only [Act.fixed, Prod.mk.injEq] at hf
      have : (stepItem env w it).held a = true := held_iff.2 ⟨y, hy, hf.2.2.2.2.2.trans hxh⟩
      rw [this] at hh; cases hh
  cases it with
  | op o =>
    have hact : (stepItem env w (.op o)).active = w.active := step_active o
    by_cases hn : ∃ l lv nm kw, o = .newAction l lv nm kw
    · obtain ⟨l, lv, nm, kw, rfl⟩ := hn
      cases hL : w.logs l with
      | none =>
        have h1 : stepItem env w (.op (.newAction l lv nm kw)) = w := by simp [stepItem, Verif.step, hL]
        rw [h1]
        simpa [blockOp, hL, run] using h
      | some L =>
        have hsch : ((blockOp w (.op (.newAction l lv nm kw))).toList.map fun o => ((0, o) : Tid × Op)) =
            [(0, .make w.nextId l ((asParent (kw.get? "parent_action")).map named))] := by simp [blockOp, hL]
        have hinf : s.info (named w.nextId) = none := h.rest _ (by simp [World.held, hid])
        rw [hsch]
        have hrun : run perLogger s [(0, .make w.nextId l ((asParent (kw.get? "parent_action")).map named))] =
            { s with info := fun a => if a = named w.nextId then some (l, ((asParent (kw.get? "parent_action")).map named).or (s.active l)) else s.info a } := by
          simp only [run, List.foldl_cons, List.foldl_nil, step, perLogger]
          rw [show ((0, w.nextId) : Id) = named w.nextId from rfl, hinf]
        rw [hrun]
        have hpar : ((asParent (kw.get? "parent_action")).map named).or (s.active l) = (initParent w l kw).map named := by
          rw [h.active l]
          unfold initParent
          cases asParent (kw.get? "parent_action") <;> simp
        have hacts : (stepItem env w (.op (.newAction l lv nm kw))).acts =
            fun b => if b = w.nextId then some { logger := l, level := lv, name := nm, data := (kw.erase "reraise").erase "parent_action", reraise := (kw.get? "reraise").getD .none, parent := initParent w l kw, beginEv := none, endEv := none, warnEvs := [], excEvs := [], isTrans := false, defer := false, handle := true } else w.acts b := by
          simp only [stepItem, Verif.step, hL, newAction]; rfl
        have hne : ∀ a, a ≠ w.nextId → named a ≠ named w.nextId := by
          intro a ha e; simp [named] at e; exact ha e
        refine ⟨fun m => by rw [hact]; exact h.active m, fun a x hx hh => ?_, fun a hh => ?_⟩
        · rw [hacts] at hx
          by_cases ha : a = w.nextId
          · subst ha
            simp at hx; subst hx
            simp [hpar]
          · simp [ha] at hx
            simpa [hne a ha] using h.held a x hx hh
        · by_cases ha : a = w.nextId
          · subst ha
            simp [World.held, hacts] at hh
          · simp only [hne a ha, if_false]
            refine h.rest a ?_
            simpa [World.held, hacts, ha] using hh
    · have hb : blockOp w (.op o) = none := by
        cases o <;> first | rfl | exact absurd ⟨_, _, _, _, rfl⟩ hn
      rw [hb]
      refine keep ?_ s rfl ?_
      · rintro l lv nm kw e
        cases e; exact hn ⟨_, _, _, _, rfl⟩
      · intro l; rw [hact]; exact h.active l
  | enter a =>
    cases hh : w.held a with
    | false =>
      have : stepItem env w (.enter a) = w := by simp [stepItem, guard, hh]
      rw [this]
      simpa [blockOp, hh, run] using h
    | true =>
      obtain ⟨x, hx, hxh⟩ := held_iff.1 hh
      have hs : run perLogger s ((blockOp w (.enter a)).toList.map fun o => ((0, o) : Tid × Op)) = s.set x.logger (some (named a)) := by
        simp only [blockOp, hh, if_true, Option.toList_some, List.map_cons, List.map_nil, run, List.foldl_cons, List.foldl_nil,
          step, perLogger]
        rw [show ((0, a) : Id) = named a from rfl, h.held a x hx hxh]
      rw [hs]
      refine keep (by simp) _ rfl fun m => ?_
      by_cases hm : m = x.logger
      · subst hm
        rw [stepItem_enter_active hh hx]
        simp [S.set]
      · rw [stepItem_active_other (.enter a) (by rintro ⟨y, hy, e⟩; rw [hx] at hy; cases hy; exact hm e.symm)]
        simp [S.set, hm, h.active]
  | exit a e =>
    cases hh : w.held a with
    | false =>
      have : stepItem env w (.exit a e) = w := by simp [stepItem, hh]
      rw [this]
      simpa [blockOp, hh, run] using h
    | true =>
      obtain ⟨x, hx, hxh⟩ := held_iff.1 hh
      have hs : run perLogger s ((blockOp w (.exit a e)).toList.map fun o => ((0, o) : Tid × Op)) = s.set x.logger (x.parent.map named) := by
        simp only [blockOp, hh, if_true, Option.toList_some, List.map_cons, List.map_nil, run, List.foldl_cons, List.foldl_nil,
          step, perLogger]
        rw [show ((0, a) : Id) = named a from rfl, h.held a x hx hxh]
      rw [hs]
      refine keep (by simp) _ rfl fun m => ?_
      by_cases hm : m = x.logger
      · subst hm
        rw [stepItem_exit_active hc hh hx]
        simp [S.set]
      · rw [stepItem_active_other (.exit a e) (by rintro ⟨y, hy, e⟩; rw [hx] at hy; cases hy; exact hm e.symm)]
        simp [S.set, hm, h.active]

/-- **C108**: after any history of calls in which sinks do not raise, the model of the hooks, given the calls that make actions and
enter and leave blocks, has the active action of every logger and the parent of every action as the world model has them. -/
theorem C108_sequential (hc : env.Calm) (its : List Item) (hr : Reachable env w) {s : S LogId} (h : Knows w s) :
    Knows (Verif.run env w its) (run perLogger s (blockOps env w its)) := by
  induction its generalizing w s with
  | nil => exact h
  | cons it its ih =>
    have h1 := knows_item hc hr.good h it
    have h2 := ih (hr.item it) h1
    rw [Verif.run_cons]
    simpa [blockOps, run, List.foldl_append] using h2

/-- The fresh states. -/
theorem init_knows : Knows World.init ({} : S LogId) :=
  ⟨fun _ => rfl, fun a x hx => by simp [World.init] at hx, fun _ _ => rfl⟩

open Sample in
/-- A case: nested blocks, a comment inside, and an action given its parent. -/
example :
    let its := setup ++ [mk "a", .enter 0, mk "b", .op (.comment 0 "c" [] []), mk "d" [("parent_action", .act 2)], .exit 0 none]
    (blockOps quiet World.init its).length = 5 ∧ (Verif.run quiet World.init its).active 0 = none ∧
    (run perLogger {} (blockOps quiet World.init its)).info (0, 2) = some (0, some (0, 0)) := by decide +kernel

end Parents
end Verif
