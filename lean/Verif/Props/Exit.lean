import Verif.Model.Exit
import Verif.Props.Context
import Verif.Props.Signal
import Verif.Lemmas.SyncMode
import Verif.Spec.Samples
import Mathlib.Data.List.Induction
/-!
# C84, C85: the end of the process
-/
namespace Verif.Exit
attribute [local irreducible] QUEUE_LIMIT

/-- What the events do to the SIGTERM disposition, as in `Model/Signal.lean`. -/
def Ev.sig : Ev → Option Signal.Op
  | .enable _ s => some (.enable s true)
  | .disable _ s => some (.disable s true)
  | .signal h => some (.set h)
  | _ => none

/-- The exit handlers the application registers, first registered first. -/
def Ev.reg : Ev → List (List Item)
  | .atexit its => [its]
  | _ => []

/-- The application's handlers among some. -/
def users (rs : List Reg) : List (List Item) := rs.filterMap fun | .user its => some its | _ => none

/-- How often `disable_async` is among some handlers. -/
def disables (rs : List Reg) : Nat := rs.countP fun | .disable => true | _ => false

/-- Was `enable_async` called? -/
def Enabled (evs : List Ev) : Prop := ∃ l s, Ev.enable l s ∈ evs

theorem life_snoc (env : Env) (evs : List Ev) (e : Ev) : life env (evs ++ [e]) = step env (life env evs) e := by
  simp [life, List.foldl_append]

theorem step_ended {env : Env} {p : Proc} (e : Ev) (h : (step env p e).ended = none) : p.ended = none := by
  cases hp : p.ended with
  | none => rfl
  | some x => rw [show step env p e = p by simp [step, hp], hp] at h; cases h

/-- What holds of a living process. -/
structure Inv (env : Env) (evs : List Ev) (p : Proc) : Prop where
  reach : Reachable env p.world
  disp : p.disp = Signal.run .dfl (evs.filterMap Ev.sig)
  users : users p.stack = (evs.flatMap Ev.reg).reverse
  reg : p.registered = true ↔ Enabled evs
  one : disables p.stack = if p.registered then 1 else 0
  ran : p.ran = []

theorem reach_enable {env : Env} {w : World} (h : Reachable env w) (u : Bool) : Reachable env (enableAsync w u) :=
  h.step (.enableAsync u)
theorem reach_disable {env : Env} {w : World} (h : Reachable env w) (u : Bool) :
    Reachable env (disableAsync env w u).1 := h.step (.disableAsync u)

theorem inv_step {env : Env} {evs : List Ev} {p : Proc} (hi : Inv env evs p) (e : Ev)
    (h : (step env p e).ended = none) : Inv env (evs ++ [e]) (step env p e) := by
  have hp := step_ended e h
  have run1 : ∀ o, Signal.run .dfl (evs.filterMap Ev.sig ++ [o]) = Signal.step p.disp o := by
    intro o; rw [hi.disp, Signal.run_append]; rfl
  have en : ∀ e : Ev, (∀ l s, e ≠ .enable l s) → (Enabled (evs ++ [e]) ↔ Enabled evs) := by
    intro e he
    simp only [Enabled, List.mem_append, List.mem_singleton]
    constructor
    · rintro ⟨l, s, h | h⟩
      · exact ⟨l, s, h⟩
      · exact absurd h.symm (he l s)
    · rintro ⟨l, s, h⟩; exact ⟨l, s, .inl h⟩
  have reg : ∀ e : Ev, (∀ l s, e ≠ .enable l s) → (p.registered = true ↔ Enabled (evs ++ [e])) := by
    intro e he; rw [en e he]; exact hi.reg
  have sig0 : ∀ e : Ev, e.sig = none → p.disp = Signal.run .dfl ((evs ++ [e]).filterMap Ev.sig) := by
    intro e he; rw [hi.disp, List.filterMap_append, List.filterMap_cons, he]; simp
  cases e with
  | item it =>
    simp only [step, hp] at h ⊢
    exact ⟨hi.reach.item it, sig0 _ rfl, by simp [Ev.reg, hi.users], reg _ (by simp), hi.one, hi.ran⟩
  | enable l s =>
    simp only [step, hp, enable] at h ⊢
    refine ⟨reach_enable hi.reach l, ?_, ?_, ?_, ?_, hi.ran⟩
    · simp only [List.filterMap_append, List.filterMap_cons, List.filterMap_nil, Ev.sig, run1, Signal.step,
        Bool.and_true]
    · simp only [List.flatMap_append, List.flatMap_cons, List.flatMap_nil, Ev.reg, List.append_nil]
      rw [← hi.users]
      split <;> simp [Exit.users]
    · simp only [true_iff]; exact ⟨l, s, by simp⟩
    · have h1 := hi.one
      cases hr : p.registered <;> simp [hr, disables] at h1 ⊢ <;> exact h1
  | disable l s =>
    simp only [step, hp, disable] at h ⊢
    refine ⟨reach_disable hi.reach l, ?_, by simp [Ev.reg, hi.users], reg _ (by simp), hi.one, hi.ran⟩
    simp only [List.filterMap_append, List.filterMap_cons, List.filterMap_nil, Ev.sig, run1, Signal.step,
      Bool.and_true]
  | atexit its =>
    simp only [step, hp] at h ⊢
    refine ⟨hi.reach, sig0 _ rfl, ?_, reg _ (by simp), ?_, hi.ran⟩
    · simp only [List.flatMap_append, List.flatMap_cons, List.flatMap_nil, Ev.reg, List.append_nil,
        List.reverse_append, ← hi.users]
      rfl
    · rw [← hi.one]; simp [disables]
  | signal hd =>
    simp only [step, hp] at h ⊢
    refine ⟨hi.reach, ?_, by simp [Ev.reg, hi.users], reg _ (by simp), hi.one, hi.ran⟩
    simp only [List.filterMap_append, List.filterMap_cons, List.filterMap_nil, Ev.sig, run1, Signal.step]
  | sigterm =>
    simp only [step, hp] at h ⊢
    split at h <;> rename_i hd
    · cases h
    · refine ⟨hi.reach, sig0 _ rfl, ?_, reg _ (by simp), ?_, hi.ran⟩
      · simp [Ev.reg, ← hi.users, Exit.users]
      · rw [← hi.one]; simp [disables]
    · exact ⟨hi.reach, sig0 _ rfl, by simp [Ev.reg, hi.users], reg _ (by simp), hi.one, hi.ran⟩

theorem inv_life {env : Env} {evs : List Ev} (h : (life env evs).ended = none) : Inv env evs (life env evs) := by
  induction evs using List.reverseRecOn with
  | nil =>
    refine ⟨⟨[], rfl⟩, rfl, rfl, ?_, rfl, rfl⟩
    simp [life, Proc.init, Enabled]
  | append_singleton evs e ih =>
    rw [life_snoc] at h ⊢
    exact inv_step (ih (step_ended e h)) e h

theorem handle_ran (env : Env) (rs : List Reg) (p : Proc) :
    (rs.foldl (handle env) p).ran = p.ran ++ rs ∧ (rs.foldl (handle env) p).ended = p.ended := by
  induction rs generalizing p with
  | nil => simp
  | cons r rs ih =>
    simp only [List.foldl_cons]
    rw [(ih _).1, (ih _).2]
    cases r <;> simp [handle, disable]

/-- How the process ends if nothing but its exit handlers is in the way: with the status it exits with, and with status
143 after a SIGTERM that lithoxyl's handler takes. -/
def Last.status : Last → Nat
  | .exit n => n
  | .sigterm => 143

theorem last_eq {env : Env} {p : Proc} (hp : p.ended = none) {e : Last} (he : e = .sigterm → p.disp = .ours) :
    ∃ rs, (rs = p.stack ∨ rs = .reissue :: p.stack) ∧
      last env p e = { (rs.foldl (handle env) { p with stack := [] }) with ended := some (.status e.status) } := by
  cases e with
  | exit n => exact ⟨p.stack, .inl rfl, by simp [last, hp, finish, Last.status]⟩
  | sigterm => exact ⟨.reissue :: p.stack, .inr rfl, by simp [last, hp, finish, Last.status, he rfl]⟩

/-- **C84, exit handlers.**  However a process has been using lithoxyl: when it exits, or when it gets a SIGTERM while
lithoxyl's handler is installed, all exit handlers of the application run, last registered first, and `disable_async`
runs exactly once if async mode was ever enabled (and not at all if it was not). -/
theorem C84_handlers_run {env : Env} {evs : List Ev} (hp : (life env evs).ended = none) {e : Last}
    (he : e = .sigterm → (life env evs).disp = .ours) :
    users (last env (life env evs) e).ran = (evs.flatMap Ev.reg).reverse ∧
    (Enabled evs → disables (last env (life env evs) e).ran = 1) ∧
    (¬ Enabled evs → disables (last env (life env evs) e).ran = 0) ∧
    (last env (life env evs) e).ended = some (.status e.status) := by
  have hi := inv_life hp
  obtain ⟨rs, hrs, hl⟩ := last_eq (env := env) hp he
  have hran : (last env (life env evs) e).ran = rs := by
    rw [hl]; show (List.foldl (handle env) _ rs).ran = rs
    rw [(handle_ran env rs _).1]; simp [hi.ran]
  have hu : users rs = users (life env evs).stack := by
    rcases hrs with rfl | rfl <;> simp [users]
  have hd : disables rs = disables (life env evs).stack := by
    rcases hrs with rfl | rfl <;> simp [disables]
  rw [hran, hu, hd, hi.users, hi.one]
  refine ⟨rfl, fun h => ?_, fun h => ?_, by rw [hl]⟩
  · rw [if_pos (hi.reg.2 h)]
  · rw [if_neg (fun hr => h (hi.reg.1 hr))]

theorem handle_disp (env : Env) (rs : List Reg) (p : Proc) :
    (rs.foldl (handle env) p).disp = if disables rs = 0 then p.disp else if p.disp = .ours then .dfl else p.disp := by
  induction rs generalizing p with
  | nil => simp [disables]
  | cons r rs ih =>
    simp only [List.foldl_cons]
    rw [ih]
    cases r with
    | user its => exact if_congr (by rw [show disables (.user its :: rs) = disables rs from rfl]) rfl rfl
    | reissue => exact if_congr (by rw [show disables (.reissue :: rs) = disables rs from rfl]) rfl rfl
    | disable =>
      have : disables (.disable :: rs) ≠ 0 := by simp [disables]
      rw [if_neg this]
      simp only [handle, disable, if_true, Signal.uninstall, Bool.false_eq_true, false_or]
      by_cases h : p.disp = .ours <;> simp [h]

/-- **C84, the signal handler.**  When a process that ever enabled async mode has run its exit handlers, lithoxyl's handler for
SIGTERM is gone, so that a late signal has its default effect; a handler of the application's stays. -/
theorem C84_disposition {env : Env} {evs : List Ev} (hp : (life env evs).ended = none) {e : Last}
    (he : e = .sigterm → (life env evs).disp = .ours) (hen : Enabled evs) :
    (last env (life env evs) e).disp = if (life env evs).disp = .ours then .dfl else (life env evs).disp := by
  have hi := inv_life hp
  obtain ⟨rs, hrs, hl⟩ := last_eq (env := env) hp he
  have hd : disables rs = disables (life env evs).stack := by
    rcases hrs with rfl | rfl <;> simp [disables]
  have h1 : disables rs ≠ 0 := by rw [hd, hi.one, if_pos (hi.reg.2 hen)]; simp
  rw [hl]
  show (List.foldl (handle env) _ rs).disp = _
  rw [handle_disp, if_neg h1]

/-- Calls of exit handlers that leave logger `l` registered, its sinks alone, and do not make it asynchronous. -/
def Leaves (l : LogId) (it : Item) : Prop :=
  it ≠ .op (.removeLogger l) ∧ it.staysSync l ∧ it.keepsSinks l

theorem mem_ctx_item {env : Env} {w : World} {l : LogId} (h : l ∈ w.ctxLoggers) (it : Item)
    (hn : it ≠ .op (.removeLogger l)) : l ∈ (stepItem env w it).ctxLoggers := by
  have hadd : ∀ (w : World) m, l ∈ w.ctxLoggers → l ∈ (addLogger w m).ctxLoggers := by
    intro w m h
    simp only [addLogger]; split
    · exact h
    · simp [h]
  cases it with
  | enter a =>
    have : (stepItem env w (.enter a)).ctxLoggers = w.ctxLoggers := by
      simp only [stepItem, guard, ret, enter]
      split
      · split
        · rfl
        · exact (keep_begin ..).ctxLoggers.trans rfl
      · rfl
    rw [this]; exact h
  | exit a x =>
    have : (stepItem env w (.exit a x)).ctxLoggers = w.ctxLoggers := by
      simp only [stepItem]
      split
      · simp only [exit]
        split
        · rfl
        · have hk := keep_exitPublish (env := env) (w := w) a x
          split
          · rename_i hr; rw [hr] at hk; exact hk.ctxLoggers
          · rename_i hr; rw [hr] at hk; exact hk.ctxLoggers
      · rfl
    rw [this]; exact h
  | op o =>
    simp only [stepItem]
    cases hc : o.isCfg with
    | false => rw [(keep_step o hc).ctxLoggers]; exact h
    | true =>
      cases o <;> simp only [Op.isCfg, reduceCtorEq] at hc <;> simp only [Verif.step]
      case newLogger =>
        split
        · exact h
        · exact hadd _ _ h
      case addNoteHandler => exact h
      case enableAsync u =>
        simp only [enableAsync]; split
        · rw [(foldl_setAsync_flushLike _ _ _).ctxLoggers]; exact h
        · exact h
      case disableAsync u => rw [ret, (disableAsync_ctxLoggers u).1]; exact h
      case addLogger =>
        split
        · exact h
        · exact hadd _ _ h
      case removeLogger m =>
        simp only [removeLogger, List.mem_filter, h, true_and]
        simp; rintro rfl; exact hn rfl

theorem mem_ctx_run {env : Env} {w : World} {l : LogId} (h : l ∈ w.ctxLoggers) (its : List Item)
    (hn : ∀ it ∈ its, it ≠ .op (.removeLogger l)) : l ∈ (run env w its).ctxLoggers := by
  induction its generalizing w with
  | nil => exact h
  | cons it its ih => exact ih (mem_ctx_item h it (hn it (by simp))) (fun i hi => hn i (by simp [hi]))

theorem syncAt_run {env : Env} (hq : env.Quiet) {w : World} (hr : Reachable env w) {l : LogId}
    {hs : Kind → List SinkId} (h : w.del.SyncAt l hs) (its : List Item) (hn : ∀ it ∈ its, Leaves l it) :
    (run env w its).del.SyncAt l hs := by
  induction its generalizing w with
  | nil => exact h
  | cons it its ih =>
    obtain ⟨_, h1, h2⟩ := hn it (by simp)
    exact ih (hr.item it) (syncAt_item hq hr.good h it h1 h2).2 (fun i hi => hn i (by simp [hi]))

theorem logs_run {env : Env} {w : World} (hr : Reachable env w) {l : LogId} (h : (w.logs l).isSome)
    (its : List Item) : ((run env w its).logs l).isSome :=
  DelStar.logs_mono (del_run hr.good.trans hr.good.id hr.good.pre its).1 l h

/-- After `disable_async` a registered logger is synchronous and empty. -/
theorem disable_syncAt {env : Env} (hq : env.Quiet) {w : World} (hr : Reachable env w) {l : LogId}
    (hl : l ∈ w.ctxLoggers) (hs : (w.logs l).isSome) : ∃ k, (disableAsync env w true).1.del.SyncAt l k := by
  obtain ⟨L, hL⟩ := Option.isSome_iff_exists.1 hs
  obtain ⟨_, _, _, L', h1, h2, h3⟩ := disable_async_delivers hq hr hl hL
  exact ⟨L'.hooks, L', h1, h2, h3, rfl⟩

/-- The state of logger `l` while the exit handlers run. -/
def Ready (env : Env) (l : LogId) (w : World) : Prop := Reachable env w ∧ l ∈ w.ctxLoggers ∧ (w.logs l).isSome

theorem foldl_sync {env : Env} (hq : env.Quiet) {l : LogId} (rs : List Reg)
    (hn : ∀ its, Reg.user its ∈ rs → ∀ it ∈ its, Leaves l it) {p : Proc} (h : Ready env l p.world)
    {k : Kind → List SinkId} (hs : p.world.del.SyncAt l k) :
    ∃ k, ((rs.foldl (handle env) p).world).del.SyncAt l k := by
  induction rs generalizing p k with
  | nil => exact ⟨k, hs⟩
  | cons r rs ih =>
    simp only [List.foldl_cons]
    have hn' : ∀ its, Reg.user its ∈ rs → ∀ it ∈ its, Leaves l it := fun its h => hn its (by simp [h])
    cases r with
    | user its =>
      have hl := hn its (by simp)
      exact ih hn' (p := handle env p (.user its))
        ⟨h.1.run its, mem_ctx_run h.2.1 its (fun it hi => (hl it hi).1), logs_run h.1 h.2.2 its⟩
        (syncAt_run hq h.1 hs its hl)
    | disable =>
      obtain ⟨k', hk'⟩ := disable_syncAt hq h.1 h.2.1 h.2.2
      refine ih hn' (p := handle env p .disable) ⟨reach_disable h.1 true, ?_, ?_⟩ hk'
      · simp only [handle, disable]; rw [(disableAsync_ctxLoggers true).1]; exact h.2.1
      · obtain ⟨L', h1, _⟩ := hk'
        show (((disableAsync env p.world true).1).logs l).isSome
        rw [show ((disableAsync env p.world true).1).logs l = some L' from h1]; rfl
    | reissue => exact ih hn' (p := handle env p .reissue) h hs

theorem foldl_flushed {env : Env} (hq : env.Quiet) {l : LogId} (rs : List Reg) (hd : 0 < disables rs)
    (hn : ∀ its, Reg.user its ∈ rs → ∀ it ∈ its, Leaves l it) {p : Proc} (h : Ready env l p.world) :
    ∃ k, ((rs.foldl (handle env) p).world).del.SyncAt l k := by
  induction rs generalizing p with
  | nil => simp [disables] at hd
  | cons r rs ih =>
    simp only [List.foldl_cons]
    have hn' : ∀ its, Reg.user its ∈ rs → ∀ it ∈ its, Leaves l it := fun its h => hn its (by simp [h])
    cases r with
    | user its =>
      have hl := hn its (by simp)
      exact ih (by simpa [disables] using hd) hn' (p := handle env p (.user its))
        ⟨h.1.run its, mem_ctx_run h.2.1 its (fun it hi => (hl it hi).1), logs_run h.1 h.2.2 its⟩
    | disable =>
      obtain ⟨k', hk'⟩ := disable_syncAt hq h.1 h.2.1 h.2.2
      refine foldl_sync hq rs hn' (p := handle env p .disable) ⟨reach_disable h.1 true, ?_, ?_⟩ hk'
      · simp only [handle, disable]; rw [(disableAsync_ctxLoggers true).1]; exact h.2.1
      · obtain ⟨L', h1, _⟩ := hk'
        show (((disableAsync env p.world true).1).logs l).isSome
        rw [show ((disableAsync env p.world true).1).logs l = some L' from h1]; rfl
    | reissue => exact ih (by simpa [disables] using hd) hn' (p := handle env p .reissue) h

/-- **C84, nothing stays queued.**  If async mode was ever enabled and sinks do not raise, then at the end of the
process, by exit or by a SIGTERM that lithoxyl's handler takes, no registered logger has anything queued.  The
application's own exit handlers may log, before and after `disable_async`, as long as they neither unregister the logger,
nor change its sinks, nor make it asynchronous again. -/
theorem C84_flushed {env : Env} (hq : env.Quiet) {evs : List Ev} (hp : (life env evs).ended = none)
    (hen : Enabled evs) {e : Last} (he : e = .sigterm → (life env evs).disp = .ours) {l : LogId}
    (hl : l ∈ (life env evs).world.ctxLoggers) {L : Log} (hL : (life env evs).world.logs l = some L)
    (hn : ∀ its, Ev.atexit its ∈ evs → ∀ it ∈ its, Leaves l it) :
    queued (last env (life env evs) e).world l = [] ∧
    ∃ L', (last env (life env evs) e).world.logs l = some L' ∧ L'.async = false := by
  have hi := inv_life hp
  obtain ⟨rs, hrs, hl'⟩ := last_eq (env := env) hp he
  have hd : 0 < disables rs := by
    have h1 : disables rs = disables (life env evs).stack := by
      rcases hrs with rfl | rfl <;> simp [disables]
    rw [h1, hi.one, if_pos (hi.reg.2 hen)]; exact Nat.one_pos
  have hu : ∀ its, Reg.user its ∈ rs → ∀ it ∈ its, Leaves l it := by
    intro its hm
    have h1 : its ∈ users rs := by
      simp only [users, List.mem_filterMap]; exact ⟨_, hm, rfl⟩
    have h2 : users rs = users (life env evs).stack := by
      rcases hrs with rfl | rfl <;> simp [users]
    rw [h2, hi.users, List.mem_reverse, List.mem_flatMap] at h1
    obtain ⟨ev, hev, h1⟩ := h1
    cases ev <;> simp only [Ev.reg, List.mem_singleton, List.not_mem_nil] at h1
    subst h1
    exact hn _ hev
  obtain ⟨k, L', h1, h2, h3, _⟩ := foldl_flushed hq rs hd hu (p := { life env evs with stack := [] })
    ⟨hi.reach, hl, by rw [hL]; rfl⟩
  have hw : (last env (life env evs) e).world.logs l = some L' := by rw [hl']; exact h1
  exact ⟨by simp [queued, hw, h3], L', hw, h2⟩

/-- **C84, when lithoxyl's handler is there.**  If the application never installs a SIGTERM handler, a SIGTERM is taken by
lithoxyl's handler whenever the last of its `enable_async`/`disable_async` calls that cared about SIGTERM was an
`enable_async`. -/
theorem C84_handler_installed {env : Env} {evs rest : List Ev} {b : Bool}
    (hp : (life env (evs ++ .enable b true :: rest)).ended = none)
    (hu : ∀ h, Ev.signal h ∉ evs) (hr : ∀ x ∈ rest, x.sig = none ∨ ∃ l, x = .enable l true ∨ x = .enable l false ∨ x = .disable l false) :
    (life env (evs ++ .enable b true :: rest)).disp = .ours := by
  rw [(inv_life hp).disp, List.filterMap_append, Signal.run_append, List.filterMap_cons]
  have h1 : Signal.run .dfl (evs.filterMap Ev.sig) = .dfl ∨ Signal.run .dfl (evs.filterMap Ev.sig) = .ours := by
    have hset : ∀ h, Signal.Op.set h ∉ evs.filterMap Ev.sig := by
      intro h hm
      obtain ⟨x, hx, he⟩ := List.mem_filterMap.1 hm
      cases x <;> simp only [Ev.sig, Option.some.injEq, reduceCtorEq, Signal.Op.set.injEq] at he
      subst he; exact hu _ hx
    have hforce : Signal.NoForce (evs.filterMap Ev.sig) := by
      intro m hm
      obtain ⟨x, hx, he⟩ := List.mem_filterMap.1 hm
      cases x <;> simp only [Ev.sig, Option.some.injEq, reduceCtorEq] at he
    have hch : ∀ ops : List Signal.Op, (∀ h, Signal.Op.set h ∉ ops) → ∀ h, Signal.chosen h ops = h := by
      intro ops
      induction ops with
      | nil => intros; rfl
      | cons o ops ih =>
        intro hs h
        cases o with
        | set h' => exact absurd List.mem_cons_self (hs h')
        | _ => exact ih (fun h' hm => hs h' (by simp [hm])) h
    exact (Signal.C30_default hforce (hch _ hset _)).1
  have h2 : ∀ ops : List Signal.Op, (∀ o ∈ ops, o = .enable true true ∨ o = .enable false true ∨ o = .disable false true) →
      Signal.run .ours ops = .ours := by
    intro ops
    induction ops with
    | nil => intro _; rfl
    | cons o ops ih =>
      intro h
      have : Signal.step .ours o = .ours := by
        rcases h o (by simp) with rfl | rfl | rfl <;> rfl
      show Signal.run (Signal.step .ours o) ops = .ours
      rw [this]; exact ih (fun o ho => h o (by simp [ho]))
  show Signal.run (Signal.step (Signal.run .dfl (evs.filterMap Ev.sig)) (.enable true true)) (rest.filterMap Ev.sig) = .ours
  have h3 : Signal.step (Signal.run .dfl (evs.filterMap Ev.sig)) (.enable true true) = .ours := by
    rcases h1 with h | h <;> rw [h] <;> rfl
  rw [h3]
  refine h2 _ fun o ho => ?_
  obtain ⟨x, hx, he⟩ := List.mem_filterMap.1 ho
  rcases hr x hx with h | ⟨l, rfl | rfl | rfl⟩
  · rw [h] at he; cases he
  · simp only [Ev.sig, Option.some.injEq] at he; exact .inl he.symm
  · simp only [Ev.sig, Option.some.injEq] at he; exact .inr (.inl he.symm)
  · simp only [Ev.sig, Option.some.injEq] at he; exact .inr (.inr he.symm)

/-- **C85, as intended** by the documentation of `atexit_reissue_sigterm`: a process that gets a SIGTERM ends the way it
would without lithoxyl's handler, killed by the signal. -/
def C85_full : Prop := ∀ (env : Env) (evs : List Ev), (life env evs).ended = none →
  (life env evs).disp = .ours → (last env (life env evs) .sigterm).ended = some .killed

/-- **C85 is violated**, always: with lithoxyl's handler every SIGTERM ends in exit status 143. -/
theorem C85_violated {env : Env} {evs : List Ev} (hp : (life env evs).ended = none)
    (hd : (life env evs).disp = .ours) : (last env (life env evs) .sigterm).ended = some (.status 143) :=
  (C84_handlers_run (e := .sigterm) hp (fun _ => hd)).2.2.2

/-- **C85, exactly.**  How a SIGTERM ends a process depends on the disposition that the calls before it have left (as in C30): with the
default it is killed, as without lithoxyl; with lithoxyl's handler it exits with status 143, after its exit handlers; otherwise it is up
to the application's handler.  None of it depends on what was logged. -/
theorem C85_exact {env : Env} {evs : List Ev} (hp : (life env evs).ended = none) :
    (last env (life env evs) .sigterm).ended =
      match Signal.run .dfl (evs.filterMap Ev.sig) with
      | .dfl => some .killed
      | .ours => some (.status 143)
      | .user _ => none := by
  rw [← (inv_life hp).disp]
  simp only [last, hp]
  cases (life env evs).disp <;> simp [finish, hp]

/-- A process that enables async mode, makes a logger, and has an event queued; its exit handler logs. -/
def sample : List Ev :=
  [.atexit [Sample.mk "late", .op (.begin 2 none [] [])], .enable true true, .item (.op (.newLogger 0 [0, 1] none)),
    .item (Sample.mk "a"), .item (.op (.begin 0 none [] []))]

example : ¬ C85_full := by
  intro h
  have h1 := h Sample.quiet sample (by decide +kernel) (by decide +kernel)
  rw [C85_violated (by decide +kernel) (by decide +kernel)] at h1
  cases h1

example : (queued (life Sample.quiet sample).world 0).length = 1 := by decide +kernel
example : queued (last Sample.quiet (life Sample.quiet sample) .sigterm).world 0 = [] :=
  (C84_flushed Sample.quiet_calm.quiet (by decide +kernel) ⟨true, true, by simp [sample]⟩ (fun _ => by decide +kernel)
    (L := _) (by decide +kernel) rfl (by
      intro its h it hit
      simp [sample] at h; subst h
      simp [Sample.mk] at hit
      rcases hit with rfl | rfl <;> exact ⟨by simp, trivial, trivial⟩)).1
/-- The event of the exit handler is delivered as well: it logs after `disable_async`, hence at once. -/
example : (last Sample.quiet (life Sample.quiet sample) (.exit 0)).world.trace.length = 4 := by decide +kernel
example : users (last Sample.quiet (life Sample.quiet sample) (.exit 3)).ran = [[Sample.mk "late", .op (.begin 2 none [] [])]] :=
  (C84_handlers_run (by decide +kernel) (by simp)).1
example : Enabled sample ∧ (life Sample.quiet sample).disp = .ours ∧
    (last Sample.quiet (life Sample.quiet sample) (.exit 0)).disp = .dfl :=
  ⟨⟨true, true, by simp [sample]⟩, by decide +kernel, by decide +kernel⟩
example : (life Sample.quiet (sample.take 1 ++ .enable true true :: [.sigterm])).disp = .ours :=
  C84_handler_installed (by decide +kernel) (by simp [sample]) (by simp [Ev.sig])

example : (last Sample.quiet (life Sample.quiet sample) .sigterm).disp = .dfl :=
  (C84_disposition (by decide +kernel) (fun _ => by decide +kernel) ⟨true, true, by simp [sample]⟩).trans
    (if_pos (by decide +kernel))

end Verif.Exit
