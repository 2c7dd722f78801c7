import Verif.Model.Wrap
import Verif.Props.Action
import Verif.Props.WithBlock
/-!
# C61: wrapped functions
-/
namespace Verif

section
variable {V : Type} {env : Env} {w : World} {l : LogId}

/-- The action the next wrapped call makes. -/
def wrapAct (w : World) : ActId := w.nextId
/-- The injected argument of the next wrapped call. -/
def wrapInj (c : WrapArgs) (w : World) : Option ActId := if c.inject then some (wrapAct w) else none
/-- The state in which the function's body starts: its action has been made and begun. -/
def wrapStart (env : Env) (l : LogId) (c : WrapArgs) (fname : String) (w : World) : World :=
  run env w [.op (.newAction l c.level (c.actionName fname) c.kw), .enter (wrapAct w)]
/-- The calls the function's body makes. -/
def wrapBody (env : Env) (l : LogId) (c : WrapArgs) (fname : String) (f : Func V) (w : World) : List Item :=
  items env (f.body (wrapInj c w) (wrapStart env l c fname w)) (wrapStart env l c fname w)

/-- The exception a call result is, if it is one. -/
def CallRes.exc? : CallRes V → Option Exc
  | .ok _ => none
  | .error e => some e

theorem wrap_new (hL : (w.logs l).isSome) (c : WrapArgs) (fname : String) :
    step env w (.newAction l c.level (c.actionName fname) c.kw) =
      ((newAction w l c.level (c.actionName fname) c.kw).1, .newAct (wrapAct w)) := by
  obtain ⟨L, hL⟩ := Option.isSome_iff_exists.1 hL
  simp [step, hL, newAction, wrapAct]

theorem wrapStart_eq (hL : (w.logs l).isSome) (hr : Reachable env w) (c : WrapArgs) (fname : String) :
    wrapStart env l c fname w = (enter env (newAction w l c.level (c.actionName fname) c.kw).1 (wrapAct w)).1 := by
  have h := wrap_new (env := env) hL c fname
  obtain ⟨x, hx⟩ := hr.isNew h
  have hh : (newAction w l c.level (c.actionName fname) c.kw).1.held (wrapAct w) = true :=
    held_iff.2 ⟨x, hx.acts, hx.handle⟩
  simp [wrapStart, run, stepItem, h, guard, hh, ret]

/-- What a wrapped call does when nothing foreign raises. -/
theorem callWrapped_calm (hc : env.Calm) (hL : (w.logs l).isSome) (hr : Reachable env w) (c : WrapArgs)
    (he : c.enable = true) (fname : String) (f : Func V) {r : World × CallRes V}
    (hf : callFunc env f (wrapInj c w) (wrapStart env l c fname w) = r) :
    callWrapped env l c fname f w = (stepItem env r.1 (.exit (wrapAct w) (CallRes.exc? r.2)),
      match r.2 with
      | .ok v => .ok v
      | .error e => if c.kw.get? "reraise" = some (.bool false) then .ok none else .error e) ∧
    r.1 = run env (wrapStart env l c fname w) (wrapBody env l c fname f w) := by
  have h := wrap_new (env := env) hL c fname
  obtain ⟨x, hx⟩ := hr.isNew h
  have hs := wrapStart_eq (env := env) hL hr c fname
  have hrs : Reachable env (wrapStart env l c fname w) := hr.run _
  have hent : (enter env (newAction w l c.level (c.actionName fname) c.kw).1 (wrapAct w)).2 = none := by
    simp only [enter]; split
    · rfl
    · exact begin_quiet hc.quiet ..
  have hrun : r.1 = run env (wrapStart env l c fname w) (wrapBody env l c fname f w) := by
    rw [wrapBody, run_items _ hrs.good, ← hf, callFunc]
    split <;> simp_all
  refine ⟨?_, hrun⟩
  -- the action at the end of the body
  have hrr : x.reraise = (c.kw.get? "reraise").getD .none := by
    have hx' := hx.acts
    simp only [newAction, wrapAct, setAct_acts] at hx'
    simp at hx'
    rw [← hx']
  obtain ⟨y, hy, hfy⟩ := hx.reach.good.fixed_run (.enter (wrapAct w) :: wrapBody env l c fname f w) hx.acts
  have hy' : r.1.acts (wrapAct w) = some y := by
    rw [hrun, ← hy]
    simp [wrapStart, run, stepItem, h]
  have hyr : y.reraise = x.reraise := by simp only [Act.fixed, Prod.mk.injEq] at hfy; exact hfy.2.2.2.1
  have hyh : r.1.held (wrapAct w) = true := held_iff.2 ⟨y, hy', (Act.fixed_handle hfy).trans hx.handle⟩
  have hp : ∀ exc, (exitPublish env r.1 (wrapAct w) exc).2 = none := fun exc => exitPublish_calm hc hy' exc
  have hex : ∀ exc, exit env r.1 (wrapAct w) exc =
      ((exit env r.1 (wrapAct w) exc).1, .ok (x.reraise = .bool false)) := by
    intro exc
    have := hp exc
    simp only [exit, hy']
    cases hq : exitPublish env r.1 (wrapAct w) exc with
    | mk w1 o => rw [hq] at this; dsimp only at this; subst this; simp [hyr]
  have hn2 : (newAction w l c.level (c.actionName fname) c.kw).2 = wrapAct w := rfl
  have hren : (x.reraise = .bool false) ↔ c.kw.get? "reraise" = some (.bool false) := by
    rw [hrr]; cases c.kw.get? "reraise" <;> simp
  simp only [callWrapped, he, if_true, hn2]
  cases hq : enter env (newAction w l c.level (c.actionName fname) c.kw).1 (wrapAct w) with
  | mk w1 o =>
    rw [hq] at hent hs; dsimp only at hent hs; subst hent hs
    dsimp only
    rw [show (if c.inject = true then some (wrapAct w) else none) = wrapInj c w from rfl, hf]
    cases r with
    | mk w2 res =>
      cases res with
      | ok v =>
        dsimp only at hex hyh ⊢
        rw [hex]
        simp [stepItem, hyh, CallRes.exc?]
      | error e =>
        dsimp only at hex hyh ⊢
        rw [hex]
        simp [stepItem, hyh, CallRes.exc?, hren]

/-- **C61, the result.**  Calling the decorated function gives exactly what the function itself gives when it is
called with the same arguments (and the action, if it is to be injected) in the state in which the action has
just begun: the same value, or the same exception; only with `reraise=False` is an exception replaced by the
value `None`.  Nothing else is assumed about the function: it may log, use other blocks, raise and catch. -/
theorem wrapped_same_result (hc : env.Calm) (hL : (w.logs l).isSome) (hr : Reachable env w) (c : WrapArgs)
    (he : c.enable = true) (fname : String) (f : Func V) :
    (callWrapped env l c fname f w).2 =
      match (callFunc env f (wrapInj c w) (wrapStart env l c fname w)).2 with
      | .ok v => .ok v
      | .error e => if c.kw.get? "reraise" = some (.bool false) then .ok none else .error e := by
  rw [(callWrapped_calm hc hL hr c he fname f rfl).1]

/-- **C61.**  A function that does not look at the logging state, which is to say that its outcome is a fixed
one, has that outcome when wrapped. -/
theorem wrapped_pure (hc : env.Calm) (hL : (w.logs l).isSome) (hr : Reachable env w) (c : WrapArgs)
    (fname : String) (f : Func V) (out : CallRes V)
    (hout : ∀ inj v, (callFunc env f inj v).2 = out)
    (hre : c.kw.get? "reraise" ≠ some (.bool false)) :
    (callWrapped env l c fname f w).2 = out := by
  by_cases he : c.enable = true
  · rw [wrapped_same_result hc hL hr c he, hout]
    cases out <;> simp [hre]
  · simp [callWrapped, he, hout]

/-- **C61.**  With `enable_wrap=False` the call is a call of the function, with no effect of its own; no
assumptions on sinks. -/
theorem wrapped_disabled (c : WrapArgs) (he : c.enable = false) (fname : String) (f : Func V) :
    callWrapped env l c fname f w = callFunc env f none w := by
  simp [callWrapped, he]

/-- **C61, the events.**  A call of the decorated function makes an action that did not exist before, named as
asked for, with exactly one begin event and exactly one end event published, whatever the function does other
than entering or leaving the block of the injected action itself; the end event says `exception` and carries
the exception if the function raised, else the last status the function set on its action, else `success`. -/
theorem wrapped_one_begin_one_end (hc : env.Calm) (hL : (w.logs l).isSome) (hr : Reachable env w)
    (c : WrapArgs) (he : c.enable = true) (fname : String) (f : Func V)
    (hin : ∀ it ∈ wrapBody env l c fname f w, it.inside (wrapAct w)) :
    w.acts (wrapAct w) = none ∧
    ((callWrapped env l c fname f w).1.acts (wrapAct w)).map (fun x => (x.logger, x.level, x.name)) =
      some (l, c.level, c.name.getD fname) ∧
    (∃ b, pubsOf (callWrapped env l c fname f w).1.pub .begin (wrapAct w) = [b]) ∧
    ∃ e, pubsOf (callWrapped env l c fname f w).1.pub .end_ (wrapAct w) = [e] ∧
      match (callFunc env f (wrapInj c w) (wrapStart env l c fname w)).2 with
      | .ok _ => e.status = (lastStatus (wrapAct w) (wrapBody env l c fname f w)).getD .success
      | .error exc => e.status = .exception ∧ e.excInfo = some exc := by
  have h := wrap_new (env := env) hL c fname
  obtain ⟨x, hx⟩ := hr.isNew h
  obtain ⟨h1, h2⟩ := callWrapped_calm hc hL hr c he fname f rfl
  obtain ⟨r, hrdef⟩ : ∃ r, r = callFunc env f (wrapInj c w) (wrapStart env l c fname w) := ⟨_, rfl⟩
  rw [← hrdef] at h1 h2 ⊢
  have hh : (newAction w l c.level (c.actionName fname) c.kw).1.held (wrapAct w) = true :=
    held_iff.2 ⟨x, hx.acts, hx.handle⟩
  have hst : (newAction w l c.level (c.actionName fname) c.kw).1.statusOf (wrapAct w) = some .begin := by
    simp [World.statusOf, hx.acts, Act.status, hx.endEv]
  have hrun : stepItem env r.1 (.exit (wrapAct w) (CallRes.exc? r.2)) =
      run env (newAction w l c.level (c.actionName fname) c.kw).1
        (.enter (wrapAct w) :: wrapBody env l c fname f w ++ [.exit (wrapAct w) (CallRes.exc? r.2)]) := by
    rw [h2, run_append]
    simp [wrapStart, run, stepItem, h]
  have hrx := hx.reach.run
    (.enter (wrapAct w) :: wrapBody env l c fname f w ++ [.exit (wrapAct w) (CallRes.exc? r.2)])
  obtain ⟨z, hz, hlife⟩ := life_run hc.noInfo hx.reach hx.acts hx.handle
    (.enter (wrapAct w) :: wrapBody env l c fname f w ++ [.exit (wrapAct w) (CallRes.exc? r.2)])
  obtain ⟨-, e, e1, e2, e3⟩ := with_block_one_end hc hx.reach hh hst (wrapBody env l c fname f w) hin
    (CallRes.exc? r.2)
  rw [h1]
  dsimp only
  rw [hrun]
  refine ⟨?_, ?_, ?_, e, e1, ?_⟩
  · exact hr.idInv.fresh
  · have hf := hlife.fixed
    have hx' := hx.acts
    simp only [newAction, wrapAct, setAct_acts] at hx'
    simp at hx'
    simp only [Act.fixed, Prod.mk.injEq] at hf
    rw [hz]
    simp [hf.1, hf.2.1, hf.2.2.1, ← hx', WrapArgs.actionName]
  · have ht : z.isTrans = true := hlife.trans.2 (.inr (by simp))
    have hb := hrx.transOK _ z hz ht
    obtain ⟨b, hb⟩ := Option.isSome_iff_exists.1 hb
    refine ⟨b, ?_⟩
    have := hrx.pubInv.begin _ z hz ((Act.fixed_handle hlife.fixed).trans hx.handle)
    rw [hb] at this
    exact this
  · cases hres : r.2 with
    | ok v => rw [hres] at e2; simpa [CallRes.exc?] using e2
    | error exc =>
      rw [hres] at e2 e3
      exact ⟨by simpa [CallRes.exc?] using e2, e3 rfl⟩

/-- **C61, the data.**  Each call's action starts from the keywords given to `wrap`, whatever earlier calls of
the same decorated function wrote, and its data changes only by what is written to this very action, in the
call or later: other calls, earlier, later or nested, do not share it. -/
theorem wrapped_own_data (hc : env.Calm) (hL : (w.logs l).isSome) (hr : Reachable env w)
    (c : WrapArgs) (he : c.enable = true) (fname : String) (f : Func V) (later : List Item) (k : String) :
    (run env (callWrapped env l c fname f w).1 later).dataOf (wrapAct w) k =
      (lastWrite k ((wrapBody env l c fname f w ++ later).flatMap (·.writesOn (wrapAct w)))).or
        (if k = "reraise" ∨ k = "parent_action" then none else c.kw.get? k) := by
  have h := wrap_new (env := env) hL c fname
  obtain ⟨h1, h2⟩ := callWrapped_calm hc hL hr c he fname f rfl
  obtain ⟨r, hrdef⟩ : ∃ r, r = callFunc env f (wrapInj c w) (wrapStart env l c fname w) := ⟨_, rfl⟩
  rw [← hrdef] at h1 h2
  have hrun : run env (callWrapped env l c fname f w).1 later =
      run env (newAction w l c.level (c.actionName fname) c.kw).1
        (.enter (wrapAct w) :: wrapBody env l c fname f w ++
          .exit (wrapAct w) (CallRes.exc? r.2) :: later) := by
    rw [h1, h2, run_append]
    simp [wrapStart, run, stepItem, h]
  rw [hrun, data_last_writer_partial hc hr h]
  congr 2
  simp [Item.writesOn]

/-- **C61.**  Two calls of a decorated function, the second in any state the first call can lead to, make
different actions. -/
theorem wrapped_calls_distinct (hc : env.Calm) (hL : (w.logs l).isSome) (hr : Reachable env w)
    (c : WrapArgs) (he : c.enable = true) (fname : String) (f : Func V) (later : List Item) :
    wrapAct (run env (callWrapped env l c fname f w).1 later) ≠ wrapAct w := by
  have h := wrap_new (env := env) hL c fname
  obtain ⟨x, hx⟩ := hr.isNew h
  obtain ⟨h1, h2⟩ := callWrapped_calm hc hL hr c he fname f rfl
  obtain ⟨r, hrdef⟩ : ∃ r, r = callFunc env f (wrapInj c w) (wrapStart env l c fname w) := ⟨_, rfl⟩
  rw [← hrdef] at h1 h2
  have hrun : run env (callWrapped env l c fname f w).1 later =
      run env (newAction w l c.level (c.actionName fname) c.kw).1
        (.enter (wrapAct w) :: wrapBody env l c fname f w ++
          .exit (wrapAct w) (CallRes.exc? r.2) :: later) := by
    rw [h1, h2, run_append]
    simp [wrapStart, run, stepItem, h]
  rw [hrun]
  obtain ⟨its, hits⟩ : ∃ its, its = Item.enter (wrapAct w) :: wrapBody env l c fname f w ++
    .exit (wrapAct w) (CallRes.exc? r.2) :: later := ⟨_, rfl⟩
  rw [← hits]
  obtain ⟨y, hy, -⟩ := hx.reach.good.fixed_run its hx.acts
  have hfresh := (hx.reach.run its).idInv.fresh
  intro heq
  have h3 : (run env (newAction w l c.level (c.actionName fname) c.kw).1 its).acts (wrapAct w) = none := by
    rw [← heq]; exact hfresh
  rw [hy] at h3
  cases h3

end

/-! Concrete cases: a function that logs to its injected action and to the logger, and then returns 7 or
raises. -/
namespace WrapSample
open Sample

/-- The function: it stores a value on the injected action, comments, and returns 7 or raises. -/
def fn (raises : Bool) : Func Nat where
  body inj _ :=
    match inj with
    | some a => .call (.setItem a "n" (.other 1)) fun _ _ =>
        .call (.comment 0 "working" [] []) fun _ _ => if raises then .raise boom else .done
    | none => if raises then .raise boom else .done
  value _ := some 7

/-- `@logger.wrap(20, inject_as="act", size=3)` -/
def args (kw : Dict := [("size", .other 3)]) : WrapArgs := { level := 20, inject := true, kw := kw }
/-- A process with one synchronous logger. -/
def start : World := run quiet World.init setup

theorem start_reachable : Reachable quiet start := ⟨_, rfl⟩

example : (callWrapped quiet 0 (args) "f" (fn false) start).2.toOption = some (some 7) := by
  rw [wrapped_same_result quiet_calm (by decide) start_reachable args rfl]; rfl
example : CallRes.exc? (callWrapped quiet 0 (args) "f" (fn true) start).2 = some boom := by
  rw [wrapped_same_result quiet_calm (by decide) start_reachable args rfl]; rfl
example : (callWrapped quiet 0 (args [("reraise", .bool false)]) "f" (fn true) start).2.toOption = some none := by
  rw [wrapped_same_result quiet_calm (by decide) start_reachable _ rfl]; rfl
example : ∀ it ∈ wrapBody quiet 0 args "f" (fn true) start, it.inside (wrapAct start) := by
  intro it hit
  simp only [wrapBody, fn, wrapInj, args, if_true, items, List.mem_cons, List.not_mem_nil, or_false] at hit
  rcases hit with rfl | rfl <;> trivial
example : (callWrapped quiet 0 args "f" (fn true) start).1.dataOf 0 "size" = some (.other 3) :=
  (wrapped_own_data quiet_calm (by decide) start_reachable args rfl "f" (fn true) [] "size").trans (by decide)
/-- A function whose outcome is fixed, as `wrapped_pure` asks for. -/
example : (callWrapped quiet 0 args "f" (⟨fun _ _ => .raise boom, fun _ => none⟩ : Func Nat) start).2 =
    .error boom :=
  wrapped_pure quiet_calm (by decide) start_reachable args "f" _ _ (fun _ _ => rfl) (by decide)

/-- Without the assumption on sinks the claim is false: a sink that raises turns a normal return into an
exception. -/
theorem wrapped_result_violated :
    CallRes.exc? (callWrapped (badSink 0 .end_) 0 (args) "f" (fn false)
      (run (badSink 0 .end_) World.init setup)).2 = some sinkErr ∧
    CallRes.exc? (callFunc (badSink 0 .end_) (fn false) none (run (badSink 0 .end_) World.init setup)).2 = none := by
  decide +kernel

end WrapSample
end Verif
