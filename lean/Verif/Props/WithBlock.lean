import Verif.Lemmas.Block
import Verif.Spec.Programs
import Verif.Spec.Samples
/-!
# C02, C03, C04, C05: with blocks
-/
namespace Verif
open scoped List

section
variable {env : Env} {w : World} {a : ActId}

/-- **C02.**  Whatever happens between entering and leaving the block of an action that has not ended (any
calls, on this action or others, other blocks, whether it is left normally or by an exception): no end event
of the action is published or delivered before the exit; the exit publishes exactly one; its status is
`exception` if the block was left by an exception, else that of the last explicit status call, else
`success`. -/
theorem with_block_one_end (hc : env.Calm) (hr : Reachable env w) (hh : w.held a = true)
    (hnew : w.statusOf a = some .begin) (body : List Item) (hin : ∀ it ∈ body, it.inside a)
    (exc : Option Exc) :
    (∀ pre, pre <+: body → pubsOf (run env w (.enter a :: pre)).pub .end_ a = [] ∧
      ∀ s, got s .end_ a (run env w (.enter a :: pre)).trace = []) ∧
    ∃ e, pubsOf (run env w (.enter a :: body ++ [.exit a exc])).pub .end_ a = [e] ∧
      e.status = (if exc.isSome then .exception else (lastStatus a body).getD .success) ∧
      (exc.isSome → e.excInfo = exc) := by
  obtain ⟨x, hx, hxh⟩ := held_iff.1 hh
  have hen : x.endEv = none := by
    cases he : x.endEv with
    | none => rfl
    | some ev =>
      simp only [World.statusOf, hx, Option.map_some, Act.status, he, Option.some.injEq] at hnew
      rcases (hr.evInv.endKind a x ev hx he).2.1 with h | h | h <;> rw [h] at hnew <;> cases hnew
  have h0 := hr.no_end hx hen
  obtain ⟨y, hy, hyh, hyd, hyp⟩ := enter_defer hr hx hxh
  have hr1 := hr.item (.enter a)
  have hpre : ∀ pre, (∀ it ∈ pre, it.inside a) → pubsOf (run env w (.enter a :: pre)).pub .end_ a = [] := by
    intro pre hp
    rw [run_cons]
    obtain ⟨z, _, _, hz⟩ := body_run hr1 hy hyh hyd pre hp
    rw [hz, hyp, h0]
  constructor
  · intro pre hp
    have h1 := hpre pre (fun it h => hin it (hp.subset h))
    refine ⟨h1, fun s => ?_⟩
    have h2 := (hr.run (.enter a :: pre)).got_le s (k := .end_) (by decide) a
    rw [h1] at h2
    exact List.length_eq_zero_iff.1 (Nat.le_zero.1 h2)
  · have hrb := hr.run (.enter a :: body)
    obtain ⟨z, hz, hlife⟩ := life_run hc.noInfo hr hx hxh (.enter a :: body)
    have hzh : z.handle = true := (Act.fixed_handle hlife.fixed).trans hxh
    have hheld : (run env w (.enter a :: body)).held a = true := held_iff.2 ⟨z, hz, hzh⟩
    obtain ⟨z', hz', _, hcalm⟩ := ends_exitPublish (env := env) hz (hrb.transOK a z hz)
      (fun e he => (hrb.evInv.act a z e hz (.inr (.inl he))).1) exc
    obtain ⟨e, e1, e2, e3, _, e5⟩ := hcalm hc
    obtain ⟨q1, q2⟩ := exit_acts_pub (env := env) hz exc
    have hrun : run env w (.enter a :: body ++ [.exit a exc]) =
        (exit env (run env w (.enter a :: body)) a exc).1 := by
      rw [run_append]
      simp [run, stepItem] at hheld ⊢
      intro h; rw [h] at hheld; cases hheld
    refine ⟨e, ?_, ?_, e3⟩
    · rw [hrun, q2, e5, hpre body hin]; rfl
    · obtain ⟨u, hu, hlu⟩ := life_run hc.noInfo hr hx hxh (.enter a :: body ++ [.exit a exc])
      have hs := hlu.status hc
      rw [hrun, q1, hz'] at hu
      cases hu
      simp only [List.cons_append, List.foldl_cons, List.foldl_append, List.foldl_nil] at hs
      have hx0 : x.status = .begin := by simp [Act.status, hen]
      rw [show Item.statusOn a (.enter a) x.status = .begin from hx0,
        foldl_lastStatus a body (fun it hi e' h => by have := hin it hi; rw [h] at this; exact this rfl)] at hs
      rw [Act.status, e1] at hs
      simp only at hs
      rw [hs]
      cases exc with
      | some e' => simp [Item.statusOn]
      | none =>
        cases hl : lastStatus a body with
        | none => simp [Item.statusOn]
        | some st =>
          have : st ≠ .begin := by rintro rfl; exact lastStatus_ne_begin a body hl
          simp [Item.statusOn, this]

/-- **C02.**  On a logger that is synchronous when the block is left, every registered sink with an `on_end`
receives that one end event, once, during the exit. -/
theorem with_block_delivered (hc : env.Calm) (hr : Reachable env w) (hh : w.held a = true)
    (hnew : w.statusOf a = some .begin) (body : List Item) (hin : ∀ it ∈ body, it.inside a)
    (exc : Option Exc) {x : Act} (hx : w.acts a = some x) {L : Log}
    (hL : (run env w (.enter a :: body)).logs x.logger = some L) (hs : L.async = false) (hq : L.queue = [])
    {s : SinkId} (hsink : s ∈ L.sinks) (hhook : env.hasHook s .end_ = true) :
    ∃ e, got s .end_ a (run env w (.enter a :: body ++ [.exit a exc])).trace = [e] ∧
      e.status = (if exc.isSome then .exception else (lastStatus a body).getD .success) := by
  obtain ⟨hbefore, e, he, hst, _⟩ := with_block_one_end hc hr hh hnew body hin exc
  refine ⟨e, ?_, hst⟩
  have hrb := hr.run (.enter a :: body)
  obtain ⟨hf, hsy⟩ := syncAt_item hc.quiet hrb.good ⟨L, hL, hs, hq, rfl⟩ (.exit a exc) trivial trivial
  have hreg := hrb.qInv.reg x.logger L hL
  obtain ⟨T, N, h1, h2, h3⟩ := (hf.toFlow hreg).flow
  obtain ⟨L', hL', -, hq', -⟩ := hsy
  have hrun : run env w (.enter a :: body ++ [.exit a exc]) =
      stepItem env (run env w (.enter a :: body)) (.exit a exc) := by rw [run_append]; rfl
  have hra := hr.run (.enter a :: body ++ [.exit a exc])
  rw [hrun] at he hra ⊢
  have hq1 : queued (stepItem env (run env w (.enter a :: body)) (.exit a exc)) x.logger = [] := by
    simp only [queued]
    rw [show (stepItem env (run env w (.enter a :: body)) (.exit a exc)).logs x.logger = some L' from hL']; exact hq'
  have hq0 : queued (run env w (.enter a :: body)) x.logger = [] := by simp [queued, hL, hq]
  have h3' : T = callsFor env L.sinks N := by simpa [hq1, hq0] using h3
  -- the events of `a` are events of its logger
  obtain ⟨y, hy, hyf⟩ := hr.good.fixed_run (.enter a :: body) hx
  obtain ⟨z, hz, hzf⟩ := hr.good.fixed_run (.enter a :: body ++ [.exit a exc]) hx
  rw [hrun] at hz
  have hlog : ∀ {v : World} {u : Act}, Reachable env v → v.acts a = some u → u.logger = x.logger →
      pubsOf (ofLogger x.logger v.pub) .end_ a = pubsOf v.pub .end_ a := by
    intro v u hv hu hul
    refine pubsOf_ofLogger (by decide) fun f hf hfa => ?_
    obtain ⟨_, _, u', hu', hul', _⟩ := hv.evInv.pub _ f hf
    rw [hfa] at hu'
    rw [show v.core.acts a = some u from hu] at hu'; cases hu'
    rw [hul', hul]
  have hfl : ∀ {u : Act}, u.fixed = x.fixed → u.logger = x.logger := by
    intro u hu; simp only [Act.fixed, Prod.mk.injEq] at hu; exact hu.1
  have hN : pubsOf N .end_ a = [e] := by
    have g1 := hlog hra hz (hfl hzf)
    have g0 := hlog hrb hy (hfl hyf)
    rw [show ofLogger x.logger (stepItem env (run env w (.enter a :: body)) (.exit a exc)).pub =
      ofLogger x.logger (run env w (.enter a :: body)).pub ++ N from h2, pubsOf_append, g0,
      (hbefore body (List.prefix_refl _)).1, he] at g1
    exact g1
  have hgotlog : ∀ {v : World} {u : Act}, Reachable env v → v.acts a = some u → u.logger = x.logger →
      got s .end_ a v.trace = pubsOf (received s (deliveries x.logger v.trace)) .end_ a := by
    intro v u hv hu hul
    rw [got_eq, ← ofLogger_received]
    refine (pubsOf_ofLogger (by decide) fun f hf hfa => ?_).symm
    obtain ⟨_, _, u', hu', hul', _⟩ := hv.evInv.pub _ f (hv.received_pub (by decide) hf)
    rw [hfa] at hu'
    rw [show v.core.acts a = some u from hu] at hu'; cases hu'
    rw [hul', hul]
  rw [hgotlog hra hz (hfl hzf), h1, received_append, pubsOf_append, ← hgotlog hrb hy (hfl hyf),
    (hbefore body (List.prefix_refl _)).2 s, h3', List.nil_append,
    received_callsFor hreg.nodup hsink]
  rw [← hN]
  simp only [pubsOf, List.filter_filter]
  congr 1
  refine List.filter_congr fun p _ => ?_
  by_cases hp : p.1 = .end_
  · simp [hp, hhook]
  · simp [hp]

/-- **C02**, for programs: the statement `with a: body`, whose body is any program that does not use `a`'s own
block, publishes exactly one end event of `a`, whose status is `exception` if the body raised, else that of the
last status call the body made on `a`, else `success`. -/
theorem with_statement_one_end (hc : env.Calm) (hr : Reachable env w) (hh : w.held a = true)
    (hnew : w.statusOf a = some .begin) (body : World → Prog)
    (hin : ∀ it ∈ items env (body (enter env w a).1) (enter env w a).1, it.inside a) :
    ∃ e, pubsOf (exec env (withStmt a body) w).1.pub .end_ a = [e] ∧
      e.status = (if (exec env (body (enter env w a).1) (enter env w a).1).2.isSome then .exception
        else (lastStatus a (items env (body (enter env w a).1) (enter env w a).1)).getD .success) := by
  obtain ⟨_, e, h1, h2, _⟩ := with_block_one_end hc hr hh hnew _ hin
    (exec env (body (enter env w a).1) (enter env w a).1).2
  refine ⟨e, ?_, h2⟩
  have hent : (enter env w a).2 = none := by
    simp only [enter]; split
    · rfl
    · exact begin_quiet hc.quiet ..
  rw [← h1, ← run_items _ hr.good]
  simp only [withStmt, items, hh, if_true, hent]
  congr 3
  split <;> simp [items, *]

/-- The exit of a block whose body raised never fails if note handlers do not raise and sinks and the
extraction of the exception's information raise `Exception`s only. -/
theorem exit_exc_ok (hn : env.NotesQuiet) (ho : env.Ordinary)
    (hoi : ∀ c x, env.excInfoErr c = some x → x.cls = .ordinary)
    (hot : ∀ c n b x, env.excText c n b = .error x → x.cls = .ordinary)
    {x : Act} (hx : w.acts a = some x) (e : Exc) :
    (exitPublish env w a (some e)).2 = none := by
  rw [exitPublish_exc hx]
  have key := exception_ordinary ho hoi hot (w.setAct a { x with defer := false }) a (some e) none [] []
  split
  · rfl
  · rename_i w1 err hr1
    rw [hr1] at key
    rw [key err rfl]
    simp only [noteAll_notesQuiet hn]

/-- **C04, what does hold (1).**  If the body of a with statement raises `e`, the statement raises the same
`e`, or ends normally if the action was made with `reraise=False`, whatever `Exception`s sinks raise while the
failure is recorded.  Missing: note handlers must not raise, and sinks must not raise things like
KeyboardInterrupt. -/
theorem with_exception_partial (hn : env.NotesQuiet) (ho : env.Ordinary)
    (hoi : ∀ c x, env.excInfoErr c = some x → x.cls = .ordinary)
    (hot : ∀ c n b x, env.excText c n b = .error x → x.cls = .ordinary)
    (hr : Reachable env w) (hh : w.held a = true) (body : World → Prog)
    (hent : (enter env w a).2 = none) {e : Exc}
    (hb : (exec env (body (enter env w a).1) (enter env w a).1).2 = some e) :
    (exec env (withStmt a body) w).2 =
      if (w.acts a).map (·.reraise) = some (.bool false) then none else some e := by
  obtain ⟨x, hx, _⟩ := held_iff.1 hh
  have he : stepItem env w (.enter a) = (enter env w a).1 := by simp [stepItem, guard, hh, ret]
  have hrun : run env w (.enter a :: items env (body (enter env w a).1) (enter env w a).1) =
      (exec env (body (enter env w a).1) (enter env w a).1).1 := by
    rw [run_cons, he, run_items]
    rw [← he]; exact (hr.item _).good
  obtain ⟨y, hy, hf⟩ := hr.good.fixed_run
    (.enter a :: items env (body (enter env w a).1) (enter env w a).1) hx
  rw [hrun] at hy
  have hre : y.reraise = x.reraise := by simp only [Act.fixed, Prod.mk.injEq] at hf; exact hf.2.2.2.1
  have hp := exit_exc_ok hn ho hoi hot hy e
  simp only [withStmt, exec, hh, if_true, hent, hb, exit, hy, hx, Option.map_some, Option.some.injEq]
  cases hq : exitPublish env (exec env (body (enter env w a).1) (enter env w a).1).1 a (some e) with
  | mk w1 r =>
    rw [hq] at hp; dsimp only at hp; subst hp
    simp only [withOutcome, hre]
    by_cases hrr : x.reraise = .bool false <;> simp [hrr, exec]

/-- **C04, what does hold (2).**  If the body ends normally and no sink raises, or the logger is asynchronous,
the with statement ends normally.  Missing: a sink that raises on a synchronous logger. -/
theorem with_normal_partial (hr : Reachable env w) (hh : w.held a = true) (body : World → Prog)
    (hb : (exec env (body (enter env w a).1) (enter env w a).1).2 = none)
    (hent : (enter env w a).2 = none)
    (hcase : env.Quiet ∨ ∀ x, w.acts a = some x → ∃ L,
      (exec env (body (enter env w a).1) (enter env w a).1).1.logs x.logger = some L ∧ L.async = true) :
    (exec env (withStmt a body) w).2 = none := by
  obtain ⟨x, hx, hxh⟩ := held_iff.1 hh
  have he : stepItem env w (.enter a) = (enter env w a).1 := by simp [stepItem, guard, hh, ret]
  have hrun : run env w (.enter a :: items env (body (enter env w a).1) (enter env w a).1) =
      (exec env (body (enter env w a).1) (enter env w a).1).1 := by
    rw [run_cons, he, run_items]
    rw [← he]; exact (hr.item _).good
  have hrb := hr.run (.enter a :: items env (body (enter env w a).1) (enter env w a).1)
  obtain ⟨y, hy, hf⟩ := hr.good.fixed_run
    (.enter a :: items env (body (enter env w a).1) (enter env w a).1) hx
  rw [hrun] at hy hrb
  have hl : y.logger = x.logger := by simp only [Act.fixed, Prod.mk.injEq] at hf; exact hf.1
  have hpub : ∀ (v : World) (k : Kind) (ev : Event),
      v.logs = (exec env (body (enter env w a).1) (enter env w a).1).1.logs →
      (publish env v y.logger k ev).2 = none := by
    intro v k ev hv
    rcases hcase with hq | h
    · exact publish_quiet hq ..
    · obtain ⟨L, hL, ha⟩ := h x hx
      exact publish_async_none (by rw [hv, hl]; exact hL) ha k ev
  have hp : (exitPublish env (exec env (body (enter env w a).1) (enter env w a).1).1 a none).2 = none := by
    by_cases hen : y.endEv = none
    · rw [exitPublish_open hy hen]
      obtain ⟨y', hy', ht⟩ := trans_run hr hx hxh
        (.enter a :: items env (body (enter env w a).1) (enter env w a).1) (.inr (by simp))
      rw [hrun, hy] at hy'; cases hy'
      exact success_pub_none (x := { y with defer := false }) (by simp) ht
        (fun v k ev hv => hpub v k ev (by rw [hv]; rfl)) ..
    · obtain ⟨ev, hev⟩ := Option.ne_none_iff_exists'.1 hen
      rw [exitPublish_ended hy hev]
      exact hpub _ _ _ rfl
  simp only [withStmt, exec, hh, if_true, hent, hb, exit, hy]
  cases hq : exitPublish env (exec env (body (enter env w a).1) (enter env w a).1).1 a none with
  | mk w1 r =>
    rw [hq] at hp; dsimp only at hp; subst hp
    simp [withOutcome, exec]

/-- **C04 is false of the code (1)**: a body that ends normally can turn into an exception, raised by a
sink. -/
theorem with_normal_violated :
    ¬ ∀ (env : Env) (w : World) (a : ActId) (body : World → Prog), Reachable env w → w.held a = true →
      (enter env w a).2 = none → (exec env (body (enter env w a).1) (enter env w a).1).2 = none →
      (exec env (withStmt a body) w).2 = none := by
  intro h
  have := h (Sample.badSink 0 .end_) (run (Sample.badSink 0 .end_) World.init (Sample.setup ++ [Sample.mk "a"])) 0
    (fun _ => .done) ⟨_, rfl⟩ (by decide) (by decide) (by decide)
  revert this; decide +kernel

/-- **C04 is false of the code (2)**: the body's exception can be replaced by one raised by a note handler
while lithoxyl reports that a sink failed. -/
theorem with_exception_violated :
    ¬ ∀ (env : Env) (w : World) (a : ActId) (body : World → Prog) (e : Exc), Reachable env w →
      w.held a = true → (enter env w a).2 = none →
      (exec env (body (enter env w a).1) (enter env w a).1).2 = some e →
      (exec env (withStmt a body) w).2 = none ∨ (exec env (withStmt a body) w).2 = some e := by
  intro h
  have := h Sample.badEndAndNote (run Sample.badEndAndNote World.init
      (Sample.setup ++ [.op (.addNoteHandler 7), Sample.mk "a"])) 0
    (fun _ => .raise Sample.boom) Sample.boom ⟨_, rfl⟩ (by decide) (by decide) (by decide)
  revert this; decide +kernel

/-- **C03 is false of the code**: if a sink's `on_exception` raises, an exception that leaves a with block is
not recorded: the action keeps the status `begin` and no sink's `on_end` is called. -/
theorem exception_recorded_violated :
    ¬ ∀ (env : Env) (w : World) (a : ActId) (e : Exc), Reachable env w → w.held a = true →
      (run env w [.enter a, .exit a (some e)]).statusOf a = some .exception ∧
      ∀ s, env.hasHook s .end_ = true → got s .end_ a (run env w [.enter a, .exit a (some e)]).trace ≠ [] := by
  intro h
  have := h (Sample.badSink 0 .exception)
    (run (Sample.badSink 0 .exception) World.init (Sample.setup ++ [Sample.mk "a"])) 0 Sample.boom ⟨_, rfl⟩
    (by decide)
  revert this
  intro h
  exact absurd h.1 (by decide)

/-- **C03, what does hold.**  If `on_exception` sinks do not raise and the exception can be described, then
leaving an entered block by an exception gives the action the status `exception` and publishes its end event
with the exception attached, whatever all other sinks, `on_end` included, and note handlers do.  Missing:
`on_exception` sinks that raise. -/
theorem exception_recorded_partial
    (hex : ∀ t s e, env.raises t (.hook s .exception e) = none)
    (hinfo : ∀ e, env.excInfoErr (some e) = none) (htext : ∀ c n b, ∃ m, env.excText c n b = .ok m)
    (hno : env.NeedsExc) (hr : Reachable env w) (hh : w.held a = true) (its : List Item)
    (hent : Item.enter a ∈ its) (e : Exc) :
    (run env w (its ++ [.exit a (some e)])).statusOf a = some .exception ∧
    ∃ ev, ev.status = .exception ∧ ev.excInfo = some e ∧
      pubsOf (run env w (its ++ [.exit a (some e)])).pub .end_ a = pubsOf (run env w its).pub .end_ a ++ [ev] := by
  obtain ⟨x0, hx0, hxh0⟩ := held_iff.1 hh
  obtain ⟨x, hx, hlife⟩ := life_run hno hr hx0 hxh0 its
  have hxh : x.handle = true := (Act.fixed_handle hlife.fixed).trans hxh0
  have hheld : (run env w its).held a = true := held_iff.2 ⟨x, hx, hxh⟩
  have ht : x.isTrans = true := hlife.trans.2 (.inr hent)
  have hrun : run env w (its ++ [.exit a (some e)]) = (exit env (run env w its) a (some e)).1 := by
    rw [run_append, show run env (run env w its) [.exit a (some e)] =
      stepItem env (run env w its) (.exit a (some e)) from rfl]
    simp [stepItem, hheld]
  obtain ⟨q1, q2⟩ := exit_acts_pub (env := env) hx (some e)
  have hbs := (hr.run its).transOK a x hx ht
  obtain ⟨z, ev, h1, h2, h3, h4, h5⟩ := exception_records (w := (run env w its).setAct a { x with defer := false })
    (a := a) (x := { x with defer := false }) hex hinfo htext (by simp) ht hbs rfl e
  have hx2 : ∃ z, (exitPublish env (run env w its) a (some e)).1.acts a = some z ∧ z.endEv = some ev ∧
      pubsOf (exitPublish env (run env w its) a (some e)).1.pub .end_ a =
        pubsOf (run env w its).pub .end_ a ++ [ev] := by
    rw [exitPublish_exc hx]
    split
    · rename_i w1 hr1; rw [hr1] at h1 h5; exact ⟨z, h1, h2, h5⟩
    · rename_i w1 err hr1
      rw [hr1] at h1 h5
      split
      · exact ⟨z, by rw [noteAll_acts]; exact h1, h2, by rw [noteAll_pub]; exact h5⟩
      · exact ⟨z, h1, h2, h5⟩
  obtain ⟨z, k1, k2, k3⟩ := hx2
  refine ⟨?_, ev, h3, h4, ?_⟩
  · rw [hrun]; simp [World.statusOf, q1, k1, Act.status, k2, h3]
  · rw [hrun, q2]; exact k3

/-- **C05 is false of the code (1)**: for an action made before another block was entered, leaving its block
makes the parent it had at construction active, not the enclosing block's action. -/
theorem active_restored_violated :
    ¬ ∀ (env : Env) (w : World) (a : ActId) (body : World → Prog), env.Calm → Reachable env w →
      w.held a = true → (∀ w, body w = .done) → (exec env (withStmt a body) w).1.active = w.active := by
  intro h
  have := h Sample.quiet (run Sample.quiet World.init
    (Sample.setup ++ [Sample.mk "pre", Sample.mk "outer", .enter 1])) 0 (fun _ => .done)
    Sample.quiet_calm ⟨_, rfl⟩ (by decide) (fun _ => rfl)
  have := congrFun this 0
  revert this; decide +kernel

/-- **C05 is false of the code (2)**: the same happens to an action made inside a block with an explicit
`parent_action`. -/
theorem active_restored_parent_violated :
    (exec Sample.quiet (withStmt 3 fun _ => .done) (run Sample.quiet World.init
      (Sample.setup ++ [Sample.mk "p", Sample.mk "outer", .enter 1,
        Sample.mk "inner" [("parent_action", .act 0)]]))).1.active 0 ≠
    (run Sample.quiet World.init
      (Sample.setup ++ [Sample.mk "p", Sample.mk "outer", .enter 1,
        Sample.mk "inner" [("parent_action", .act 0)]])).active 0 := by decide +kernel

/-- **C05 is false of the code (3)**: if a sink's `on_begin` raises while the block is entered, or its `on_end`
while it is left normally, the action stays the active parent for good. -/
theorem active_restored_failure_violated :
    (exec (Sample.badSink 0 .begin) (withStmt 0 fun _ => .done)
      (run (Sample.badSink 0 .begin) World.init (Sample.setup ++ [Sample.mk "a"]))).1.active 0 = some 0 ∧
    (exec (Sample.badSink 0 .end_) (withStmt 0 fun _ => .done)
      (run (Sample.badSink 0 .end_) World.init (Sample.setup ++ [Sample.mk "a"]))).1.active 0 = some 0 := by
  decide +kernel

/-- **C05, what does hold.**  In a program that makes its actions in the with statement itself and gives them
no explicit parent, everything leaves the active parent of every logger as it found it, however blocks are
nested, whatever is raised and caught; sinks do not raise.  Missing: actions made elsewhere, explicit parents,
raising sinks. -/
theorem active_restored_partial (hc : env.Calm) {p : Prog} (hp : Idiomatic p) (hr : Reachable env w) :
    (exec env p w).1.active = w.active := by
  induction hp generalizing w with
  | done => rfl
  | raise e => rfl
  | call o k _ ih =>
    simp only [exec]
    rw [ih _ _ (hr.step o), step_active]
  | withNew l lv nm kw body k nl hkw _ _ _ ihb ihk ihn =>
    simp only [withNew, exec]
    cases hres : step env w (.newAction l lv nm kw) with
    | mk w0 r =>
      have hw0 : w0.active = w.active := by
        rw [show w0 = (step env w (.newAction l lv nm kw)).1 by rw [hres], step_active]
      have hr0 : Reachable env w0 := by
        rw [show w0 = (step env w (.newAction l lv nm kw)).1 by rw [hres]]; exact hr.step _
      cases r with
      | ok => rw [ihn _ hr0, hw0]
      | exc e => rw [ihn _ hr0, hw0]
      | newAct a =>
        obtain ⟨x, hx⟩ := hr.isNew hres
        have hpar : x.parent = w.active l := by rw [hx.parent]; simp [initParent, hkw, asParent]
        have hh : w0.held a = true := held_iff.2 ⟨x, hx.acts, hx.handle⟩
        have hent : (enter env w0 a).2 = none := by
          simp only [enter]; split
          · rfl
          · exact begin_quiet hc.quiet ..
        have he : stepItem env w0 (.enter a) = (enter env w0 a).1 := by simp [stepItem, guard, hh, ret]
        have hre : Reachable env (enter env w0 a).1 := by rw [← he]; exact hr0.item _
        have hrb := hre.exec (body a (enter env w0 a).1)
        have hba := ihb a (enter env w0 a).1 hre
        have hrun : run env w0 (.enter a :: items env (body a (enter env w0 a).1) (enter env w0 a).1) =
            (exec env (body a (enter env w0 a).1) (enter env w0 a).1).1 := by
          rw [run_cons, he, run_items _ hre.good]
        obtain ⟨y, hy, hf⟩ := hr0.good.fixed_run
          (.enter a :: items env (body a (enter env w0 a).1) (enter env w0 a).1) hx.acts
        rw [hrun] at hy
        simp only [Act.fixed, Prod.mk.injEq] at hf
        simp only [exec, hh, if_true, hent]
        generalize hb : exec env (body a (enter env w0 a).1) (enter env w0 a).1 = b at *
        have hbh : b.1.held a = true := held_iff.2 ⟨y, hy, hf.2.2.2.2.2.trans hx.handle⟩
        have hrx : Reachable env (exit env b.1 a b.2).1 := by
          have := hrb.item (.exit a b.2)
          simpa [stepItem, hbh] using this
        rw [ihk a _ _ hrx]
        have hpn : (exitPublish env b.1 a b.2).2 = none := exitPublish_calm hc hy _
        have hact : (exit env b.1 a b.2).1.active = (b.1.setActive l (w.active l)).active := by
          simp only [exit, hy]
          cases hq : exitPublish env b.1 a b.2 with
          | mk w1 r =>
            rw [hq] at hpn; dsimp only at hpn; subst hpn
            have hk := keep_exitPublish (env := env) (w := b.1) a b.2
            rw [hq] at hk
            have hka : w1.active = b.1.active := hk.active
            simp only [World.setActive, hka, hf.1, hx.logger, hf.2.2.2.2.1, hpar]
        rw [hact]
        have hen : (enter env w0 a).1.active = (w0.setActive l (some a)).active := by
          simp only [enter, hx.acts]
          rw [(keep_begin (env := env) ..).active]
          simp [World.setActive, hx.logger]
        funext l'
        simp only [World.setActive, hba, hen, hw0]
        by_cases hl : l' = l <;> simp [hl]

/-- **C05.**  Inside the block the action is the active parent; an action made without an explicit parent gets
the active one, if there is one. -/
theorem block_is_parent (hr : Reachable env w) (hh : w.held a = true) {x : Act}
    (hx : w.acts a = some x) :
    (stepItem env w (.enter a)).active x.logger = some a ∧
    ∀ lv nm kw, kw.get? "parent_action" = none → ∀ w0 b,
      step env (stepItem env w (.enter a)) (.newAction x.logger lv nm kw) = (w0, .newAct b) →
      (w0.acts b).map (·.parent) = some (some a) := by
  have h1 : (stepItem env w (.enter a)).active x.logger = some a := by
    simp only [stepItem, guard_held hh, enter, hx]
    rw [(keep_begin (env := env) ..).active]
    simp [World.setActive]
  refine ⟨h1, ?_⟩
  intro lv nm kw hkw w0 b hs
  obtain ⟨y, hy⟩ := (hr.item (.enter a)).isNew hs
  rw [hy.acts, Option.map_some, hy.parent]
  simp [initParent, hkw, asParent, h1]

end

/-! ## The hypotheses can be met -/
namespace Sample

/-- One logger, one action just made. -/
def one (env : Env) : World := run env World.init (setup ++ [mk "a" [("reraise", .bool false)]])
theorem one_reachable (env : Env) : Reachable env (one env) := ⟨_, rfl⟩

/-- A body: a warning, a failure, a nested block on another action, a success. -/
def body : List Item :=
  [.op (.warn 0 "w" [] []), .op (.failure 0 none [] []), mk "b", .enter 4, .exit 4 none, .op (.success 0 none [] [])]

example : ∃ e, pubsOf (run quiet (one quiet) (.enter 0 :: body ++ [.exit 0 none])).pub .end_ 0 = [e] ∧
    e.status = .success := by
  obtain ⟨_, e, h1, h2, _⟩ := with_block_one_end quiet_calm (one_reachable quiet) (a := 0) (by decide) (by decide)
    body (by simp [body, mk, Item.inside]) none
  exact ⟨e, h1, h2⟩
example : (run quiet (one quiet) (.enter 0 :: body ++ [.exit 0 none])).statusOf 4 = some .success := by
  decide +kernel
example : ∃ e, got 1 .end_ 0 (run quiet (one quiet) (.enter 0 :: body ++ [.exit 0 (some boom)])).trace = [e] ∧
    e.status = .exception :=
  with_block_delivered quiet_calm (one_reachable quiet) (a := 0) (by decide) (by decide) body
    (by simp [body, mk, Item.inside]) (some boom) (x := _) rfl (L := ⟨[0, 1], _, false, [], _, _⟩) rfl rfl rfl
    (by decide) rfl

/-- A body that warns, and raises. -/
def raising : World → Prog := fun _ => .call (.warn 0 "w" [] []) fun _ _ => .raise boom

example : ∃ e, pubsOf (exec quiet (withStmt 0 raising) (one quiet)).1.pub .end_ 0 = [e] ∧
    e.status = .exception :=
  with_statement_one_end quiet_calm (one_reachable quiet) (a := 0) (by decide) (by decide) raising
    (by simp [raising, items, Item.inside])

/-- With `reraise=False` the statement ends normally, although a sink fails on the end event. -/
example : (exec (badSink 0 .end_) (withStmt 0 raising) (one (badSink 0 .end_))).2 = none :=
  (with_exception_partial (env := badSink 0 .end_) (fun _ _ _ => rfl)
    (by
      intro t o x h
      simp only [badSink] at h
      split at h
      · split at h <;> cases h; rfl
      · cases h)
    (by intro c x h; cases c <;> simp [badSink, quiet] at h; subst h; rfl)
    (by intro c n b x h; simp [badSink, quiet] at h)
    (one_reachable _) (a := 0) (by decide) raising (by decide +kernel) (e := boom)
    (by simp [raising, exec])).trans (by decide)
example : (exec quiet (withStmt 0 fun _ => .done) (one quiet)).2 = none :=
  with_normal_partial (one_reachable quiet) (a := 0) (by decide) _ rfl (by decide +kernel) (.inl quiet_calm.quiet)
/-- On an asynchronous logger a raising sink does no harm. -/
example : (exec (badSink 0 .end_) (withStmt 0 fun _ => .done)
    (run (badSink 0 .end_) World.init (setupAsync ++ [mk "a"]))).2 = none :=
  with_normal_partial ⟨_, rfl⟩ (a := 0) (by decide) _ rfl rfl
    (.inr fun x hx => by cases hx; exact ⟨_, rfl, rfl⟩)

example : (run (badSink 0 .end_) (one (badSink 0 .end_)) ([.enter 0] ++ [.exit 0 (some boom)])).statusOf 0 =
    some .exception :=
  (exception_recorded_partial (env := badSink 0 .end_)
    (by intro t s e; simp [badSink])
    (by intro e; rfl) (by intro c n b; exact ⟨_, rfl⟩) quiet_needs (one_reachable _) (a := 0) (by decide)
    [.enter 0] (by simp) boom).1

/-- Two nested with statements; the inner body raises; the exception is caught between them. -/
def nested : Prog :=
  withNew 0 20 "outer" [] (fun _ _ =>
      withNew 0 20 "inner" [("k", .none)] (fun _ _ => .raise boom) (fun _ _ _ => .done) (fun _ => .done))
    (fun _ _ _ => .done) (fun _ => .done)

theorem nested_idiomatic : Idiomatic nested :=
  .withNew _ _ _ _ _ _ _ (by decide)
    (fun _ _ => .withNew _ _ _ _ _ _ _ (by decide) (fun _ _ => .raise _) (fun _ _ _ => .done) (fun _ => .done))
    (fun _ _ _ => .done) (fun _ => .done)

/-- Run inside a block of action 0. -/
example : (exec quiet nested (run quiet (one quiet) [.enter 0])).1.active = (run quiet (one quiet) [.enter 0]).active :=
  active_restored_partial quiet_calm nested_idiomatic ((one_reachable quiet).run _)
example : (run quiet (one quiet) [.enter 0]).active 0 = some 0 := by decide +kernel
example : (stepItem quiet (one quiet) (.enter 0)).active 0 = some 0 :=
  (block_is_parent (one_reachable quiet) (a := 0) (by decide) (x := _) rfl).1

end Sample
end Verif
