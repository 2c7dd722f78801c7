import Verif.Model.Elapsed
import Verif.Props.Action
import Verif.Spec.Samples
/-!
# C118: the elapsed time of an action

`act.get_elapsed_time()` is the time since the action began, 0 if it has not.  The specification below says in
terms of the calls made which call that was; it does not look at events.
-/
namespace Verif

/-- The call certainly begins `a` if it has not begun: `begin`, `success`, `failure` and entering the block. -/
def Item.begins (a : ActId) : Item → Bool
  | .op (.begin b ..) | .op (.success b ..) | .op (.failure b ..) | .enter b => b = a
  | _ => false

/-- The call may begin `a`: those, and `exception` and leaving the block, which also end it but may fail
before. -/
def Item.mayBegin (a : ActId) : Item → Bool
  | .op (.begin b ..) | .op (.success b ..) | .op (.failure b ..) | .op (.exception b ..) | .enter b
  | .exit b _ => b = a
  | _ => false

/-- What `act.get_elapsed_time()` returns if called now. -/
def World.elapsed (env : Env) (w : World) (a : ActId) : Int := (getElapsedTime env w a).2

section
variable {env : Env} {w w0 : World} {l : LogId} {lv : Int} {nm : String} {kw : Dict} {a : ActId}

/-- Calls that do not begin `a` leave it unbegun. -/
theorem unbegun_keep {x : Act} (hx : w.acts a = some x)
    (hh : x.handle = true) (hf : w.acts w.nextId = none) (it : Item) (hit : it.mayBegin a = false) :
    ∃ y, (stepItem env w it).acts a = some y ∧ y.beginEv = x.beginEv := by
  have hheld : w.held a = true := held_iff.2 ⟨x, hx, hh⟩
  by_cases ht : it.target = some a
  · cases it with
    | enter b => simp only [Item.target, Option.some.injEq] at ht; subst ht; simp [Item.mayBegin] at hit
    | exit b e => simp only [Item.target, Option.some.injEq] at ht; subst ht; simp [Item.mayBegin] at hit
    | op o =>
      cases o <;> simp only [Item.target, Option.some.injEq, reduceCtorEq] at ht <;> subst ht <;>
        simp [Item.mayBegin] at hit
      case warn m f kw =>
        simp only [stepItem, step, guard_held hheld]
        obtain ⟨e, _, _, _, _, _, _, h, _⟩ := warn_spec (env := env) hx m f kw
        exact ⟨{ x with data := x.data.update kw, warnEvs := x.warnEvs ++ [e] }, by rw [h, updAct_same], rfl⟩
      case setItem k v =>
        refine ⟨{ x with data := x.data.set k v }, ?_, rfl⟩
        simp [stepItem, step, guard_held hheld, setItem, hx]
  · exact ⟨x, (rec_other hx hf it ht).1, rfl⟩

theorem unbegun_run (hno : env.NeedsExc) {x : Act} (hr : Reachable env w) (hx : w.acts a = some x)
    (hh : x.handle = true) (hb : x.beginEv = none) (its : List Item) (hpre : ∀ it ∈ its, it.mayBegin a = false) :
    ∃ y, (run env w its).acts a = some y ∧ y.beginEv = none := by
  induction its generalizing w x with
  | nil => exact ⟨x, hx, hb⟩
  | cons it its ih =>
    obtain ⟨y, hy, hyb⟩ := unbegun_keep (env := env) hx hh hr.idInv.fresh it (hpre it (by simp))
    obtain ⟨z, hz, h1⟩ := life_item hno hr hx hh it
    rw [hy] at hz; cases hz
    exact ih (hr.item it) hy ((Act.fixed_handle h1.fixed).trans hh) (hyb.trans hb)
      fun i hi => hpre i (by simp [hi])

/-- **C118.**  The call changes nothing: not the actions, the loggers, the active actions, or anything a sink
was or will be given; the clock may have been read once more. -/
theorem C118_no_effect :
    ∃ n ≤ 1, (getElapsedTime env w a).1 = { w with ticks := w.ticks + n } := by
  unfold getElapsedTime
  split
  · exact ⟨1, Nat.le_refl _, rfl⟩
  · exact ⟨0, by omega, rfl⟩

/-- **C118.**  Until a call begins the action the elapsed time is 0, whatever else happens. -/
theorem C118_unbegun (hno : env.NeedsExc) (hr : Reachable env w)
    (hnew : step env w (.newAction l lv nm kw) = (w0, .newAct a)) (its : List Item)
    (hpre : ∀ it ∈ its, it.mayBegin a = false) : (run env w0 its).elapsed env a = 0 := by
  obtain ⟨x, hx⟩ := hr.isNew hnew
  obtain ⟨y, hy, hb⟩ := unbegun_run hno hx.reach hx.acts hx.handle hx.beginEv its hpre
  simp [World.elapsed, getElapsedTime, hy, hb]

/-- The begin event made by the first call that begins the action carries the time of that call. -/
theorem begun_at {x : Act} (hx : w.acts a = some x) (hh : x.handle = true) (hb : x.beginEv = none)
    (ht : x.isTrans = false) (it : Item) (hit : it.begins a = true) :
    ∃ y b, (stepItem env w it).acts a = some y ∧ y.beginEv = some b ∧ b.etime = w.now env := by
  have hheld : w.held a = true := held_iff.2 ⟨x, hx, hh⟩
  have hbeg : ∀ (w' : World) (x' : Act) (m : Option String) (f : List Val) (kw : Dict), w'.acts a = some x' →
      x'.beginEv = none → w'.ticks = w.ticks →
      ∃ y b, (begin_ env w' a m f kw).1.acts a = some y ∧ y.beginEv = some b ∧ b.etime = w.now env := by
    intro w' x' m f kw hx' h1 h2
    rcases begin_spec (env := env) hx' m f kw with ⟨b, hb, h⟩ | ⟨hb, b, _, _, _, h4, _, _, h, _⟩
    · rw [h1] at hb; cases hb
    · exact ⟨{ x' with data := x'.data.update kw, beginEv := some b }, b, by rw [h]; simp, rfl,
        by rw [h4, World.now, World.now, h2]⟩
  have hend : ∀ (st : Status) (m : String) (f : List Val) (kw : Dict),
      ∃ y b, (end_ env w a st m f kw none none).1.acts a = some y ∧ y.beginEv = some b ∧
        b.etime = w.now env := by
    intro st m f kw
    rcases end_spec (env := env) hx (by simp [ht]) st m f kw none none with ⟨b, e, h⟩ | ⟨b, y, h, _⟩
    · refine ⟨_, b, by rw [h.acts, updAct_same], rfl, ?_⟩
      rcases h.begun with h' | ⟨_, _, h', _⟩
      · rw [hb] at h'; cases h'
      · exact h'
    · exact ⟨_, b, by rw [h.acts, updAct_same], rfl, h.btime⟩
  cases it with
  | exit b e => simp [Item.begins] at hit
  | enter b =>
    simp only [Item.begins, decide_eq_true_eq] at hit; subst hit
    simp only [stepItem, guard_held hheld, enter, hx]
    exact hbeg _ { x with isTrans := true, defer := true } _ _ _ (by simp [World.setActive]) hb rfl
  | op o =>
    cases o <;> simp [Item.begins] at hit <;> subst hit <;>
      simp only [stepItem, step, guard_held hheld, success, failure, hx]
    · exact hbeg w x _ _ _ hx hb rfl
    · exact hend ..
    · exact hend ..

/-- **C118.**  After any history in which `it` was the first call to begin the action, the elapsed time is the
time from that call to now: no later call, whether another `begin`, a status call or the end of the block, starts
it again or stops it. -/
theorem C118_since (hno : env.NeedsExc) (hr : Reachable env w)
    (hnew : step env w (.newAction l lv nm kw) = (w0, .newAct a)) (pre : List Item) (it : Item) (post : List Item)
    (hpre : ∀ i ∈ pre, i.mayBegin a = false) (hit : it.begins a = true) :
    (run env w0 (pre ++ it :: post)).elapsed env a =
      env.clock (run env w0 (pre ++ it :: post)).ticks - env.clock (run env w0 pre).ticks := by
  obtain ⟨x, hx⟩ := hr.isNew hnew
  obtain ⟨y, hy, hb⟩ := unbegun_run hno hx.reach hx.acts hx.handle hx.beginEv pre hpre
  obtain ⟨y', hy', h1⟩ := life_run hno hx.reach hx.acts hx.handle pre
  rw [hy] at hy'; cases hy'
  have hyh := (Act.fixed_handle h1.fixed).trans hx.handle
  have hyt : y.isTrans = false := by
    cases hyt : y.isTrans with
    | false => rfl
    | true =>
      rcases h1.trans.1 hyt with h' | h'
      · rw [hx.isTrans] at h'; cases h'
      · have := hpre _ h'; simp [Item.mayBegin] at this
  have hr1 : Reachable env (run env w0 pre) := hx.reach.run pre
  obtain ⟨z, b, hz, hzb, hbt⟩ := begun_at (env := env) hy hyh hb hyt it hit
  obtain ⟨z', hz', h2⟩ := life_item hno hr1 hy hyh it
  rw [hz] at hz'; cases hz'
  obtain ⟨u, hu, h3⟩ := life_run hno (hr1.item it) hz ((Act.fixed_handle h2.fixed).trans hyh) post
  have hrun : run env w0 (pre ++ it :: post) = run env (stepItem env (run env w0 pre) it) post := by
    rw [run_append]; rfl
  rw [hrun]
  simp only [World.elapsed, getElapsedTime, hu, Option.bind_some, h3.beginKeep b hzb, hbt, World.now]

/-- **C118**, whichever call begins the action, `exception` and leaving its block included: if the action has
not begun before the call `it` and has begun after it, then ever after the elapsed time is the time from some
moment during that call (some reading of the clock the call made) to now. -/
theorem C118_during (hno : env.NeedsExc) (hr : Reachable env w)
    (hnew : step env w (.newAction l lv nm kw) = (w0, .newAct a)) (pre : List Item) (it : Item) (post : List Item)
    (hpre : (run env w0 pre).beginOf a = none) (hit : (run env w0 (pre ++ [it])).beginOf a ≠ none) :
    ∃ n, (run env w0 pre).ticks ≤ n ∧ n < (run env w0 (pre ++ [it])).ticks ∧
      (run env w0 (pre ++ it :: post)).elapsed env a =
        env.clock (run env w0 (pre ++ it :: post)).ticks - env.clock n := by
  obtain ⟨x, hx⟩ := hr.isNew hnew
  obtain ⟨y, hy, h1⟩ := life_run hno hx.reach hx.acts hx.handle pre
  have hyh := (Act.fixed_handle h1.fixed).trans hx.handle
  have hr1 : Reachable env (run env w0 pre) := hx.reach.run pre
  have hend : ∀ e, y.endEv = some e → e.status ≠ .begin := by
    intro e he
    rcases (hr1.evInv.endKind a y e hy he).2.1 with h | h | h <;> rw [h] <;> decide
  obtain ⟨z, hz, h2⟩ := rec_item hno hy hyh hr1.idInv.fresh (hr1.transOK a y hy) hend it
  obtain ⟨u, hu, h3⟩ := life_run hno (hr1.item it) hz ((Act.fixed_handle h2.fixed).trans hyh) post
  have hone : run env w0 (pre ++ [it]) = stepItem env (run env w0 pre) it := by rw [run_append]; rfl
  have hrun : run env w0 (pre ++ it :: post) = run env (stepItem env (run env w0 pre) it) post := by
    rw [run_append]; rfl
  rw [hone] at hit ⊢
  rw [hrun]
  have hyb : y.beginEv = none := by simpa [World.beginOf, hy] using hpre
  obtain ⟨b, hb⟩ := Option.ne_none_iff_exists'.1 hit
  have hzb : z.beginEv = some b := by simpa [World.beginOf, hz] using hb
  rcases h2.begun b hzb with h | ⟨n, n1, n2, n3⟩
  · rw [hyb] at h; cases h
  · exact ⟨n, n1, n2, by
      simp only [World.elapsed, getElapsedTime, hu, Option.bind_some, h3.beginKeep b hzb, n3, World.now]⟩

/-- **C118.**  With a clock that never goes back the elapsed time is never negative and never falls, and it is
never less than the duration, after any history. -/
theorem C118_grows (hno : env.NeedsExc) (hmono : ∀ i j, i ≤ j → env.clock i ≤ env.clock j)
    (hr : Reachable env w) (hnew : step env w (.newAction l lv nm kw) = (w0, .newAct a))
    (its more : List Item) :
    0 ≤ (run env w0 its).elapsed env a ∧
    (run env w0 its).elapsed env a ≤ (run env w0 (its ++ more)).elapsed env a ∧
    (∀ d, (run env w0 its).durationOf a = some d → d ≤ (run env w0 its).elapsed env a) := by
  obtain ⟨x, hx⟩ := hr.isNew hnew
  obtain ⟨y, hy, h1⟩ := life_run hno hx.reach hx.acts hx.handle its
  have hr1 : Reachable env (run env w0 its) := hx.reach.run its
  obtain ⟨z, hz, h2⟩ := life_run hno hr1 hy ((Act.fixed_handle h1.fixed).trans hx.handle) more
  have t1 := h1.time hx.time
  have t2 := h2.time t1
  have nonneg : ∀ {w' : World} {u : Act}, w'.acts a = some u → TimeOK env w' u → 0 ≤ w'.elapsed env a := by
    intro w' u hu ht
    simp only [World.elapsed, getElapsedTime, hu, Option.bind_some]
    split
    · rename_i b hb
      obtain ⟨n, hn, hn'⟩ := ht.begun b hb
      have := hmono n w'.ticks (by omega)
      simp only [World.now, hn']; omega
    · simp
  refine ⟨nonneg hy t1, ?_, ?_⟩
  · rw [run_append]
    cases hb : y.beginEv with
    | none =>
      have := nonneg hz t2
      simpa [World.elapsed, getElapsedTime, hy, hb] using this
    | some b =>
      simp only [World.elapsed, getElapsedTime, hy, hz, Option.bind_some, hb, h2.beginKeep b hb, World.now]
      have := hmono _ _ h2.ticks
      omega
  · intro d hd
    simp only [World.durationOf, hy, Option.map_some, Option.some.injEq, Act.duration] at hd
    split at hd
    · rename_i e b he hb
      obtain ⟨n, hn, hn'⟩ := t1.past e he
      have := hmono n (run env w0 its).ticks (by omega)
      simp only [World.elapsed, getElapsedTime, hy, Option.bind_some, hb, World.now]
      omega
    · subst hd; exact nonneg hy t1

end

namespace Sample

example : (run quiet fresh [.op (.warn 0 "w" [] []), .op (.comment 0 "c" [] [])]).elapsed quiet 0 = 0 :=
  C118_unbegun quiet_needs start_reachable fresh_new _ (by decide)
/-- Entered at 20, and long over by now. -/
example : (run quiet fresh life).elapsed quiet 0 =
    quiet.clock (run quiet fresh life).ticks - quiet.clock fresh.ticks :=
  C118_since quiet_needs start_reachable fresh_new [] (.enter 0) life.tail (by simp) rfl
example : (run quiet fresh life).durationOf 0 = some 40 ∧ 40 < (run quiet fresh life).elapsed quiet 0 := by decide
/-- A second `begin` and a success do not restart it. -/
example : (run quiet fresh ([.op (.warn 0 "w" [] [])] ++ .op (.begin 0 none [] []) ::
      [.op (.begin 0 none [] []), .op (.success 0 none [] [])])).elapsed quiet 0 = 40 - 30 :=
  (C118_since quiet_needs start_reachable fresh_new _ _ _ (by decide) rfl).trans (by decide)
/-- `exception` begins the action it ends: it reads the clock at 20 for the exception and at 30 for the begin. -/
example : ∃ n, fresh.ticks ≤ n ∧ n < (run quiet fresh [.op (.exception 0 (some boom) none [] [])]).ticks ∧
    (run quiet fresh [.op (.exception 0 (some boom) none [] []), .op (.warn 0 "w" [] [])]).elapsed quiet 0 =
      quiet.clock (run quiet fresh [.op (.exception 0 (some boom) none [] []), .op (.warn 0 "w" [] [])]).ticks -
        quiet.clock n :=
  C118_during quiet_needs start_reachable fresh_new [] (.op (.exception 0 (some boom) none [] []))
    [.op (.warn 0 "w" [] [])] rfl (by decide)
example : 0 ≤ (run quiet fresh life).elapsed quiet 0 :=
  (C118_grows quiet_needs (by intro i j h; simp only [quiet]; omega) start_reachable fresh_new life []).1

end Sample
end Verif
