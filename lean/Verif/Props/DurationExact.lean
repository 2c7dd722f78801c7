import Verif.Props.StatusExact
/-!
# C08: the duration of an action that records an exception, whatever sinks do
-/
namespace Verif
open scoped List
attribute [local irreducible] QUEUE_LIMIT

section
variable {env : Env} {w w0 : World} {a : ActId} {x : Act} {l : LogId} {lv : Int} {nm : String} {kw : Dict}

/-- `exception` on an action whose block was entered: the duration is set unless the exception cannot be described or an `on_exception` method
raises. -/
theorem exception_duration_any (hx : w.acts a = some x) (ht : x.isTrans = true) {b : Event} (hb : x.beginEv = some b) (e : Exc)
    (m : Option String) (f : List Val) (kw : Dict) :
    let r := exception_ env w a (some e) m f kw
    Ext w r.1 ∧
    (excEarly env x (some e) m = none → NoneOfRaised [.exception] env w r.1 →
      r.1.durationOf a = some ((if env.clock w.ticks = 0 then env.clock (w.ticks + 1) else env.clock w.ticks) - b.etime)) ∧
    (¬ (excEarly env x (some e) m = none ∧ NoneOfRaised [.exception] env w r.1) → r.1.durationOf a = w.durationOf a) := by
  intro r
  have he : Kind.exception ∈ [Kind.exception] := by decide
  rcases exception_spec (env := env) hx (some e) m f kw with ⟨err, h1, hr⟩ | ⟨h1, msg, ev, w1, hs, ⟨err, hp, hr⟩ | ⟨hp, hr⟩⟩
  · have hr' : r = _ := hr
    rw [hr']
    exact ⟨.ofEq rfl, fun h => by (rw [h1] at h; cases h), fun _ => rfl⟩
  · have hr' : r = _ := hr
    rw [hr']
    have hn : ¬ NoneOfRaised [.exception] env w (publishExc env w1 x.logger ev).1 := by
      rw [noneOfRaised_after (ext_publishExc ..) hs.trace, publishExc_raised _ he, hp]
      simp
    refine ⟨(ext_publishExc ..).after hs.trace, fun _ h => absurd h hn, fun _ => ?_⟩
    simp [World.durationOf, hs.acts, hx, Act.duration]
  · have hr' : r = _ := hr
    have hx1 : (publishExc env w1 x.logger ev).1.acts a = some { x with excEvs := x.excEvs ++ [ev] } := by
      rw [publishExc_acts', hs.acts]; simp
    obtain ⟨t, g1, g2⟩ := noExc_end (env := env) (w := (publishExc env w1 x.logger ev).1) a .exception msg f kw (some (w.now env)) (some e)
    have hx2 : Ext (publishExc env w1 x.logger ev).1 r.1 := by rw [hr']; exact ⟨t, g1.symm⟩
    have hn : NoneOfRaised [.exception] env w r.1 := by
      refine (noneOfRaised_after ((ext_publishExc ..).trans hx2) hs.trace).2
        ((noneOfRaised_trans (ext_publishExc ..) hx2).2 ⟨(publishExc_raised _ he _).2 hp, ?_⟩)
      rw [hr']
      refine noneOfRaised_of g1 ?_
      intro o ho s k' ev' hk h
      have := g2 o ho
      simp only [List.mem_singleton] at hk
      rw [h, hk] at this
      simp [Obs.excHook] at this
    refine ⟨((ext_publishExc ..).trans hx2).after hs.trace, fun _ _ => ?_, fun h => absurd ⟨h1, hn⟩ h⟩
    rw [hr']
    refine end_duration hx1 ht hb ?_
    have hticks : (publishExc env w1 x.logger ev).1.ticks = w.ticks + 1 := by rw [publishExc_ticks, hs.ticks]
    simp only [endTimeOf, ht, if_true, World.now, hticks]

/-- **C08**, whatever sinks, note handlers and other foreign code do: once the block of an action has been entered, an exception, recorded by
a call or by leaving the block, sets the duration to the time from the begin event to then, if it can be described and no `on_exception`
method raises; otherwise the duration is what it was.  (A reading of exactly 0 is taken again.)  Leaving the block normally sets it if no
status call was made, and else leaves it as it was. -/
theorem duration_exact (hno : env.NeedsExc) (hr : Reachable env w) (hnew : step env w (.newAction l lv nm kw) = (w0, .newAct a))
    (its : List Item) (hent : Item.enter a ∈ its) {b : Event} (hb : (run env w0 its).beginOf a = some b) {now : Int}
    (hnow : now = if env.clock (run env w0 its).ticks = 0 then env.clock ((run env w0 its).ticks + 1) else env.clock (run env w0 its).ticks) :
    (∀ it, (∃ e m f kws, it = Item.op (.exception a (some e) m f kws)) ∨ (∃ e, it = Item.exit a (some e)) →
      (it.Describable env (run env w0 its) a ∧ NoneOfRaised [.exception] env (run env w0 its) (run env w0 (its ++ [it])) →
        (run env w0 (its ++ [it])).durationOf a = some (now - b.etime)) ∧
      (¬ (it.Describable env (run env w0 its) a ∧ NoneOfRaised [.exception] env (run env w0 its) (run env w0 (its ++ [it]))) →
        (run env w0 (its ++ [it])).durationOf a = (run env w0 its).durationOf a)) ∧
    ((run env w0 its).statusOf a = some .begin →
      (run env w0 (its ++ [.exit a none])).durationOf a = some (env.clock (run env w0 its).ticks - b.etime)) ∧
    ((run env w0 its).statusOf a ≠ some .begin →
      (run env w0 (its ++ [.exit a none])).durationOf a = (run env w0 its).durationOf a) := by
  obtain ⟨x0, hx0⟩ := hr.isNew hnew
  obtain ⟨x, hx, h⟩ := life_run hno hx0.reach hx0.acts hx0.handle its
  have ht : x.isTrans = true := h.trans.2 (.inr hent)
  have hh : (run env w0 its).held a = true := held_iff.2 ⟨x, hx, (Act.fixed_handle h.fixed).trans hx0.handle⟩
  have hbx : x.beginEv = some b := by simpa [World.beginOf, hx] using hb
  have hrW := hx0.reach.run its
  have hrun : ∀ it, run env w0 (its ++ [it]) = stepItem env (run env w0 its) it := fun it => by rw [run_append, run_single]
  simp only [hrun]
  generalize run env w0 its = W at *
  subst hnow
  have hdur : ∀ exc, (stepItem env W (.exit a exc)).durationOf a = (exitPublish env W a exc).1.durationOf a := by
    intro exc
    simp only [stepItem, hh, if_true, World.durationOf]
    rw [(exit_acts_pub hx exc).1]
  have hx1 : (W.setAct a { x with defer := false }).acts a = some { x with defer := false } := by simp
  refine ⟨?_, ?_, ?_⟩
  · rintro it (⟨e, m, f, kws, rfl⟩ | ⟨e, rfl⟩)
    · have hd : Item.Describable env W a (.op (.exception a (some e) m f kws)) ↔ excEarly env x (some e) m = none := by
        rw [excEarly_none_iff]
        simp [Item.Describable, hx]
      obtain ⟨-, h1, h2⟩ := exception_duration_any (env := env) hx ht hbx e m f kws
      simp only [hd, stepItem, step, guard_held hh]
      exact ⟨fun g => h1 g.1 g.2, h2⟩
    · have hd : Item.Describable env W a (.exit a (some e)) ↔ excEarly env x (some e) none = none := by
        rw [excEarly_none_iff]
        simp [Item.Describable, hx]
      have q3 : (stepItem env W (.exit a (some e))).trace = (exitPublish env W a (some e)).1.trace := by
        simp only [stepItem, hh, if_true, exit, hx]
        cases exitPublish env W a (some e) with
        | mk w1 r => cases r <;> rfl
      have hn : NoneOfRaised [.exception] env W (stepItem env W (.exit a (some e))) ↔
          NoneOfRaised [.exception] env W (exitPublish env W a (some e)).1 := by
        simp [NoneOfRaised, q3]
      rw [hd, hn, hdur, exitPublish_exc hx]
      obtain ⟨h1, h2, h3⟩ := exception_duration_any (env := env) hx1 ht hbx e none [] []
      have hearly : excEarly env { x with defer := false } (some e) none = excEarly env x (some e) none := rfl
      have hwd : (W.setAct a { x with defer := false }).durationOf a = W.durationOf a := by simp [World.durationOf, hx, Act.duration]
      rw [hearly] at h2 h3
      rw [hwd] at h3
      rcases hr : exception_ env (W.setAct a { x with defer := false }) a (some e) none [] [] with ⟨w1, res⟩
      rw [hr] at h1 h2 h3
      have key : ∀ r : World, Ext w1 r → NoneOfRaised [.exception] env w1 r → r.acts = w1.acts →
          (excEarly env x (some e) none = none ∧ NoneOfRaised [.exception] env W r →
            r.durationOf a = some ((if env.clock W.ticks = 0 then env.clock (W.ticks + 1) else env.clock W.ticks) - b.etime)) ∧
          (¬ (excEarly env x (some e) none = none ∧ NoneOfRaised [.exception] env W r) → r.durationOf a = W.durationOf a) := by
        intro r g1 g2 g3
        have hs : r.durationOf a = w1.durationOf a := by simp [World.durationOf, g3]
        have hi : NoneOfRaised [.exception] env W r ↔ NoneOfRaised [.exception] env (W.setAct a { x with defer := false }) w1 := by
          rw [noneOfRaised_after (w := W) (h1.trans g1) rfl, noneOfRaised_trans h1 g1]
          exact ⟨fun h => h.1, fun h => ⟨h, g2⟩⟩
        rw [hs, hi]
        exact ⟨fun g => h2 g.1 g.2, h3⟩
      cases res with
      | none => exact key w1 (.ofEq rfl) (noneOfRaised_same rfl) rfl
      | some err =>
        simp only
        cases err.cls with
        | ordinary => exact key _ (ext_note _) (note_others _) (noteAll_acts _)
        | baseOnly => exact key w1 (.ofEq rfl) (noneOfRaised_same rfl) rfl
  · intro hs
    have hen : x.endEv = none := by
      cases he : x.endEv with
      | none => rfl
      | some ev =>
        simp only [World.statusOf, hx, Option.map_some, Act.status, he, Option.some.injEq] at hs
        rcases (hrW.evInv.endKind a x ev hx he).2.1 with h | h | h <;> rw [h] at hs <;> cases hs
    rw [hdur, exitPublish_open hx hen]
    simp only [success, hx1]
    exact end_duration hx1 ht hbx (by simp [endTimeOf, ht, World.now, World.setAct])
  · intro hs
    cases he : x.endEv with
    | none => simp [World.statusOf, hx, Act.status, he] at hs
    | some ev =>
      rw [hdur, exitPublish_ended hx he]
      simp [World.durationOf, hx, Act.duration]

end

/-- With a sink whose `on_exception` raises, an exception leaves the duration at 0; with one whose `on_end` raises, it is set. -/
example : (run (Sample.badSink 0 .exception) World.init (Sample.setup ++ [Sample.mk "a", .enter 0, .exit 0 (some Sample.boom)])).durationOf 0 = some 0 ∧
    (run (Sample.badSink 0 .end_) World.init (Sample.setup ++ [Sample.mk "a", .enter 0, .exit 0 (some Sample.boom)])).durationOf 0 ≠ some 0 := by
  decide

end Verif
