import Verif.Spec.Ends
import Verif.Spec.Samples
import Verif.Lemmas.GotPub
/-!
# C12: exactly which end events are published

If nothing that lithoxyl calls raises: every status call outside the with block publishes an end event; inside the block they only leave
what the exit publishes.
-/
namespace Verif
variable {env : Env} {w : World} {a : ActId} {x : Act}

/-- The phase the record of an action is in. -/
def Act.phase (x : Act) : Phase := ⟨x.defer, x.endEv.map Event.said⟩

/-- One call: the phase afterwards and the end events. -/
structure PhaseStep (w w' : World) (a : ActId) (x : Act) (r : Phase × List EndSaid) : Prop where
  phase : ∃ x', w'.acts a = some x' ∧ x'.phase = r.1
  pubs : (pubsOf w'.pub .end_ a).map Event.said = (pubsOf w.pub .end_ a).map Event.said ++ r.2

theorem phase_end (hq : env.Quiet) (hx : w.acts a = some x) (ht : x.isTrans = true → x.beginEv.isSome) (st : Status) (m : String)
    (f : List Val) (kw : Dict) (et : Option Int) (exc : Option Exc) :
    PhaseStep w (end_ env w a st m f kw et exc).1 a x (x.phase.say (st, exc)) := by
  obtain ⟨x', h0, h1, h2⟩ := ends_end (env := env) hx ht st m f kw et exc
  obtain ⟨e, e1, e2, _, _, e5, e6⟩ := h2 hq
  have hs : e.said = (st, exc) := by simp only [Event.said, e2, e5]
  refine ⟨⟨x', h0, by simp only [Act.phase, Phase.say, h1.defer, e1, Option.map_some, hs]⟩, ?_⟩
  cases hd : x.defer with
  | false => rw [e6 hd]; simp [Phase.say, Act.phase, hd, hs]
  | true =>
    obtain ⟨d, d1, _, d3, _⟩ := h1.pubs
    have : d = [] := Decidable.byContradiction fun h => by
      have := (d3 h).2
      rw [hd] at this; cases this
    rw [d1, this]; simp [Phase.say, Act.phase, hd]

theorem phase_exception (hc : env.Calm) (hx : w.acts a = some x) (ht : x.isTrans = true → x.beginEv.isSome) (e : Exc) (m : Option String)
    (f : List Val) (kw : Dict) :
    PhaseStep w (exception_ env w a (some e) m f kw).1 a x (x.phase.say (.exception, some e)) := by
  obtain ⟨x', h0, h1, h2⟩ := ends_exception (env := env) hx ht (some e) m f kw
  obtain ⟨ev, e1, e2, _, e5, e6⟩ := h2 hc rfl
  have hs : ev.said = (.exception, some e) := by simp only [Event.said, e2, e5]
  refine ⟨⟨x', h0, by simp only [Act.phase, Phase.say, h1.defer, e1, Option.map_some, hs]⟩, ?_⟩
  cases hd : x.defer with
  | false => rw [e6 hd]; simp [Phase.say, Act.phase, hd, hs]
  | true =>
    obtain ⟨d, d1, _, d3, _⟩ := h1.pubs
    have : d = [] := Decidable.byContradiction fun h => by
      have := (d3 h).2
      rw [hd] at this; cases this
    rw [d1, this]; simp [Phase.say, Act.phase, hd]

theorem PhaseStep.quiet {w' : World} {x' : Act} {p : Phase} (h : w'.acts a = some x') (hd : x'.phase = p)
    (hp : pubsOf w'.pub .end_ a = pubsOf w.pub .end_ a) : PhaseStep w w' a x (p, []) := ⟨⟨x', h, hd⟩, by simp [hp]⟩

theorem phase_item (hc : env.Calm) (hr : Reachable env w) (hx : w.acts a = some x) (hh : x.handle = true) (it : Item) :
    PhaseStep w (stepItem env w it) a x (x.phase.item a it) := by
  have hheld : w.held a = true := held_iff.2 ⟨x, hx, hh⟩
  have ht := hr.transOK a x hx
  have hev := hr.evInv
  by_cases htg : it.target = some a
  · cases it with
    | enter b =>
      simp only [Item.target, Option.some.injEq] at htg; subst htg
      simp only [stepItem, guard_held hheld, enter, hx, Phase.item, if_true]
      rcases begin_spec (env := env) (w := (w.setAct b { x with isTrans := true, defer := true }).setActive x.logger (some b)) (a := b)
        (x := { x with isTrans := true, defer := true }) (by simp) none [] [] with ⟨_, _, h⟩ | ⟨_, e, _, _, _, _, _, _, h7, h8, _⟩
      · rw [h]
        exact .quiet (updAct_same ..) rfl rfl
      · refine .quiet (x' := { x with isTrans := true, defer := true, data := x.data.update [], beginEv := some e }) (by rw [h7]; exact updAct_same ..) rfl ?_
        rw [h8]; simp [pubsOf_single]
    | exit b exc =>
      simp only [Item.target, Option.some.injEq] at htg; subst htg
      simp only [stepItem, hheld, if_true, Phase.item]
      obtain ⟨e1, e2⟩ := exit_acts_pub (env := env) hx exc
      obtain ⟨x', h0, h1, h2⟩ := ends_exitPublish (env := env) hx ht (fun e he => (hev.act b x e hx (.inr (.inl he))).1) exc
      suffices h : PhaseStep w (exitPublish env w b exc).1 b x
          (⟨false, some (x.phase.leave exc)⟩, [x.phase.leave exc]) by
        obtain ⟨⟨y, hy, hp⟩, hq⟩ := h
        exact ⟨⟨y, by rw [e1]; exact hy, hp⟩, by rw [e2]; exact hq⟩
      cases exc with
      | some e =>
        rw [exitPublish_exc hx]
        have h := phase_exception hc (w := w.setAct b { x with defer := false }) (a := b) (x := { x with defer := false }) (by simp) ht e none [] []
        cases hr : exception_ env (w.setAct b { x with defer := false }) b (some e) none [] [] with
        | mk w1 r =>
          rw [hr] at h
          have h' : PhaseStep w w1 b x (⟨false, some (.exception, some e)⟩, [(.exception, some e)]) := ⟨h.phase, h.pubs⟩
          cases r with
          | none => exact h'
          | some err =>
            dsimp only
            cases err.cls with
            | baseOnly => exact h'
            | ordinary =>
              obtain ⟨⟨y, hy, hp⟩, hq⟩ := h'
              exact ⟨⟨y, by rw [noteAll_acts]; exact hy, hp⟩, by rw [noteAll_pub]; exact hq⟩
      | none =>
        obtain ⟨e, a1, a2, a3, a4, a5⟩ := h2 hc
        cases he : x.endEv with
        | none =>
          rw [exitPublish_open hx he]
          simp only [success, setAct_same]
          have h := phase_end hc.quiet (w := w.setAct b { x with defer := false }) (a := b) (x := { x with defer := false }) (by simp) ht .success
            (endMsg { x with defer := false } none " succeeded") [] [] none none
          have hl : x.phase.leave none = (Status.success, none) := by simp [Act.phase, Phase.leave, he]
          rw [hl]
          exact ⟨h.phase, h.pubs⟩
        | some ev =>
          have : e = ev := a4 rfl ev he
          subst this
          have hl : x.phase.leave none = e.said := by simp [Act.phase, Phase.leave, he]
          simp only [hl]
          refine ⟨⟨x', h0, ?_⟩, by rw [a5]; simp⟩
          simp [Act.phase, a1, h1.defer]
    | op o =>
      cases o with
      | begin b m f kw =>
        simp only [Item.target, Option.some.injEq] at htg; subst htg
        simp only [stepItem, step, guard_held hheld, Phase.item]
        rcases begin_spec (env := env) hx m f kw with ⟨_, _, h⟩ | ⟨_, e, _, _, _, _, _, _, h7, h8, _⟩
        · rw [h]; exact .quiet (updAct_same ..) rfl rfl
        · refine .quiet (x' := { x with data := x.data.update kw, beginEv := some e }) (by rw [h7]; exact updAct_same ..) rfl ?_
          rw [h8]; simp [pubsOf_single]
      | warn b m f kw =>
        simp only [Item.target, Option.some.injEq] at htg; subst htg
        simp only [stepItem, step, guard_held hheld, Phase.item]
        obtain ⟨e, _, _, _, _, _, _, h7, h8, _⟩ := warn_spec (env := env) hx m f kw
        refine .quiet (x' := { x with data := x.data.update kw, warnEvs := x.warnEvs ++ [e] }) (by rw [h7]; exact updAct_same ..) rfl ?_
        rw [h8]; simp [pubsOf_single]
      | success b m f kw =>
        simp only [Item.target, Option.some.injEq] at htg; subst htg
        simp only [stepItem, step, guard_held hheld, success, hx, Phase.item, if_true]
        exact phase_end hc.quiet hx ht ..
      | failure b m f kw =>
        simp only [Item.target, Option.some.injEq] at htg; subst htg
        simp only [stepItem, step, guard_held hheld, failure, hx, Phase.item, if_true]
        exact phase_end hc.quiet hx ht ..
      | exception b c m f kw =>
        simp only [Item.target, Option.some.injEq] at htg; subst htg
        simp only [stepItem, step, guard_held hheld]
        cases c with
        | some e =>
          simp only [Phase.item, if_true]
          exact phase_exception hc hx ht ..
        | none =>
          obtain ⟨err, herr⟩ := Option.ne_none_iff_exists'.1 hc.noInfo
          simp only [exception_, hx, herr, Phase.item]
          exact .quiet hx rfl rfl
      | setItem b k v =>
        simp only [Item.target, Option.some.injEq] at htg; subst htg
        simp only [stepItem, step, guard_held hheld, setItem, hx, Phase.item]
        exact .quiet (setAct_same ..) rfl rfl
      | _ => simp [Item.target] at htg
  · obtain ⟨h, _⟩ := rec_other (env := env) hx hr.idInv.fresh it htg
    have hitem : x.phase.item a it = (x.phase, []) := by
      cases it with
      | enter b => simp_all [Phase.item, Item.target]
      | exit b e => simp_all [Phase.item, Item.target]
      | op o =>
        cases o with
        | success => simp_all [Phase.item, Item.target]
        | failure => simp_all [Phase.item, Item.target]
        | exception b c => cases c <;> simp_all [Phase.item, Item.target]
        | _ => rfl
    rw [hitem]
    exact .quiet h rfl (pubs_other hx hr.idInv.fresh hev it htg _)

theorem phase_run (hc : env.Calm) (hr : Reachable env w) (hx : w.acts a = some x) (hh : x.handle = true) (its : List Item) :
    (∃ y, (run env w its).acts a = some y ∧ y.phase = phaseAfter a x.phase its) ∧
    (pubsOf (run env w its).pub .end_ a).map Event.said = (pubsOf w.pub .end_ a).map Event.said ++ endsSaid a x.phase its := by
  induction its generalizing w x with
  | nil => exact ⟨⟨x, hx, rfl⟩, by simp [run, endsSaid]⟩
  | cons it its ih =>
    obtain ⟨⟨y, hy, hp⟩, hq⟩ := phase_item hc hr hx hh it
    obtain ⟨z, hz, hzf⟩ := hr.good.fixed_item it hx
    rw [hy] at hz; cases hz
    obtain ⟨i1, i2⟩ := ih (hr.item it) hy ((Act.fixed_handle hzf).trans hh)
    rw [run_cons]
    rw [hp] at i1 i2
    refine ⟨i1, ?_⟩
    rw [i2, hq, List.append_assoc]
    rfl

/-- **C12, exactly.**  If nothing lithoxyl calls raises, the end events published for an action are, in order, those its calls ask for. -/
theorem C12_exact (hc : env.Calm) (hr : Reachable env w) {l : LogId} {lv : Int} {nm : String} {kw : Dict} {w0 : World}
    (hnew : step env w (.newAction l lv nm kw) = (w0, .newAct a)) (its : List Item) :
    (pubsOf (run env w0 its).pub .end_ a).map Event.said = endsSaid a ⟨false, none⟩ its := by
  obtain ⟨x, hx⟩ := hr.isNew hnew
  have h := (phase_run hc hx.reach hx.acts hx.handle its).2
  rw [show pubsOf w0.pub .end_ a = [] from new_no_pubs hr hnew .end_] at h
  have hp : x.phase = ⟨false, none⟩ := by simp [Act.phase, hx.defer, hx.endEv]
  rw [hp] at h
  simpa using h

/-- Two calls outside; then a block with a call inside. -/
example : endsSaid 0 ⟨false, none⟩ [.op (.success 0 none [] []), .op (.failure 0 none [] []), .enter 0, .op (.success 0 none [] []), .exit 0 none] =
    [(.success, none), (.failure, none), (.success, none)] := by decide

/-- How often: never more than one end, exactly if there is at most one occasion to tell one. -/
theorem C12_once_iff (hc : env.Calm) (hr : Reachable env w) {l : LogId} {lv : Int} {nm : String} {kw : Dict} {w0 : World}
    (hnew : step env w (.newAction l lv nm kw) = (w0, .newAct a)) (its : List Item) :
    (pubsOf (run env w0 its).pub .end_ a).length ≤ 1 ↔ (endsSaid a ⟨false, none⟩ its).length ≤ 1 := by
  rw [← C12_exact hc hr hnew its, List.length_map]

/-- A with block and nothing else: exactly one end, whatever was said inside. -/
theorem endsSaid_block (a : ActId) (p : Phase) (body : List Item) (hb : ∀ it ∈ body, it.inside a) (exc : Option Exc) :
    (endsSaid a p (.enter a :: body ++ [.exit a exc])).length = 1 := by
  have key : ∀ (body : List Item), (∀ it ∈ body, it.inside a) → ∀ q : Phase, q.inside = true → (endsSaid a q (body ++ [.exit a exc])).length = 1 := by
    intro body
    induction body with
    | nil => intro _ q _; simp [endsSaid, Phase.item]
    | cons it body ih =>
      intro hb q hq
      have h1 : (q.item a it).2 = [] ∧ (q.item a it).1.inside = true := by
        have hin := hb it (by simp)
        cases it with
        | enter b => simp only [Item.inside] at hin; simp [Phase.item, hin, hq]
        | exit b e => simp only [Item.inside] at hin; simp [Phase.item, hin, hq]
        | op o =>
          cases o with
          | success b => by_cases h : b = a <;> simp [Phase.item, Phase.say, h, hq]
          | failure b => by_cases h : b = a <;> simp [Phase.item, Phase.say, h, hq]
          | exception b c => cases c <;> by_cases h : b = a <;> simp [Phase.item, Phase.say, h, hq]
          | _ => simp [Phase.item, hq]
      simp only [List.cons_append, endsSaid, h1.1, List.nil_append]
      exact ih (fun it h => hb it (List.mem_cons_of_mem _ h)) _ h1.2
  simp only [List.cons_append, endsSaid, Phase.item, if_true, List.nil_append]
  exact key body hb _ rfl

/-- **C12 for a with block.**  Entered, anything done to the action inside, left: exactly one end event. -/
theorem C12_block (hc : env.Calm) (hr : Reachable env w) {l : LogId} {lv : Int} {nm : String} {kw : Dict} {w0 : World}
    (hnew : step env w (.newAction l lv nm kw) = (w0, .newAct a)) (body : List Item) (hb : ∀ it ∈ body, it.inside a) (exc : Option Exc) :
    (pubsOf (run env w0 (.enter a :: body ++ [.exit a exc])).pub .end_ a).length = 1 := by
  rw [← List.length_map (f := Event.said), C12_exact hc hr hnew]
  exact endsSaid_block a _ body hb exc

example : Sample.quiet.Calm := Sample.quiet_calm
example : (pubsOf (run Sample.quiet World.init (Sample.setup ++ [Sample.mk "a", .op (.success 0 none [] []), .op (.failure 0 none [] []),
    .enter 0, .op (.failure 0 none [] []), .exit 0 (some Sample.boom)])).pub .end_ 0).map Event.said =
      [(.success, none), (.failure, none), (.exception, some Sample.boom)] := by decide

end Verif
