import Verif.Props.ActorStats
/-!
# The statistics of an actor in the model of its threads (C123)

`Model/ActorStats.lean` follows the runs of an actor one after the other; here the same runs are schedules of `Model/Actor.lean`.
-/
namespace Verif.Actor

variable {K : Type} [Field K] [LinearOrder K]

/-- Thread `i` goes through these rounds: the test, the beginning of the task, its end, the wait. -/
def loopLabs (daemon : Bool) (i : Nat) : List (Round K) → List Lab
  | [] => []
  | r :: rs =>
    if lethal daemon r.out then List.replicate 3 (.thr i r.out)
    else List.replicate 4 (.thr i r.out) ++ loopLabs daemon i rs

/-- Does an outcome end the loop? -/
def dies (daemon : Bool) (rs : List (Round K)) : Bool := rs.any fun r => lethal daemon r.out

/-- What comes after the rounds: a thread that has left the loop ends; one that is in it begins another task, or is told to stop
and ends. -/
def endLabs (daemon : Bool) (i : Nat) (r : Run K) : List Lab :=
  if dies daemon r.rounds then List.replicate 2 (.thr i .ok)
  else if r.pending.isSome then List.replicate 2 (.thr i .ok)
  else callAlone 0 .stop ++ List.replicate 3 (.thr i .ok)

/-- The runs of an actor, the first thread being number `i`: `start()` is called, the thread goes on alone. -/
def lifeLabs (daemon : Bool) : Nat → List (Run K) → List Lab
  | _, [] => []
  | i, r :: rs => callAlone 0 .start ++ loopLabs daemon i r.rounds ++ endLabs daemon i r ++ lifeLabs daemon (i + 1) rs

/-- Only in the last run a task is still going on. -/
def PendingLast (daemon : Bool) : List (Run K) → Prop
  | [] => True
  | r :: rs => (rs = [] ∨ r.pending = none ∨ dies daemon r.rounds = true) ∧ PendingLast daemon rs

theorem run_append' (cf : Conf K) (s : St K) (a b : List Lab) : run cf s (a ++ b) = run cf (run cf s a) b := by simp [run]

/-- Between two runs. -/
structure Between (s : St K) (i : Nat) : Prop where
  len : s.thr.length = i
  dead : s.alive = false
  stop : s.stopping = false
  free : ∃ x, s.ctl 0 = .idle x

/-- Thread `i` is at the test. -/
structure AtTest (s : St K) (i : Nat) : Prop where
  len : s.thr.length = i + 1
  cur : s.cur = some i
  phase : s.phase i = .check
  stop : s.stopping = false
  free : ∃ x, s.ctl 0 = .idle x

theorem started {cf : Conf K} {s : St K} {i : Nat} (h : Between s i) :
    AtTest (run cf s (callAlone 0 .start)) i ∧ (run cf s (callAlone 0 .start)).calls = s.calls ∧
      (run cf s (callAlone 0 .start)).outs = s.outs := by
  obtain ⟨hl, hd, hs, x, hx⟩ := h
  obtain ⟨thr, cur, stopping, pid, apid, interval, ctl, calls, outs⟩ := s
  simp only at hl hs hx
  subst hl hs
  have hphase : ∀ (a : List Phase) (j : Nat), (a ++ [Phase.unstarted]).getD a.length .dead = .unstarted := by
    intro a j; simp
  have key : run cf ⟨thr, cur, false, pid, apid, interval, ctl, calls, outs⟩ (callAlone 0 .start) =
      ⟨thr ++ [.check], some thr.length, false, pid, some pid, interval, fun d => if d = 0 then .idle .returned else ctl d, calls,
        outs⟩ := by
    have h0 : ∀ c' : Nat → Ctl, (St.alive ⟨thr, cur, false, pid, apid, interval, c', calls, outs⟩) = false := fun _ => hd
    simp only [callAlone, run, List.replicate, List.foldl, step, hx, ctlStep, St.setCtl, if_true, h0, Bool.false_eq_true,
      and_false, if_false, St.phase, hphase thr 0, St.setThr]
    simp
    funext d
    by_cases hd : d = 0 <;> simp [hd]
  rw [key]
  exact ⟨⟨by simp, rfl, by simp [St.phase], rfl, ⟨.returned, rfl⟩⟩, rfl, rfl⟩

theorem phase_set {s : St K} {i : Nat} {p : Phase} (h : s.thr.length = i + 1) : (s.setThr i p).phase i = p := by
  simp [St.phase, St.setThr, h]

/-- The thread goes through one round. -/
theorem round3 {cf : Conf K} {s : St K} {i : Nat} {o : Outcome} (h : AtTest s i) :
    run cf s (List.replicate 3 (.thr i o)) =
      { s with
        thr := s.thr.set i (if lethal cf.daemon o then .leaving else .waiting)
        interval := nextInterval cf s.interval o
        calls := s.calls + 1
        outs := o :: s.outs } := by
  obtain ⟨hl, hc, hp, hs, x, hx⟩ := h
  obtain ⟨thr, cur, stopping, pid, apid, interval, ctl, calls, outs⟩ := s
  simp only at hl hs hx hc
  subst hs hc
  have hi : i < thr.length := by omega
  have hp' : thr[i] = .check := by simpa [St.phase, hi] using hp
  simp [run, step, thrStep, St.phase, St.setThr, hp', hi, List.getD_eq_getElem?_getD]

theorem looped {cf : Conf K} {i : Nat} : ∀ (rs : List (Round K)) (s : St K), AtTest s i →
    (run cf s (loopLabs cf.daemon i rs)).calls = s.calls + (ended cf.daemon rs).length ∧
    (run cf s (loopLabs cf.daemon i rs)).outs = ((ended cf.daemon rs).map (·.out)).reverse ++ s.outs ∧
    (dies cf.daemon rs = false → AtTest (run cf s (loopLabs cf.daemon i rs)) i) ∧
    (dies cf.daemon rs = true → Between (run cf s (loopLabs cf.daemon i rs ++ List.replicate 2 (.thr i .ok))) (i + 1) ∧
      (run cf s (loopLabs cf.daemon i rs ++ List.replicate 2 (.thr i .ok))).calls =
        (run cf s (loopLabs cf.daemon i rs)).calls ∧
      (run cf s (loopLabs cf.daemon i rs ++ List.replicate 2 (.thr i .ok))).outs =
        (run cf s (loopLabs cf.daemon i rs)).outs)
  | [], s, h => by simp [loopLabs, ended, dies, run, h]
  | r :: rs, s, h => by
    have h3 := round3 (cf := cf) (o := r.out) h
    by_cases hr : lethal cf.daemon r.out = true
    · have hsv : ¬ survives cf.daemon r.out := by
        rw [← lethal_iff]; simp [hr]
      simp only [loopLabs, hr, if_true, ended, hsv, if_false, run_append', h3]
      refine ⟨by simp, by simp, fun hd => by simp [dies, hr] at hd, fun _ => ?_⟩
      obtain ⟨hl, hc, hp, hs, x, hx⟩ := h
      obtain ⟨thr, cur, stopping, pid, apid, interval, ctl, calls, outs⟩ := s
      simp only at hl hs hx hc
      subst hs hc
      have hi : i < thr.length := by omega
      refine ⟨⟨?_, ?_, ?_, ?_⟩, ?_, ?_⟩ <;>
        simp [run, step, thrStep, St.phase, St.setThr, hi, St.alive, Phase.alive, hl, hx]
    · have hr : lethal cf.daemon r.out = false := by simpa using hr
      have hsv : survives cf.daemon r.out := (lethal_iff _ _).1 hr
      have h4 : AtTest (run cf s (List.replicate 4 (.thr i r.out))) i ∧
          (run cf s (List.replicate 4 (.thr i r.out))).calls = s.calls + 1 ∧
          (run cf s (List.replicate 4 (.thr i r.out))).outs = r.out :: s.outs := by
        rw [show (4 : Nat) = 3 + 1 from rfl, ← List.replicate_append_replicate, run_append', h3]
        obtain ⟨hl, hc, hp, hs, x, hx⟩ := h
        obtain ⟨thr, cur, stopping, pid, apid, interval, ctl, calls, outs⟩ := s
        simp only at hl hs hx hc
        subst hs hc
        have hi : i < thr.length := by omega
        refine ⟨⟨?_, ?_, ?_, ?_, ?_⟩, ?_, ?_⟩ <;>
          simp [run, step, thrStep, St.phase, St.setThr, hi, hl, hx, hr]
      obtain ⟨i1, i2, i3, i4⟩ := looped rs _ h4.1
      have hd : dies cf.daemon (r :: rs) = dies cf.daemon rs := by simp [dies, hr]
      simp only [loopLabs, hr, Bool.false_eq_true, if_false, ended, hsv, if_true, run_append', hd] at i4 ⊢
      refine ⟨?_, ?_, i3, i4⟩
      · rw [i1, h4.2.1]; simp; omega
      · rw [i2, h4.2.2]; simp

/-- A thread at the test that is told to stop ends. -/
theorem stopped {cf : Conf K} {s : St K} {i : Nat} (h : AtTest s i) :
    Between (run cf s (callAlone 0 .stop ++ List.replicate 3 (.thr i .ok))) (i + 1) ∧
    (run cf s (callAlone 0 .stop ++ List.replicate 3 (.thr i .ok))).calls = s.calls ∧
    (run cf s (callAlone 0 .stop ++ List.replicate 3 (.thr i .ok))).outs = s.outs := by
  obtain ⟨hl, hc, hp, hs, x, hx⟩ := h
  obtain ⟨thr, cur, stopping, pid, apid, interval, ctl, calls, outs⟩ := s
  simp only at hl hs hx hc
  subst hs hc
  have hi : i < thr.length := by omega
  have hp' : thr[i] = .check := by simpa [St.phase, hi] using hp
  refine ⟨⟨?_, ?_, ?_, ?_⟩, ?_, ?_⟩ <;>
    simp [callAlone, run, step, ctlStep, thrStep, St.phase, St.setThr, St.setCtl, hi, St.alive, Phase.alive, hl, hx, hp']

/-- A thread at the test begins another task. -/
theorem begun {cf : Conf K} {s : St K} {i : Nat} (h : AtTest s i) :
    (run cf s (List.replicate 2 (.thr i .ok))).calls = s.calls + 1 ∧
    (run cf s (List.replicate 2 (.thr i .ok))).outs = s.outs := by
  obtain ⟨hl, hc, hp, hs, x, hx⟩ := h
  obtain ⟨thr, cur, stopping, pid, apid, interval, ctl, calls, outs⟩ := s
  simp only at hl hs hx hc
  subst hs hc
  have hi : i < thr.length := by omega
  have hp' : thr[i] = .check := by simpa [St.phase, hi] using hp
  constructor <;> simp [run, step, thrStep, St.phase, St.setThr, hi, hp']

theorem dies_iff (daemon : Bool) (rs : List (Round K)) : dies daemon rs = false ↔ through daemon rs := by
  simp only [dies, List.any_eq_false, through, ← lethal_iff]
  simp

/-- **C123**: for every list of runs of an actor, the count of task calls of `Model/ActorStats.lean` is the one the model of the
actor's threads comes to when `start()` is called, the thread goes through the rounds, and is stopped, run after run; and the
outcomes of the tasks there, which set the interval, are those of the rounds up to the ones the threads do not survive. -/
theorem C123_sequential (cf : Conf K) (runs : List (Run K)) (hp : PendingLast cf.daemon runs) :
    (run cf (init cf) (lifeLabs cf.daemon 0 runs)).calls = (getStats cf.daemon runs).count ∧
    (run cf (init cf) (lifeLabs cf.daemon 0 runs)).outs.reverse =
      runs.flatMap fun r => (ended cf.daemon r.rounds).map (·.out) := by
  have key : ∀ (runs : List (Run K)) (i : Nat) (s : St K) (st : Stats K), Between s i → PendingLast cf.daemon runs →
      s.calls = st.count →
      (run cf s (lifeLabs cf.daemon i runs)).calls = (runs.foldl (statsRun cf.daemon) st).count ∧
      (run cf s (lifeLabs cf.daemon i runs)).outs.reverse =
        s.outs.reverse ++ runs.flatMap fun r => (ended cf.daemon r.rounds).map (·.out) := by
    intro runs
    induction runs with
    | nil => intro i s st _ _ h; simpa [lifeLabs, run] using h
    | cons r rs ih =>
      intro i s st hb hp hc
      obtain ⟨a1, a2, a3⟩ := started (cf := cf) hb
      obtain ⟨l1, l2, l3, l4⟩ := looped (cf := cf) r.rounds _ a1
      have hst : (statsRun cf.daemon st r).count = st.count + callsOf cf.daemon r := by
        rw [statsRun, loop_spec]; rfl
      simp only [lifeLabs, run_append', List.foldl_cons, List.flatMap_cons]
      by_cases hd : dies cf.daemon r.rounds = true
      · obtain ⟨b1, b2, b3⟩ := l4 hd
        simp only [run_append'] at b1 b2 b3
        simp only [endLabs, hd, if_true]
        have ht : ¬ through cf.daemon r.rounds := by rw [← dies_iff]; simp [hd]
        obtain ⟨c1, c2⟩ := ih (i + 1) _ (statsRun cf.daemon st r) b1 hp.2
          (by rw [b2, l1, a2, hst, hc]; simp [callsOf, ht])
        refine ⟨c1, ?_⟩
        rw [c2, b3, l2, a3]; simp
      · have hd : dies cf.daemon r.rounds = false := by simpa using hd
        have ht := (dies_iff _ _).1 hd
        have ha := l3 hd
        cases hq : r.pending with
        | none =>
          obtain ⟨b1, b2, b3⟩ := stopped (cf := cf) ha
          simp only [endLabs, hd, Bool.false_eq_true, if_false, hq, Option.isSome_none]
          obtain ⟨c1, c2⟩ := ih (i + 1) _ (statsRun cf.daemon st r) b1 hp.2
            (by rw [b2, l1, a2, hst, hc]; simp [callsOf, hq])
          refine ⟨c1, ?_⟩
          rw [c2, b3, l2, a3]; simp
        | some k =>
          have hrs : rs = [] := by
            rcases hp.1 with h | h | h
            · exact h
            · rw [hq] at h; cases h
            · rw [hd] at h; cases h
          subst hrs
          obtain ⟨b1, b2⟩ := begun (cf := cf) ha
          simp only [endLabs, hd, Bool.false_eq_true, if_false, hq, Option.isSome_some, if_true, lifeLabs, List.foldl_nil,
            List.flatMap_nil, List.append_nil]
          refine ⟨?_, ?_⟩
          · show (run cf _ _).calls = _
            rw [hst]
            simp only [run, List.foldl_nil] at b1 ⊢
            rw [b1]
            have l1' := l1
            simp only [run] at l1' a2
            rw [l1', a2, hc]
            simp [callsOf, hq, ht]; omega
          · simp only [run, List.foldl_nil] at b2 l2 a3 ⊢
            rw [b2, l2, a3]; simp
  have := key runs 0 (init cf) statsInit ⟨rfl, rfl, rfl, ⟨_, rfl⟩⟩ hp rfl
  simpa [getStats, init] using this

/-- A case: a run that is stopped, one that ends by an exception, one in which a task is going on. -/
example : PendingLast (K := ℚ) false
    [⟨0, [⟨1, 2, .ok⟩, ⟨3, 4, .exc false⟩], none⟩, ⟨5, [⟨5, 6, .exit⟩, ⟨7, 8, .ok⟩], none⟩, ⟨9, [⟨9, 10, .ok⟩], some 11⟩] ∧
    (getStats (K := ℚ) false
      [⟨0, [⟨1, 2, .ok⟩, ⟨3, 4, .exc false⟩], none⟩, ⟨5, [⟨5, 6, .exit⟩, ⟨7, 8, .ok⟩], none⟩, ⟨9, [⟨9, 10, .ok⟩], some 11⟩]).count
      = 5 := by
  constructor
  · simp [PendingLast]
  · simp [getStats, statsRun, statsLoop, roundEnd, lethal, statsInit]

end Verif.Actor
