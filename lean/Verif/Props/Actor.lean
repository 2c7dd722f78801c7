import Verif.Lemmas.ActorOne
import Mathlib.Algebra.Order.Ring.Rat
import Mathlib.Algebra.Field.Rat
import Mathlib.Tactic.NormNum
import Mathlib.Tactic.Ring
/-!
# C26, C27, C28, C29: the interval thread actor

A schedule (`List Lab`) says who moves next: an actor thread, or one of any number of threads using the actor.
`run cf (init cf) ls` is the state of a new actor after the schedule `ls`.
-/
namespace Verif.Actor

variable {K : Type} [Field K] [LinearOrder K]

/-- The sample actor of the examples: 200 ms, at most 1600 ms, daemon. -/
def sample : Conf ℚ := Conf.make none none true

/-- Start, one successful task call, one failing one. -/
def sampleRun : List Lab :=
  callAlone 0 .start ++ [.thr 0 .ok, .thr 0 .ok, .thr 0 .ok, .thr 0 .ok, .thr 0 .ok, .thr 0 .ok, .thr 0 (.exc false)]

/-! ## C26 -/

/-- C26, bounds: whatever is done to the actor and however its task behaves, the interval stays between the configured
one and the maximum (given that the maximum is not below it). -/
theorem C26_bounds_partial [IsStrictOrderedRing K] (cf : Conf K) (h0 : 0 ≤ cf.orig) (hm : cf.orig ≤ cf.max)
    (ls : List Lab) :
    cf.orig ≤ (run cf (init cf) ls).interval ∧ (run cf (init cf) ls).interval ≤ cf.max := by
  refine run_inv (P := fun s => cf.orig ≤ s.interval ∧ s.interval ≤ cf.max) (Q := fun _ => True) ?_ ls _
    (fun _ _ => trivial) ⟨le_refl _, hm⟩
  intro s l _ hs
  rcases step_interval cf s l with ⟨h1, -⟩ | ⟨o, h1, -⟩
  · rw [h1]; exact hs
  · rw [h1]; exact next_bounds h0 hm hs o

/-- C26, the settings: the defaults are 200 and eight times the interval; any non-negative interval without a maximum
satisfies the assumption of the bounds. -/
theorem C26_defaults [IsStrictOrderedRing K] (i : Option K) (hi : ∀ x ∈ i, 0 ≤ x) (daemon : Bool) :
    (Conf.make i none daemon).orig = i.getD 200 ∧ (Conf.make i none daemon).max = 8 * (i.getD 200) ∧
    0 ≤ (Conf.make i none daemon).orig ∧ (Conf.make i none daemon).orig ≤ (Conf.make i none daemon).max := by
  have h0 : 0 ≤ i.getD 200 := by
    cases i with
    | none => simp
    | some x => exact hi x rfl
  refine ⟨rfl, ?_, h0, ?_⟩
  · simp only [Conf.make]; ring
  · simp only [Conf.make]; linarith

/-- C26, one task call: a call that raises an `Exception` doubles the wait up to the maximum; a call that returns makes it
shorter by an eighth of the range, but not shorter than the base; after `SystemExit` or `KeyboardInterrupt` it is what it was. -/
theorem C26_step [IsStrictOrderedRing K] (cf : Conf K) (h0 : 0 ≤ cf.orig) (hm : cf.orig < cf.max) (ls : List Lab)
    (n : Nat) (hn : (run cf (init cf) ls).phase n = .running) :
    (step cf (run cf (init cf) ls) (.thr n (.exc false))).interval =
      min (2 * (run cf (init cf) ls).interval) cf.max ∧
    (step cf (run cf (init cf) ls) (.thr n .ok)).interval =
      max ((run cf (init cf) ls).interval - (cf.max - cf.orig) / 8) cf.orig ∧
    (step cf (run cf (init cf) ls) (.thr n .exit)).interval = (run cf (init cf) ls).interval ∧
    ((run cf (init cf) ls).interval = cf.orig ∧
        (step cf (run cf (init cf) ls) (.thr n .ok)).interval = cf.orig ∨
      (step cf (run cf (init cf) ls) (.thr n .ok)).interval < (run cf (init cf) ls).interval) := by
  have hb := C26_bounds_partial cf h0 (le_of_lt hm) ls
  have hd : 0 < (cf.max - cf.orig) / 8 := div_pos (by linarith) (by norm_num)
  refine ⟨?_, ?_, ?_, ?_⟩
  · simp only [step, thrStep, hn, nextInterval]; rw [mul_comm]
  · simp only [step, thrStep, hn, nextInterval]
  · simp only [step, thrStep, hn, nextInterval]
  · simp only [step, thrStep, hn, nextInterval]
    rcases lt_or_eq_of_le hb.1 with h | h
    · right; exact max_lt (by linarith) h
    · left; refine ⟨h.symm, ?_⟩
      rw [← h]; exact max_eq_right (by linarith)

theorem next_ok (cf : Conf K) (i : K) :
    nextInterval cf i .ok = max (i - (cf.max - cf.orig) / 8) cf.orig := rfl
theorem next_exc (cf : Conf K) (i : K) : nextInterval cf i (.exc false) = min (i * 2) cf.max := rfl

theorem shrink [IsStrictOrderedRing K] (cf : Conf K) (hm : cf.orig ≤ cf.max) (n : Nat) (i : K) :
    (List.replicate n Outcome.ok).foldr (fun o i => nextInterval cf i o) i ≤
      max cf.orig (i - n * ((cf.max - cf.orig) / 8)) := by
  have hd : 0 ≤ (cf.max - cf.orig) / 8 := div_nonneg (by linarith) (by norm_num)
  induction n with
  | zero => simp
  | succ n ih =>
    rw [List.replicate_succ, List.foldr_cons, next_ok]
    apply max_le _ (le_max_left _ _)
    rcases le_max_iff.1 ih with h | h
    · exact le_max_of_le_left (by linarith)
    · refine le_max_of_le_right ?_
      push_cast; linarith

/-- C26, recovery: after any history whose last eight task calls succeeded the interval is the base. -/
theorem C26_eight [IsStrictOrderedRing K] (cf : Conf K) (h0 : 0 ≤ cf.orig) (hm : cf.orig ≤ cf.max)
    (ls : List Lab) (before : List Outcome)
    (h : (run cf (init cf) ls).outs = List.replicate 8 .ok ++ before) :
    (run cf (init cf) ls).interval = cf.orig := by
  have hb := C26_bounds_partial cf h0 hm ls
  have hi := interval_outs cf ls
  rw [h, List.foldr_append] at hi
  have hbb : ∀ os : List Outcome, cf.orig ≤ os.foldr (fun o i => nextInterval cf i o) cf.orig ∧
      os.foldr (fun o i => nextInterval cf i o) cf.orig ≤ cf.max := by
    intro os
    induction os with
    | nil => exact ⟨le_refl _, hm⟩
    | cons o os ih => exact next_bounds h0 hm ih o
  have hs := shrink cf hm 8 (before.foldr (fun o i => nextInterval cf i o) cf.orig)
  rw [← hi] at hs
  refine le_antisymm (hs.trans (max_le (le_refl _) ?_)) hb.1
  have := (hbb before).2
  push_cast; linarith

/-- C26, back-off: after `k` failures in a row from the start the interval is the base doubled `k` times, or the
maximum. -/
theorem C26_backoff [IsStrictOrderedRing K] (cf : Conf K) (h0 : 0 ≤ cf.orig) (hm : cf.orig ≤ cf.max)
    (ls : List Lab) (k : Nat) (h : (run cf (init cf) ls).outs = List.replicate k (.exc false)) :
    (run cf (init cf) ls).interval = min (cf.orig * 2 ^ k) cf.max := by
  rw [interval_outs, h]
  clear h
  induction k with
  | zero => simp [hm]
  | succ k ih =>
    rw [List.replicate_succ, List.foldr_cons, next_exc, ih]
    have hp : 0 ≤ cf.orig * 2 ^ k := mul_nonneg h0 (by positivity)
    rw [pow_succ, ← mul_assoc]
    rcases le_total (cf.orig * 2 ^ k) cf.max with h | h
    · rw [min_eq_left h]
    · rw [min_eq_right h, min_eq_right (by linarith), min_eq_right (by linarith)]

example : (run sample (init sample) sampleRun).interval = 400 ∧ (run sample (init sample) sampleRun).calls = 2 := by
  constructor
  · simp [sampleRun, callAlone, run, step, thrStep, ctlStep, init, sample, Conf.make, St.setCtl, St.setThr, St.phase,
      St.alive, lethal, nextInterval]; norm_num
  · simp [sampleRun, callAlone, run, step, thrStep, ctlStep, init, sample, Conf.make, St.setCtl, St.setThr, St.phase,
      St.alive, lethal]

/-- C26 fails when `max_interval` is set below `interval`: every success then makes the wait longer, without bound. -/
theorem C26_reversed_violated (k : Nat) :
    ∃ ls : List Lab, (∀ i o, Lab.thr i o ∈ ls → o = .ok) ∧
      (run (K := ℚ) ⟨16, 8, true⟩ (init ⟨16, 8, true⟩) ls).interval = 16 + k := by
  refine ⟨callAlone 0 .start ++ (List.replicate k (List.replicate 4 (.thr 0 .ok))).flatten, ?_, ?_⟩
  · intro i o h
    simp [callAlone] at h
    exact h.2.2
  · rw [run_append]
    suffices h : ∀ s : St ℚ, s.phase 0 = .check → s.stopping = false → 16 ≤ s.interval →
        (run ⟨16, 8, true⟩ s (List.replicate k (List.replicate 4 (.thr 0 .ok))).flatten).interval = s.interval + k by
      exact h _ rfl rfl (le_refl _)
    induction k with
    | zero => intro s _ _ _; simp [run]
    | succ k ih =>
      intro s hp hs hi
      rw [List.replicate_succ, List.flatten_cons, run_append]
      have hlt : 0 < s.thr.length := lt_of_phase (by rw [hp]; simp)
      have e : run ⟨16, 8, true⟩ s (List.replicate 4 (.thr 0 .ok)) =
          { s.setThr 0 .check with interval := s.interval + 1, calls := s.calls + 1, outs := .ok :: s.outs } := by
        have h1 : step ⟨16, 8, true⟩ s (.thr 0 .ok) = s.setThr 0 .ready := by
          simp [step, thrStep, hp, hs]
        have h2 : step ⟨16, 8, true⟩ (s.setThr 0 .ready) (.thr 0 .ok) =
            { s.setThr 0 .running with calls := s.calls + 1 } := by
          have : (s.setThr 0 .ready).phase 0 = .ready := by rw [phase_setThr _ _ _ _ hlt, if_pos rfl]
          simp only [step, thrStep, this]; simp [St.setThr]
        have h3 : step ⟨16, 8, true⟩ { s.setThr 0 .running with calls := s.calls + 1 } (.thr 0 .ok) =
            { s.setThr 0 .waiting with interval := s.interval + 1, calls := s.calls + 1, outs := .ok :: s.outs } := by
          have : St.phase { s.setThr 0 .running with calls := s.calls + 1 } 0 = .running := by
            have := phase_setThr s 0 0 .running hlt
            rw [if_pos rfl] at this; exact this
          simp only [step, thrStep, this, next_ok]
          have hm : max (s.interval - ((8 : ℚ) - 16) / 8) 16 = s.interval + 1 := by
            rw [max_eq_left (by linarith)]; norm_num
          simp [St.setThr, lethal, hm]
        have h4 : step ⟨16, 8, true⟩
            { s.setThr 0 .waiting with interval := s.interval + 1, calls := s.calls + 1, outs := .ok :: s.outs }
            (.thr 0 .ok) =
            { s.setThr 0 .check with interval := s.interval + 1, calls := s.calls + 1, outs := .ok :: s.outs } := by
          have : St.phase { s.setThr 0 .waiting with
              interval := s.interval + 1, calls := s.calls + 1, outs := .ok :: s.outs } 0 = .waiting := by
            have := phase_setThr s 0 0 .waiting hlt
            rw [if_pos rfl] at this; exact this
          simp only [step, thrStep, this]; simp [St.setThr]
        rw [show List.replicate 4 (Lab.thr 0 .ok) = [.thr 0 .ok, .thr 0 .ok, .thr 0 .ok, .thr 0 .ok] from rfl]
        rw [run_cons, run_cons, run_cons, run_cons, h1, h2, h3, h4]; rfl
      have hc := phase_setThr s 0 0 .check hlt
      rw [if_pos rfl] at hc
      have := ih { s.setThr 0 .check with interval := s.interval + 1, calls := s.calls + 1, outs := .ok :: s.outs }
        hc hs (by show (16 : ℚ) ≤ s.interval + 1; linarith)
      rw [e, this]
      push_cast
      show s.interval + 1 + _ = _
      ring

/-! ## C29 -/

/-- C29: however many users the actor has, as long as nobody stops it or forks, a thread whose task calls end
normally, with an `Exception` that is noted, or (daemon) with SystemExit or KeyboardInterrupt, is never lost: it
stays in its loop, and the task is called again at least once in every four turns of the thread. -/
theorem C29_survives_partial (cf : Conf K) (n : Nat) (before after : List Lab)
    (hstop : NoStop (before ++ after)) (hfork : NoFork (before ++ after))
    (hout : Survivable cf.daemon n (before ++ after))
    (hn : (run cf (init cf) before).phase n = .check) :
    ((run cf (init cf) (before ++ after)).phase n).looping ∧
    turns n after ≤ 4 * ((run cf (init cf) (before ++ after)).calls - (run cf (init cf) before).calls) + 1 := by
  have h0 : ∀ s : St K, s.stopping = false → (∀ c, s.ctl c ≠ .stop77 ∧ s.ctl c ≠ .stop78 true) →
      ∀ ls, NoStop ls → NoFork ls →
      (run cf s ls).stopping = false ∧ ∀ c, (run cf s ls).ctl c ≠ .stop77 ∧ (run cf s ls).ctl c ≠ .stop78 true := by
    intro s hs hu ls h1 h2
    refine run_inv (P := fun s : St K => s.stopping = false ∧ ∀ c, s.ctl c ≠ .stop77 ∧ s.ctl c ≠ .stop78 true)
      (Q := fun l => (∀ c, l ≠ .call c .stop) ∧ ∀ c, l ≠ .fork c) ?_ ls s
      (fun l hl => ⟨fun c hc => h1 c (hc ▸ hl), fun c hc => h2 c (hc ▸ hl)⟩) ⟨hs, hu⟩
    rintro s l ⟨q1, q2⟩ ⟨hs, hu⟩
    exact quiet_step q1 q2 hs hu
  have hb := h0 (init cf) rfl (fun c => by simp [init]) before
    (fun c hc => hstop c (by simp [hc])) (fun c hc => hfork c (by simp [hc]))
  have g : Going n (run cf (init cf) before) := ⟨hb.1, hb.2, by rw [hn]; trivial⟩
  obtain ⟨g', e⟩ := g.run (cf := cf) (ls := after) (fun c hc => hstop c (by simp [hc]))
    (fun c hc => hfork c (by simp [hc])) (fun o ho => hout o (by simp [ho]))
  rw [run_append]
  refine ⟨g'.loop, ?_⟩
  have := loopRank_le ((run cf (run cf (init cf) before) after).phase n)
  rw [hn, show loopRank .check = 2 from rfl] at e
  omega

/-- The same, for a thread that is anywhere in its loop, stated for one outcome: an `Exception` in a task call leaves the
thread in its loop. -/
theorem C29_exception_stays_partial (cf : Conf K) (s : St K) (n : Nat) (h : s.phase n = .running) :
    ((step cf s (.thr n (.exc false))).phase n).looping ∧
    (((step cf s (.thr n .exit)).phase n).looping ↔ cf.daemon = true) := by
  simp only [step]
  rw [thrStep_phase, thrStep_phase, if_pos rfl, if_pos rfl, h]
  cases hd : cf.daemon <;> simp [thrNext, lethal, Phase.looping]

/-- A daemon actor and a run with failures that satisfies all the assumptions. -/
example : NoStop sampleRun ∧ NoFork sampleRun ∧ Survivable sample.daemon 0 sampleRun ∧
    (run sample (init sample) (callAlone 0 .start)).phase 0 = .check := by
  refine ⟨?_, ?_, ?_, rfl⟩
  · intro c; simp [sampleRun, callAlone]
  · intro c; simp [sampleRun, callAlone]
  · intro o ho
    simp [sampleRun, callAlone] at ho
    rcases ho with rfl | rfl <;> simp

/-- C29 fails: an ordinary `Exception` in the task ends the loop for good when the note callback raises. -/
theorem C29_violated :
    ∃ ls : List Lab, NoStop ls ∧ NoFork ls ∧
      (∀ i o, Lab.thr i o ∈ ls → o = .ok ∨ o = .exc false ∨ o = .exc true) ∧
      (run sample (init sample) ls).alive = false ∧ (run sample (init sample) ls).calls = 1 := by
  refine ⟨callAlone 0 .start ++ [.thr 0 .ok, .thr 0 .ok, .thr 0 (.exc true), .thr 0 .ok, .thr 0 .ok],
    ?_, ?_, ?_, rfl, rfl⟩
  · intro c; simp [callAlone]
  · intro c; simp [callAlone]
  · intro i o ho
    simp [callAlone] at ho
    grind

/-! ## C28 -/

/-- C28: with one user, once `stop()` has found the actor alive and returned, the task is started at most once more
(only if the thread was between its test of the flag and the call), whatever the schedule and whatever else the user
calls, until they call `start()`; and when the thread has had six more turns it is dead. -/
theorem C28_stop_partial (cf : Conf K) (before after : List Lab) (hone : OneUser (before ++ .ctl 0 :: after))
    (hstop : (run cf (init cf) before).ctl 0 = .stop78 true) (hstart : NoStart after) :
    (run cf (init cf) (before ++ .ctl 0 :: after)).calls ≤ (run cf (init cf) before).calls + 1 ∧
    (∀ n, (run cf (init cf) before).cur = some n → 6 ≤ turns n after →
      (run cf (init cf) (before ++ .ctl 0 :: after)).alive = false) := by
  have h1 : OneUser before := fun l hl => hone l (by simp [hl])
  have h2 : OneUser after := fun l hl => hone l (by simp [hl])
  have ho := one_run cf h1 (one_init cf)
  rw [run_append, run_cons]
  generalize run cf (init cf) before = s at hstop ho ⊢
  have hs : step cf s (.ctl 0) = { s.setCtl 0 (.idle .returned) with stopping := true } := by
    simp only [step, ctlStep, hstop]
  have ho' := ho.step (cf := cf) (l := .ctl 0) rfl
  have he : Ending (step cf s (.ctl 0)) := by
    refine ⟨ho', ?_, ?_⟩
    · rw [hs]; simp [St.setCtl]
    · rw [hs]; exact .inl rfl
  obtain ⟨g, gc, e, r⟩ := he.run (cf := cf) h2 hstart
  have hcalls : (step cf s (.ctl 0)).calls = s.calls := by rw [hs]; rfl
  have hcur : (step cf s (.ctl 0)).cur = s.cur := by rw [hs]; rfl
  constructor
  · rw [hcalls] at e
    have : owed (step cf s (.ctl 0)).curPhase ≤ 1 := by unfold owed; split <;> simp
    omega
  · intro n hn ht
    have hd : (run cf (step cf s (.ctl 0)) after).phase n = .dead := by
      rcases r n (by rw [hcur]; exact hn) with r | r
      · have h6 : endRank ((step cf s (.ctl 0)).phase n) ≤ 6 := by
          cases (step cf s (.ctl 0)).phase n <;> simp [endRank]
        have hnu := g.one.fits.weak g.users.2.2.2.2 n
        cases hp : (run cf (step cf s (.ctl 0)) after).phase n <;> simp_all [endRank] <;> omega
      · exact r
    simp only [St.alive, gc, hcur, hn, hd, Phase.alive]

/-- C28, restart: with one user, whatever happened before, when the actor's thread is dead a `join()` reports so, and the
`start()` after it returns with a live thread. -/
theorem C28_restart (cf : Conf K) (before : List Lab) (hone : OneUser before) (timed : Bool) (r : Res)
    (hidle : (run cf (init cf) before).ctl 0 = .idle r) (hdead : (run cf (init cf) before).alive = false)
    (hmade : (run cf (init cf) before).cur ≠ none) :
    (run cf (init cf) (before ++ callAlone 0 (.join timed))).ctl 0 = .idle (.joined false) ∧
    (run cf (init cf) (before ++ callAlone 0 (.join timed) ++ callAlone 0 .start)).ctl 0 = .idle .returned ∧
    (run cf (init cf) (before ++ callAlone 0 (.join timed) ++ callAlone 0 .start)).alive = true := by
  have ho := one_run cf hone (one_init cf)
  rw [List.append_assoc, run_append, run_append, run_append]
  generalize run cf (init cf) before = s at hidle hdead hmade ho ⊢
  have hf := ho.fits
  rw [hidle] at hf
  have hd := allDead_of ho.old hf hdead
  obtain ⟨n, hn⟩ := Option.ne_none_iff_exists'.1 hmade
  rw [join_alone timed hidle hd hn]
  have hst := (start_alone (cf := cf) (s := { s.setCtl 0 (.idle (.joined false)) with stopping := false })
    (r := .joined false) rfl hd).2 (by simp)
  rw [hst]
  refine ⟨rfl, rfl, ?_⟩
  simp [St.alive, St.phase, Phase.alive]

/-- A run that meets the assumptions: the user stops an actor whose thread has just tested the flag; one more call is
made. -/
example : (run sample (init sample) (callAlone 0 .start ++ [.thr 0 .ok, .call 0 .stop, .ctl 0])).ctl 0 = .stop78 true ∧
    (run sample (init sample) (callAlone 0 .start ++ [.thr 0 .ok, .call 0 .stop, .ctl 0])).calls = 0 ∧
    (run sample (init sample) (callAlone 0 .start ++ [.thr 0 .ok, .call 0 .stop, .ctl 0] ++ .ctl 0 ::
      List.replicate 6 (.thr 0 .ok))).calls = 1 ∧
    (run sample (init sample) (callAlone 0 .start ++ [.thr 0 .ok, .call 0 .stop, .ctl 0] ++ .ctl 0 ::
      List.replicate 6 (.thr 0 .ok))).alive = false :=
  ⟨rfl, rfl, rfl, rfl⟩

/-- Two users start the actor at the same time; each finds it not alive and makes a thread.  Then one stops it, and the
thread it can see ends, taking the flag down. -/
def twoStarts : List Lab :=
  [.call 0 .start, .call 1 .start, .ctl 0, .ctl 1, .ctl 0, .ctl 1, .ctl 0, .ctl 1,
   .ctl 0, .ctl 0, .ctl 1, .ctl 1, .call 0 .stop, .ctl 0, .ctl 0, .thr 1 .ok, .thr 1 .ok, .thr 1 .ok]

/-- C28 fails with two users: `stop()` returned, the actor says it is not alive, and yet the task goes on being called,
any number of times. -/
theorem C28_two_users_violated (k : Nat) :
    (run sample (init sample) twoStarts).alive = false ∧
    (run sample (init sample) twoStarts).ctl 0 = .idle .returned ∧
    ∃ ls : List Lab, (∀ l ∈ ls, l = .thr 0 .ok) ∧
      k ≤ (run sample (init sample) (twoStarts ++ ls)).calls := by
  refine ⟨rfl, rfl, List.replicate (4 * k + 3) (.thr 0 .ok), by simp, ?_⟩
  rw [run_append]
  have g : Going 0 (run sample (init sample) twoStarts) := by
    refine ⟨rfl, fun c => ?_, trivial⟩
    rcases Nat.lt_or_ge c 2 with h | h
    · have : c = 0 ∨ c = 1 := by omega
      rcases this with rfl | rfl <;> exact ⟨by decide, by decide⟩
    · have : (run sample (init sample) twoStarts).ctl c = .idle .nothing := by
        have h0 : c ≠ 0 := by omega
        have h1 : c ≠ 1 := by omega
        show (if c = 0 then _ else if c = 0 then _ else if c = 0 then _ else if c = 1 then _ else if c = 1 then _ else
          if c = 0 then _ else if c = 0 then _ else if c = 1 then _ else if c = 0 then _ else if c = 1 then _ else
          if c = 0 then _ else if c = 1 then _ else if c = 0 then _ else if c = 1 then _ else if c = 0 then _ else
            (Ctl.idle .nothing)) = _
        simp only [h0, h1, if_false]
      rw [this]; simp
  obtain ⟨-, e⟩ := g.run (cf := sample) (ls := List.replicate (4 * k + 3) (.thr 0 .ok)) (fun c hc => by simp at hc)
    (fun c hc => by simp at hc) (fun o ho => by simp at ho; exact .inl ho)
  have ht : turns 0 (List.replicate (4 * k + 3) (Lab.thr 0 .ok)) = 4 * k + 3 := by
    simp [turns, List.countP_replicate]
  have := loopRank_le ((run sample (run sample (init sample) twoStarts) (List.replicate (4 * k + 3) (.thr 0 .ok))).phase 0)
  rw [ht] at e
  omega

/-! ## C27 -/

/-- C27 fails: `start()` called while the actor is still stopping returns without raising, and yet the task is never
called again, however the threads are scheduled. -/
theorem C27_violated :
    ∃ before : List Lab, OneUser before ∧ before.getLast? = some (.ctl 0) ∧
      (run sample (init sample) before).ctl 0 = .idle .returned ∧
      Lab.call 0 .start ∈ before ∧
      ∀ after, NoStart after → OneUser after →
        (run sample (init sample) (before ++ after)).calls = (run sample (init sample) before).calls := by
  refine ⟨callAlone 0 .start ++ [.call 0 .stop, .ctl 0, .ctl 0] ++ callAlone 0 .start, ?_, rfl, rfl, ?_, ?_⟩
  · intro l hl
    simp [callAlone] at hl
    rcases hl with rfl | rfl | rfl | rfl | rfl | rfl <;> trivial
  · simp [callAlone]
  · intro after h1 h2
    rw [run_append]
    have h3 : OneUser (callAlone 0 .start ++ [.call 0 .stop, .ctl 0, .ctl 0] ++ callAlone 0 .start) := by
      intro l hl
      simp [callAlone] at hl
      rcases hl with rfl | rfl | rfl | rfl | rfl | rfl <;> trivial
    have he : Ending (run sample (init sample)
        (callAlone 0 .start ++ [.call 0 .stop, .ctl 0, .ctl 0] ++ callAlone 0 .start)) :=
      ⟨one_run _ h3 (one_init _), ⟨(by decide), (by decide), (by decide), (by decide), (by decide)⟩, .inl rfl⟩
    obtain ⟨-, -, e, -⟩ := he.run (cf := sample) h2 h1
    have hle : ∀ (ls : List Lab) (s : St ℚ), s.calls ≤ (run sample s ls).calls := by
      intro ls
      induction ls with
      | nil => intro s; exact Nat.le_refl _
      | cons l ls ih => intro s; exact Nat.le_trans (step_calls_le _ s l) (ih _)
    refine Nat.le_antisymm (Nat.le_trans (Nat.le_add_right _ _) e) (hle _ _)

/-- C27, one user: a `start()` that finds the actor dead (never started, ended, or lost in a fork) and raises no
RuntimeError gives a live thread that stays in its loop and calls the task at least once in every four turns, for as long as
nobody calls `stop()` or forks and the task's failures can be noted. -/
theorem C27_start_partial (cf : Conf K) (before after : List Lab) (hone : OneUser before) (r : Res)
    (hidle : (run cf (init cf) before).ctl 0 = .idle r) (hdead : (run cf (init cf) before).alive = false)
    (hret : (run cf (init cf) (before ++ callAlone 0 .start)).ctl 0 = .idle .returned)
    (hstop : NoStop after) (hfork : NoFork after)
    (hout : Survivable cf.daemon (run cf (init cf) before).thr.length after) :
    (run cf (init cf) (before ++ callAlone 0 .start)).cur = some (run cf (init cf) before).thr.length ∧
    ((run cf (init cf) (before ++ callAlone 0 .start ++ after)).phase
      (run cf (init cf) before).thr.length).looping ∧
    turns (run cf (init cf) before).thr.length after ≤
      4 * ((run cf (init cf) (before ++ callAlone 0 .start ++ after)).calls - (run cf (init cf) before).calls) + 1 := by
  have ho := one_run cf hone (one_init cf)
  rw [run_append] at hret
  rw [run_append, run_append, run_append]
  generalize run cf (init cf) before = s at *
  have hf := ho.fits
  rw [hidle] at hf
  have hd := allDead_of ho.old hf hdead
  have hsa := start_alone (cf := cf) hidle hd
  have hr : ¬ (some s.pid = s.apid ∧ s.stopping = true) := by
    intro hc
    rw [hsa.1 hc] at hret
    simp [St.setCtl] at hret
  have hst : (run cf s (callAlone 0 .start)).cur = some s.thr.length ∧
      (run cf s (callAlone 0 .start)).phase s.thr.length = .check ∧
      (run cf s (callAlone 0 .start)).stopping = false ∧ (run cf s (callAlone 0 .start)).calls = s.calls ∧
      ∀ c, (run cf s (callAlone 0 .start)).ctl c = if c = 0 then .idle .returned else s.ctl c := by
    rw [hsa.2 hr]
    exact ⟨rfl, by simp [St.phase], rfl, rfl, fun _ => rfl⟩
  obtain ⟨e1, e2, e3, e4, e5⟩ := hst
  have g : Going s.thr.length (run cf s (callAlone 0 .start)) := by
    refine ⟨e3, fun c => ?_, by rw [e2]; trivial⟩
    rw [e5]; split
    · simp
    · obtain ⟨r, hr⟩ := ho.others c ‹_›
      rw [hr]; simp
  obtain ⟨g', e⟩ := g.run (cf := cf) hstop hfork hout
  refine ⟨e1, g'.loop, ?_⟩
  have := loopRank_le ((run cf (run cf s (callAlone 0 .start)) after).phase s.thr.length)
  rw [e2, e4, show loopRank .check = 2 from rfl] at e
  omega

/-! The hypotheses of the theorems above, met. -/

example := C26_bounds_partial sample (by norm_num [sample, Conf.make]) (by norm_num [sample, Conf.make]) sampleRun

example := C26_defaults (some (3 / 2 : ℚ)) (by rintro x ⟨⟩; norm_num) true

/-- Up to where the task is running for the third time, after one success and one failure. -/
def running : List Lab := sampleRun ++ [.thr 0 .ok, .thr 0 .ok, .thr 0 .ok]

example := C26_step sample (by norm_num [sample, Conf.make]) (by norm_num [sample, Conf.make]) running 0 rfl

/-- Eight calls of the task that return. -/
def eight : List Lab := callAlone 0 .start ++ List.replicate 33 (.thr 0 .ok)

example : (run sample (init sample) eight).interval = sample.orig :=
  C26_eight sample (by norm_num [sample, Conf.make]) (by norm_num [sample, Conf.make]) eight [] (by simp [eight, callAlone, List.replicate, run, step, thrStep, ctlStep, init, sample, Conf.make, St.setCtl, St.setThr, St.phase, St.alive, lethal, nextInterval])

/-- Started, stopped and ended before. -/
def endedBefore : List Lab := callAlone 0 .start ++ callAlone 0 .stop ++ List.replicate 6 (.thr 0 .ok)

example := C27_start_partial sample endedBefore (List.replicate 9 (.thr 1 .ok))
  (by intro l h; simp [endedBefore, callAlone] at h; rcases h with h | h | h | h | h <;> subst h <;> trivial) .returned rfl rfl rfl
  (by intro c; simp) (by intro c; simp) (by intro o h; simp at h; exact Or.inl h.2)

example := C28_stop_partial sample (callAlone 0 .start ++ [.thr 0 .ok, .call 0 .stop, .ctl 0]) (List.replicate 6 (.thr 0 .ok))
  (by intro l h; simp [callAlone] at h; rcases h with h | h | h | h | h | h <;> subst h <;> trivial) rfl (by intro c; simp)

example := C29_survives_partial sample 0 (callAlone 0 .start) (List.replicate 9 (.thr 0 (.exc false)))
  (by intro c; simp [callAlone]) (by intro c; simp [callAlone])
  (by intro o h; simp [callAlone] at h; exact Or.inr (Or.inl h)) rfl

end Verif.Actor
