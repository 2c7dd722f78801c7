import Verif.Props.Actor
/-!
# C29: what exactly ends an actor's loop
-/
namespace Verif.Actor

variable {K : Type} [Field K] [LinearOrder K]

/-- The step `l` makes thread `n` leave its loop: its task call ends with an exception that the loop does not survive (an `Exception`
whose note raises, SystemExit or KeyboardInterrupt in a thread that is not a daemon, another `BaseException`), or it tests the stopping
flag and finds it set, or the process forks and the child goes on without the thread. -/
inductive Ends (cf : Conf K) (s : St K) (n : Nat) : Lab → Prop
  | note : s.phase n = .running → Ends cf s n (.thr n (.exc true))
  | exit : s.phase n = .running → cf.daemon = false → Ends cf s n (.thr n .exit)
  | base : s.phase n = .running → Ends cf s n (.thr n .base)
  | flag (o : Outcome) : s.phase n = .check → s.stopping = true → Ends cf s n (.thr n o)
  | fork (c : Nat) (r : Res) : s.ctl c = .idle r → Ends cf s n (.fork c)

/-- The thread has left its loop. -/
def Phase.gone (p : Phase) : Prop := p = .leaving ∨ p = .cleared ∨ p = .dead

theorem step_len (cf : Conf K) (s : St K) (l : Lab) : s.thr.length ≤ (step cf s l).thr.length := by
  cases l with
  | thr i o => exact ((thrStep_other cf s i o).2.2.2.2).ge
  | ctl c =>
    simp only [step, ctlStep, St.setCtl, St.setThr]
    repeat' split
    all_goals simp
  | call c op => simp only [step]; split; · cases op <;> exact Nat.le_refl _
                 · exact Nat.le_refl _
  | timeout c => simp only [step]; split <;> exact Nat.le_refl _
  | fork c => simp only [step]; split <;> simp

theorem looping_or_gone {p : Phase} (h : p ≠ .unstarted) : p.looping ∨ p.gone := by
  cases p <;> simp_all [Phase.looping, Phase.gone]

theorem Phase.gone.not {p : Phase} (h : p.gone) : ¬ p.looping := by
  rcases h with rfl | rfl | rfl <;> simp [Phase.looping]

/-- One step, for a thread in its loop. -/
theorem ends_step (cf : Conf K) (s : St K) (n : Nat) (l : Lab) (h : (s.phase n).looping) :
    (Ends cf s n l → ((step cf s l).phase n).gone) ∧ (¬ Ends cf s n l → ((step cf s l).phase n).looping) := by
  have hnd : s.phase n ≠ .dead := fun e => by rw [e] at h; exact h
  have hnu : s.phase n ≠ .unstarted := fun e => by rw [e] at h; exact h
  cases l with
  | thr i o =>
    simp only [step]
    rw [thrStep_phase]
    by_cases hi : i = n
    · subst hi
      rw [if_pos rfl]
      constructor
      · intro he
        cases he with
        | note hp => simp [hp, thrNext, lethal, Phase.gone]
        | exit hp hd => simp [hp, thrNext, lethal, hd, Phase.gone]
        | base hp => simp [hp, thrNext, lethal, Phase.gone]
        | flag _ hp hs => simp [hp, thrNext, hs, Phase.gone]
      · intro he
        cases hp : s.phase i with
        | check =>
          have : s.stopping = false := by
            cases hs : s.stopping with
            | false => rfl
            | true => exact absurd (.flag o hp hs) he
          simp [thrNext, this, Phase.looping]
        | running =>
          have : lethal cf.daemon o = false := by
            cases o with
            | ok => rfl
            | exc b => cases b with
              | false => rfl
              | true => exact absurd (.note hp) he
            | exit => cases hd : cf.daemon with
              | true => rfl
              | false => exact absurd (.exit hp hd) he
            | base => exact absurd (.base hp) he
          simp [thrNext, this, Phase.looping]
        | ready => simp [thrNext, Phase.looping]
        | waiting => simp [thrNext, Phase.looping]
        | _ => rw [hp] at h; exact h.elim
    · rw [if_neg hi]
      refine ⟨fun he => ?_, fun _ => h⟩
      cases he <;> exact absurd rfl hi
  | ctl c => exact ⟨fun he => (nomatch he), fun _ => by simp only [step]; rw [ctlStep_phase s c n hnu hnd]; exact h⟩
  | call c op =>
    refine ⟨fun he => (nomatch he), fun _ => ?_⟩
    simp only [step]; split
    · cases op <;> exact h
    · exact h
  | timeout c =>
    refine ⟨fun he => (nomatch he), fun _ => ?_⟩
    simp only [step]; split <;> exact h
  | fork c =>
    simp only [step]
    cases hc : s.ctl c with
    | idle r =>
      refine ⟨fun _ => .inr (.inr ?_), fun he => absurd (.fork c r hc) he⟩
      simp only [St.phase, List.getD_eq_getElem?_getD, List.getElem?_map]
      cases s.thr[n]? <;> rfl
    | _ =>
      refine ⟨fun he => ?_, fun _ => h⟩
      cases he with
      | fork c r h => rw [hc] at h; cases h

/-- A thread that has left its loop does not come back. -/
theorem gone_step (cf : Conf K) (s : St K) (n : Nat) (l : Lab) (hlt : n < s.thr.length) (h : (s.phase n).gone) :
    ((step cf s l).phase n).gone := by
  cases l with
  | thr i o =>
    simp only [step]
    rw [thrStep_phase]
    by_cases hi : i = n
    · subst hi
      rw [if_pos rfl]
      rcases h with h | h | h <;> rw [h] <;> simp [thrNext, Phase.gone]
    · rw [if_neg hi]; exact h
  | ctl c =>
    have hnu : s.phase n ≠ .unstarted := by rcases h with h | h | h <;> rw [h] <;> simp
    simp only [step]
    by_cases hd : s.phase n = .dead
    · have : (ctlStep s c).phase n = .dead := by
        simp only [ctlStep]
        cases hc : s.ctl c <;> simp only [] <;> repeat' split
        all_goals first
          | exact hd
          | skip
        · simpa only [St.phase, St.setCtl, List.getD_eq_getElem?_getD, List.getElem?_append_left hlt] using hd
        · rename_i i hi hp
          have hne : i ≠ n := fun h => hnu (h ▸ hp)
          have := phase_setThr s i n .check (lt_of_phase (by rw [hp]; simp))
          rw [if_neg hne] at this
          exact this.trans hd
      exact .inr (.inr this)
    · rw [ctlStep_phase s c n hnu hd]; exact h
  | call c op =>
    simp only [step]; split
    · cases op <;> exact h
    · exact h
  | timeout c => simp only [step]; split <;> exact h
  | fork c =>
    simp only [step]
    split
    · refine .inr (.inr ?_)
      simp only [St.phase, List.getD_eq_getElem?_getD, List.getElem?_map]
      cases s.thr[n]? <;> rfl
    · exact h

theorem gone_run (cf : Conf K) (n : Nat) (ls : List Lab) (s : St K) (hlt : n < s.thr.length) (h : (s.phase n).gone) :
    ((run cf s ls).phase n).gone := by
  induction ls generalizing s with
  | nil => exact h
  | cons l ls ih => exact ih _ (lt_of_lt_of_le hlt (step_len cf s l)) (gone_step cf s n l hlt h)

/-- **C29, exactly.**  However many users the actor has and whatever they do, a thread that is in its loop leaves it during a schedule if
and only if, somewhere on the way, one of the events of `Ends` happens to it; and then it never comes back.  No other failure of the
task ends the loop. -/
theorem C29_exact (cf : Conf K) (s : St K) (n : Nat) (after : List Lab) (hn : (s.phase n).looping) :
    (¬ ((run cf s after).phase n).looping ↔ ∃ p l q, after = p ++ l :: q ∧ ((run cf s p).phase n).looping ∧ Ends cf (run cf s p) n l) ∧
    (¬ ((run cf s after).phase n).looping → ∀ more, ¬ ((run cf s (after ++ more)).phase n).looping) := by
  have key : ∀ (after : List Lab) (s : St K), (s.phase n).looping →
      (((run cf s after).phase n).looping ∧ ∀ p l q, after = p ++ l :: q → ¬ Ends cf (run cf s p) n l) ∨
      (((run cf s after).phase n).gone ∧ n < (run cf s after).thr.length ∧
        ∃ p l q, after = p ++ l :: q ∧ ((run cf s p).phase n).looping ∧ Ends cf (run cf s p) n l) := by
    intro after
    induction after with
    | nil => intro s hs; exact .inl ⟨hs, by intro p l q h; simp at h⟩
    | cons l ls ih =>
      intro s hs
      have hlt : n < s.thr.length := lt_of_phase (by intro h; rw [h] at hs; exact hs)
      by_cases he : Ends cf s n l
      · right
        have hg := (ends_step cf s n l hs).1 he
        have hl := lt_of_lt_of_le hlt (step_len cf s l)
        refine ⟨gone_run cf n ls _ hl hg, ?_, [], l, ls, rfl, hs, he⟩
        show n < (run cf (step cf s l) ls).thr.length
        have : ∀ (ls : List Lab) (s : St K), s.thr.length ≤ (run cf s ls).thr.length := by
          intro ls
          induction ls with
          | nil => intro s; exact Nat.le_refl _
          | cons l ls ih => intro s; exact Nat.le_trans (step_len cf s l) (ih _)
        exact lt_of_lt_of_le hl (this _ _)
      · rcases ih (step cf s l) ((ends_step cf s n l hs).2 he) with ⟨h1, h2⟩ | ⟨h1, h2, p, l', q, rfl, h3, h4⟩
        · left
          refine ⟨h1, ?_⟩
          intro p l' q hp
          cases p with
          | nil => simp only [List.nil_append, List.cons.injEq] at hp; rw [← hp.1]; exact he
          | cons x p =>
            simp only [List.cons_append, List.cons.injEq] at hp
            rw [← hp.1]; exact h2 p l' q hp.2
        · exact .inr ⟨h1, h2, l :: p, l', q, rfl, h3, h4⟩
  rcases key after s hn with ⟨h1, h2⟩ | ⟨h1, h2, h3⟩
  · refine ⟨iff_of_false (by simp [h1]) ?_, fun h => absurd h1 h⟩
    rintro ⟨p, l, q, h, -, h'⟩
    exact h2 p l q h h'
  · refine ⟨iff_of_true h1.not h3, fun _ more => ?_⟩
    rw [run_append]
    exact (gone_run cf n more _ h2 h1).not

/-- A failing task call does not end the loop of the sample actor, but one whose note raises does. -/
example : ((run sample (init sample) sampleRun).phase 0).looping ∧
    ¬ ((run sample (run sample (init sample) (callAlone 0 .start)) [.thr 0 .ok, .thr 0 .ok, .thr 0 (.exc true)]).phase 0).looping :=
  ⟨by decide, (C29_exact sample _ 0 _ (by decide)).1.2 ⟨[.thr 0 .ok, .thr 0 .ok], _, [], rfl, by decide, .note rfl⟩⟩

/-! ## C27 -/

/-- `start()` that finds the actor alive returns and changes nothing. -/
theorem start_alive {cf : Conf K} {s : St K} {r : Res} (hidle : s.ctl 0 = .idle r) (ha : s.alive = true) :
    run cf s (callAlone 0 .start) = s.setCtl 0 (.idle .returned) := by
  have e0 := (call_idle (cf := cf) hidle).1
  have e1 : step cf (s.setCtl 0 .start57) (.ctl 0) = s.setCtl 0 (.idle .returned) := by
    simp only [step, ctlStep, setCtl_ctl, if_true]
    rw [if_pos (by exact ha)]
    exact setCtl_setCtl _ _ _ _
  have e2 : step cf (s.setCtl 0 (.idle .returned)) (.ctl 0) = s.setCtl 0 (.idle .returned) := by
    simp only [step, ctlStep, setCtl_ctl, if_true]
  show run cf (step cf (step cf s _) _) _ = _
  rw [e0, e1]
  show run cf _ [.ctl 0, .ctl 0, .ctl 0, .ctl 0] = _
  rw [run_cons, e2, run_cons, e2, run_cons, e2, run_cons, e2, run_nil]

/-- A thread in its loop, left alone with the flag set, leaves within four turns. -/
theorem flag_ends (cf : Conf K) (s : St K) (n : Nat) (hs : s.stopping = true) (hl : (s.phase n).looping) :
    ∃ k, ¬ ((run cf s (List.replicate k (.thr n .ok))).phase n).looping := by
  have one : ∀ s : St K, s.stopping = true → s.phase n = .check → ∃ k, ¬ ((run cf s (List.replicate k (.thr n .ok))).phase n).looping := by
    intro s hs hp
    refine ⟨1, ?_⟩
    show ¬ ((thrStep cf s n .ok).phase n).looping
    rw [thrStep_phase, if_pos rfl, hp, hs]; simp [thrNext, Phase.looping]
  have back : ∀ (s : St K), (∃ k, ¬ ((run cf (step cf s (.thr n .ok)) (List.replicate k (.thr n .ok))).phase n).looping) →
      ∃ k, ¬ ((run cf s (List.replicate k (.thr n .ok))).phase n).looping := by
    rintro s ⟨k, hk⟩; exact ⟨k + 1, hk⟩
  have next : ∀ s : St K, s.stopping = true → (s.phase n).looping → s.phase n ≠ .check →
      (step cf s (.thr n .ok)).stopping = true ∧ (step cf s (.thr n .ok)).phase n = thrNext cf.daemon true .ok (s.phase n) := by
    intro s hs hl _
    simp only [step]
    rw [thrStep_stopping, thrStep_phase, if_pos rfl, hs]
    refine ⟨?_, rfl⟩
    rw [if_neg]; intro h; rw [h] at hl; exact hl
  have wait : ∀ s : St K, s.stopping = true → s.phase n = .waiting → ∃ k, ¬ ((run cf s (List.replicate k (.thr n .ok))).phase n).looping := by
    intro s hs hp
    obtain ⟨h1, h2⟩ := next s hs (by rw [hp]; trivial) (by rw [hp]; simp)
    exact back s (one _ h1 (by rw [h2, hp]; rfl))
  have runn : ∀ s : St K, s.stopping = true → s.phase n = .running → ∃ k, ¬ ((run cf s (List.replicate k (.thr n .ok))).phase n).looping := by
    intro s hs hp
    obtain ⟨h1, h2⟩ := next s hs (by rw [hp]; trivial) (by rw [hp]; simp)
    exact back s (wait _ h1 (by rw [h2, hp]; rfl))
  cases hp : s.phase n with
  | check => exact one s hs hp
  | waiting => exact wait s hs hp
  | running => exact runn s hs hp
  | ready =>
    obtain ⟨h1, h2⟩ := next s hs hl (by rw [hp]; simp)
    exact back s (runn _ h1 (by rw [h2, hp]; rfl))
  | _ => rw [hp] at hl; exact hl.elim

/-- **C27, exactly**, for one user.  After a `start()` that returned, the actor's thread stays in its loop for as long as nobody calls
`stop()` or forks and the task's failures can be noted, if and only if `start()` found the actor dead, or found its thread in the loop
with the stopping flag down.  In all other cases (a thread that has been told to stop, or is on its way out) `start()` does nothing and
the thread ends. -/
theorem C27_exact (cf : Conf K) (before : List Lab) (hone : OneUser before) (r : Res)
    (hidle : (run cf (init cf) before).ctl 0 = .idle r)
    (hret : (run cf (init cf) (before ++ callAlone 0 .start)).ctl 0 = .idle .returned) :
    (∃ n, (run cf (init cf) (before ++ callAlone 0 .start)).cur = some n ∧ ∀ after, NoStop after → NoFork after →
        Survivable cf.daemon n after → ((run cf (init cf) (before ++ callAlone 0 .start ++ after)).phase n).looping) ↔
      ((run cf (init cf) before).alive = false ∨
        ∃ n, (run cf (init cf) before).cur = some n ∧ ((run cf (init cf) before).phase n).looping ∧
          (run cf (init cf) before).stopping = false) := by
  constructor
  · rintro ⟨n, h1, h2⟩
    by_cases hd : (run cf (init cf) before).alive = false
    · exact .inl hd
    right
    have ha : (run cf (init cf) before).alive = true := by simpa using hd
    simp only [run_append] at h1 h2
    generalize run cf (init cf) before = s at *
    have hst := start_alive (cf := cf) hidle ha
    rw [hst] at h1 h2
    refine ⟨n, h1, h2 [] (by intro c; simp) (by intro c; simp) (by intro o; simp), ?_⟩
    cases hs : s.stopping with
    | false => rfl
    | true =>
      obtain ⟨k, hk⟩ := flag_ends cf (s.setCtl 0 (.idle .returned)) n hs
        (h2 [] (by intro c; simp) (by intro c; simp) (by intro o; simp))
      refine absurd (h2 _ (by intro c hc; simp at hc) (by intro c hc; simp at hc) ?_) hk
      intro o ho
      simp only [List.mem_replicate, Lab.thr.injEq, true_and] at ho
      exact .inl ho.2
  · rintro (hd | ⟨n, h1, h2, h3⟩)
    · exact ⟨_, (C27_start_partial cf before [] hone r hidle hd hret (by intro c; simp) (by intro c; simp) (by intro o; simp)).1,
        fun after g1 g2 g3 => (C27_start_partial cf before after hone r hidle hd hret g1 g2 g3).2.1⟩
    · have ho := one_run cf hone (one_init cf)
      refine ⟨n, ?_, ?_⟩
      all_goals
        have ha : (run cf (init cf) before).alive = true := by
          simp only [St.alive, h1]
          cases hp : (run cf (init cf) before).phase n <;> simp_all [Phase.looping, Phase.alive]
        simp only [run_append]
        generalize run cf (init cf) before = s at *
        have hst := start_alive (cf := cf) hidle ha
        rw [hst]
      · exact h1
      · intro after g1 g2 g3
        have g : Going n (s.setCtl 0 (.idle .returned)) := by
          refine ⟨h3, fun c => ?_, h2⟩
          rw [setCtl_ctl]; split
          · simp
          · obtain ⟨r, hr⟩ := ho.others c ‹_›
            rw [hr]; simp
        exact (g.run (cf := cf) g1 g2 g3).1.loop

/-- `start()` on an actor that has been told to stop: it is alive, the flag is up. -/
example : ¬ ((run sample (init sample) (callAlone 0 .start ++ callAlone 0 .stop)).alive = false ∨
    ∃ n, (run sample (init sample) (callAlone 0 .start ++ callAlone 0 .stop)).cur = some n ∧
      ((run sample (init sample) (callAlone 0 .start ++ callAlone 0 .stop)).phase n).looping ∧
      (run sample (init sample) (callAlone 0 .start ++ callAlone 0 .stop)).stopping = false) := by
  rintro (h | ⟨n, -, -, h⟩) <;> revert h <;> decide

end Verif.Actor
