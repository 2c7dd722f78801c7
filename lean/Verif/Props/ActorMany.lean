import Verif.Props.Actor
/-!
# C28 with any number of users
-/
namespace Verif.Actor

variable {K : Type} [Field K] [LinearOrder K]

/-- How many actor threads have passed the test of the flag and are about to call the task. -/
def St.about (s : St K) : Nat := s.thr.count .ready

theorem phase_get {s : St K} {i : Nat} (h : i < s.thr.length) : s.phase i = s.thr[i] := by
  simp [St.phase, List.getD_eq_getElem?_getD, h]

theorem about_setThr (s : St K) {i : Nat} {p q : Phase} (h : s.phase i = p) (hp : p ≠ .dead) (hr : p ≠ .ready) (hq : q ≠ .ready) :
    (s.setThr i q).about = s.about := by
  have hi := lt_of_phase (s := s) (i := i) (h ▸ hp)
  rw [phase_get hi] at h
  simp only [St.about, St.setThr]
  rw [List.count_set hi, h, if_neg (by simpa using hr), if_neg (by simpa using hq)]
  rfl

theorem thrStep_about {cf : Conf K} {s : St K} (hs : s.stopping = true) (i : Nat) (o : Outcome) :
    (thrStep cf s i o).calls + (thrStep cf s i o).about = s.calls + s.about := by
  unfold thrStep
  split
  · rfl
  · next h =>
    rw [hs, if_pos rfl, about_setThr s h (by simp) (by simp) (by simp)]
    rfl
  · next h =>
    have hi := lt_of_phase (s := s) (i := i) (by rw [h]; simp)
    have h' := h
    rw [phase_get hi] at h'
    have hpos : 0 < s.thr.count .ready := List.count_pos_iff.2 (h' ▸ List.getElem_mem hi)
    simp only [St.about, St.setThr]
    rw [List.count_set hi, h', if_pos (by simp), if_neg (by simp)]
    omega
  · next h =>
    have := about_setThr s (q := if lethal cf.daemon o then .leaving else .waiting) h (by simp) (by simp) (by split <;> simp)
    exact congrArg (s.calls + ·) this
  · next h =>
    rw [about_setThr s h (by simp) (by simp) (by simp)]
    rfl
  · next h =>
    have := about_setThr s (q := .cleared) h (by simp) (by simp) (by simp)
    exact congrArg (s.calls + ·) this
  · next h =>
    rw [about_setThr s h (by simp) (by simp) (by simp)]
    rfl
  · rfl

theorem ctlStep_about (s : St K) (c : Nat) : (ctlStep s c).about = s.about := by
  unfold ctlStep
  split
  · rfl
  · split <;> rfl
  · split <;> rfl
  · rfl
  · simp [St.about, St.setCtl]
  · split
    · rfl
    · split
      · next h => exact about_setThr s h (by simp) (by simp) (by simp)
      · rfl
  · rfl
  · rfl
  · split
    · rfl
    · split <;> rfl
  · split <;> rfl
  · rfl
  · dsimp only
    split <;> rfl

theorem step_about {cf : Conf K} {s : St K} (hs : s.stopping = true) (l : Lab) :
    (step cf s l).calls + (step cf s l).about ≤ s.calls + s.about := by
  cases l with
  | thr i o => exact (thrStep_about hs i o).le
  | call c op =>
    simp only [step]
    split
    · cases op <;> exact le_refl _
    · exact le_refl _
  | ctl c =>
    have := ctlStep_about s c
    have h := ctlStep_calls s c
    simp only [step]
    omega
  | timeout c =>
    simp only [step]
    split <;> exact le_refl _
  | fork c =>
    simp only [step]
    split
    · have : (s.thr.map fun _ => Phase.dead).count .ready = 0 := by
        rw [List.count_eq_zero]
        simp
      simp only [St.about, this]
      omega
    · exact le_refl _

/-- **C28, for any users.**  From any moment at which stopping is requested, and for as long as it is, however many threads run
and whatever calls are made by whomever: the task is started at most once more for each thread that was just about to start it, and
never by a thread that comes to its test of the flag. -/
theorem C28_requested_partial (cf : Conf K) (before after : List Lab)
    (hreq : ∀ p, p <+: after → (run cf (init cf) (before ++ p)).stopping = true) :
    (run cf (init cf) (before ++ after)).calls ≤ (run cf (init cf) before).calls + (run cf (init cf) before).about := by
  have key : ∀ (after : List Lab) (s : St K), (∀ p, p <+: after → (run cf s p).stopping = true) →
      (run cf s after).calls + (run cf s after).about ≤ s.calls + s.about := by
    intro after
    induction after with
    | nil => intro s _; exact le_refl _
    | cons l ls ih =>
      intro s h
      have h1 := step_about (cf := cf) (s := s) (h [] List.nil_prefix) l
      have h2 := ih (step cf s l) fun p hp => by
        have := h (l :: p) (List.cons_prefix_cons.2 ⟨rfl, hp⟩)
        rwa [run_cons] at this
      rw [run_cons]
      omega
  have := key after (run cf (init cf) before) fun p hp => by rw [← run_append]; exact hreq p hp
  rw [run_append]
  omega

/-- What the state looks like from then on: nobody is in a call, thread `n` is the only one that may be alive, and it has to stop
or is past the loop. -/
structure Winding (n : Nat) (s : St K) : Prop where
  users : ∀ c, ∃ r, s.ctl c = .idle r
  others : ∀ i, i ≠ n → (s.phase i).alive = false
  own : s.stopping = true ∨ (s.phase n ≠ .check ∧ s.phase n ≠ .ready ∧ s.phase n ≠ .running ∧ s.phase n ≠ .waiting ∧
    s.phase n ≠ .leaving)

theorem thrStep_cur (cf : Conf K) (s : St K) (i : Nat) (o : Outcome) : (thrStep cf s i o).cur = s.cur ∧ (thrStep cf s i o).ctl = s.ctl := by
  unfold thrStep
  split <;> exact ⟨rfl, rfl⟩

theorem Winding.step {cf : Conf K} {n : Nat} {s : St K} (h : Winding n s) {l : Lab} (hl : ∀ c op, l ≠ .call c op) :
    Winding n (step cf s l) ∧ (step cf s l).cur = s.cur ∧
    (step cf s l).calls + owed ((step cf s l).phase n) ≤ s.calls + owed (s.phase n) ∧
    (endRank ((step cf s l).phase n) + turns n [l] ≤ endRank (s.phase n) ∨ ((step cf s l).phase n).alive = false) := by
  cases l with
  | call c op => exact absurd rfl (hl c op)
  | ctl c =>
    obtain ⟨r, hr⟩ := h.users c
    have : Actor.step cf s (.ctl c) = s := by simp only [Actor.step, ctlStep, hr]
    rw [this]
    exact ⟨h, rfl, le_refl _, .inl (by simp [turns])⟩
  | timeout c =>
    obtain ⟨r, hr⟩ := h.users c
    have : Actor.step cf s (.timeout c) = s := by simp only [Actor.step, hr]
    rw [this]
    exact ⟨h, rfl, le_refl _, .inl (by simp [turns])⟩
  | fork c =>
    obtain ⟨r, hr⟩ := h.users c
    have hs : Actor.step cf s (.fork c) = { s with
        thr := s.thr.map fun _ => .dead
        pid := s.pid + 1
        ctl := fun d => if d = c then s.ctl c else .idle .nothing } := by simp only [Actor.step, hr]
    have hph : ∀ i, (Actor.step cf s (.fork c)).phase i = .dead := by
      intro i
      rw [hs]
      simp only [St.phase, List.getD_eq_getElem?_getD, List.getElem?_map]
      cases s.thr[i]? <;> rfl
    refine ⟨⟨?_, fun i _ => by rw [hph]; rfl, .inr (by rw [hph]; simp)⟩, by rw [hs], ?_, .inr (by rw [hph]; rfl)⟩
    · intro d
      rw [hs]
      by_cases hd : d = c
      · exact ⟨r, by simp [hd, hr]⟩
      · exact ⟨.nothing, by simp [hd]⟩
    · rw [hph]
      have : (Actor.step cf s (.fork c)).calls = s.calls := by rw [hs]
      rw [this]
      simp [owed]
  | thr i o =>
    simp only [Actor.step]
    have hcur := thrStep_cur cf s i o
    have hph := thrStep_phase cf s i
    have hst := thrStep_stopping cf s i o
    have hca := thrStep_calls cf s i o
    by_cases hi : i = n
    · subst hi
      have hp := hph i o
      rw [if_pos rfl] at hp
      refine ⟨⟨fun c => by rw [hcur.2]; exact h.users c, fun j hj => ?_, ?_⟩, hcur.1, ?_, ?_⟩
      · rw [hph j o, if_neg (Ne.symm hj)]; exact h.others j hj
      · rw [hp, hst]
        rcases h.own with hown | hown
        · rw [hown]
          cases hph : s.phase i <;> simp_all [thrNext]
        · right
          cases hph : s.phase i <;> simp_all [thrNext]
      · rw [hp, hca]
        rcases h.own with hown | hown
        · rw [hown]
          cases hph : s.phase i <;> cases hle : lethal cf.daemon o <;> simp [thrNext, owed, hle]
        · cases hph : s.phase i <;> simp_all [thrNext, owed]
      · rw [hp]
        have ht : turns i [.thr i o] = 1 := by simp [turns]
        rw [ht]
        rcases h.own with hown | hown
        · rw [hown]
          cases hph : s.phase i <;> cases hle : lethal cf.daemon o <;> simp [thrNext, endRank, Phase.alive, hle]
        · cases hph : s.phase i <;> simp_all [thrNext, endRank, Phase.alive]
    · have hdead := h.others i hi
      have hsame : thrStep cf s i o = s ∨ False := by
        left
        unfold thrStep
        cases hp : s.phase i <;> rw [hp] at hdead <;> first | rfl | cases hdead
      rw [hsame.resolve_right id]
      refine ⟨h, rfl, le_refl _, .inl ?_⟩
      have : turns n [.thr i o] = 0 := by simp [turns, hi]
      rw [this]; simp

theorem thrNext_not_alive {d b : Bool} {o : Outcome} {p : Phase} (h : p.alive = false) : thrNext d b o p = p := by
  cases p <;> first | rfl | cases h

theorem Winding.dead_stays {cf : Conf K} {n : Nat} {s : St K} (h : Winding n s) {l : Lab} (hl : ∀ c op, l ≠ .call c op)
    (hd : (s.phase n).alive = false) : ((Actor.step cf s l).phase n).alive = false := by
  cases l with
  | thr i o =>
    simp only [Actor.step]
    rw [thrStep_phase]
    split
    · next hi => rw [hi, thrNext_not_alive hd]; exact hd
    · exact hd
  | call c op => exact absurd rfl (hl c op)
  | ctl c =>
    obtain ⟨r, hr⟩ := h.users c
    simp only [Actor.step, ctlStep, hr]; exact hd
  | timeout c =>
    obtain ⟨r, hr⟩ := h.users c
    simp only [Actor.step, hr]; exact hd
  | fork c =>
    obtain ⟨r, hr⟩ := h.users c
    simp only [Actor.step, hr, St.phase, List.getD_eq_getElem?_getD, List.getElem?_map]
    cases s.thr[n]? <;> rfl

theorem Winding.run {cf : Conf K} {n : Nat} {ls : List Lab} : ∀ {s : St K}, Winding n s → (∀ c op, Lab.call c op ∉ ls) →
    Winding n (run cf s ls) ∧ (run cf s ls).cur = s.cur ∧ (run cf s ls).calls ≤ s.calls + owed (s.phase n) ∧
    (endRank ((run cf s ls).phase n) + turns n ls ≤ endRank (s.phase n) ∨ ((run cf s ls).phase n).alive = false) := by
  induction ls with
  | nil => intro s h _; exact ⟨h, rfl, Nat.le_add_right _ _, .inl (by simp [turns, run_nil])⟩
  | cons l ls ih =>
    intro s h hl
    have hl1 : ∀ c op, l ≠ .call c op := fun c op e => hl c op (by simp [e])
    have hl2 : ∀ c op, Lab.call c op ∉ ls := fun c op e => hl c op (by simp [e])
    obtain ⟨h1, h2, h3, h4⟩ := h.step (cf := cf) hl1
    obtain ⟨g1, g2, g3, g4⟩ := ih h1 hl2
    rw [run_cons]
    refine ⟨g1, g2.trans h2, by omega, ?_⟩
    rcases g4 with g4 | g4
    · rcases h4 with h4 | h4
      · left
        rw [turns_cons]
        omega
      · right
        clear ih g1 g2 g3 g4
        have : ∀ (ls : List Lab) (s : St K), (∀ c op, Lab.call c op ∉ ls) → Winding n s → (s.phase n).alive = false →
            ((Actor.run cf s ls).phase n).alive = false := by
          intro ls
          induction ls with
          | nil => intro s _ _ hd; exact hd
          | cons l ls ih =>
            intro s hl hw hd
            have e1 : ∀ c op, l ≠ .call c op := fun c op e => hl c op (by simp [e])
            rw [run_cons]
            exact ih _ (fun c op e => hl c op (by simp [e])) (hw.step (cf := cf) e1).1 (hw.dead_stays e1 hd)
        exact this ls _ hl2 h1 h4
    · exact .inr g4

/-- **C28, many users.**  Any number of threads have used the actor in any way.  `c` has called `stop()`, found the actor alive and
is about to set the flag; nobody else is in a call, and only one of the threads ever made, `n`, is alive.  If no calls follow, the task
is started at most once more, and after at most six steps of it no thread is left. -/
theorem C28_users_partial (cf : Conf K) (before after : List Lab) (c n : Nat)
    (hstop : (run cf (init cf) before).ctl c = .stop78 true)
    (hidle : ∀ d, d ≠ c → ∃ r, (run cf (init cf) before).ctl d = .idle r)
    (honly : ∀ i, i ≠ n → ((run cf (init cf) before).phase i).alive = false)
    (hcalls : ∀ d op, Lab.call d op ∉ after) :
    (run cf (init cf) (before ++ .ctl c :: after)).calls ≤ (run cf (init cf) before).calls + 1 ∧
    (6 ≤ turns n after → ∀ i, ((run cf (init cf) (before ++ .ctl c :: after)).phase i).alive = false) := by
  rw [run_append, run_cons]
  generalize run cf (init cf) before = s at hstop hidle honly ⊢
  have hs : step cf s (.ctl c) = { s.setCtl c (.idle .returned) with stopping := true } := by
    simp only [step, ctlStep, hstop]
  have hph : ∀ i, (step cf s (.ctl c)).phase i = s.phase i := fun i => by rw [hs]; rfl
  have hw : Winding n (step cf s (.ctl c)) := by
    refine ⟨fun d => ?_, fun i hi => by rw [hph]; exact honly i hi, .inl (by rw [hs])⟩
    rw [hs]
    by_cases hd : d = c
    · exact ⟨.returned, by simp [St.setCtl, hd]⟩
    · obtain ⟨r, hr⟩ := hidle d hd
      exact ⟨r, by simp [St.setCtl, hd, hr]⟩
  obtain ⟨g1, _, g3, g4⟩ := hw.run (cf := cf) hcalls
  have hc : (step cf s (.ctl c)).calls = s.calls := by rw [hs]; rfl
  rw [hc] at g3
  refine ⟨?_, ?_⟩
  · have : owed ((step cf s (.ctl c)).phase n) ≤ 1 := by unfold owed; split <;> simp
    omega
  · intro ht i
    by_cases hi : i = n
    · subst hi
      rcases g4 with g4 | g4
      · have h6 : endRank ((step cf s (.ctl c)).phase i) ≤ 6 := by
          cases (step cf s (.ctl c)).phase i <;> simp [endRank]
        cases hp : (run cf (step cf s (.ctl c)) after).phase i <;> simp_all [endRank, Phase.alive] <;> omega
      · exact g4
    · exact g1.others i hi

/-- User 1 starts the actor, user 2 stops it when its thread has just tested the flag; one more call is made. -/
def handedOver : List Lab := callAlone 1 .start ++ [.thr 0 .ok, .call 2 .stop, .ctl 2]

example : (run sample (init sample) (handedOver ++ .ctl 2 :: List.replicate 6 (.thr 0 .ok))).calls =
      (run sample (init sample) handedOver).calls + 1 ∧
    ∀ i, ((run sample (init sample) (handedOver ++ .ctl 2 :: List.replicate 6 (.thr 0 .ok))).phase i).alive = false := by
  refine ⟨rfl, (C28_users_partial sample handedOver (List.replicate 6 (.thr 0 .ok)) 2 0 rfl ?_ ?_ (by simp)).2 (by decide)⟩
  · intro d hd
    by_cases h1 : d = 1
    · exact ⟨.returned, by subst h1; rfl⟩
    · refine ⟨.nothing, ?_⟩
      simp [handedOver, callAlone, run, step, ctlStep, init, St.setCtl, St.alive, St.phase, St.setThr, thrStep, hd, h1]
  · intro i hi
    cases i with
    | zero => exact absurd rfl hi
    | succ i => rfl

/-- Two threads, each about to call the task when stopping is requested: two more calls are made while it is. -/
def twoReady : List Lab := twoStarts.take 12 ++ [.thr 0 .ok, .thr 1 .ok, .call 0 .stop, .ctl 0, .ctl 0]

example : (run sample (init sample) twoReady).stopping = true ∧ (run sample (init sample) twoReady).about = 2 ∧
    (run sample (init sample) twoReady).calls = 0 ∧
    (∀ p ∈ [[], [Lab.thr 0 .ok], [.thr 0 .ok, .thr 1 .ok]], (run sample (init sample) (twoReady ++ p)).stopping = true) ∧
    (run sample (init sample) (twoReady ++ [.thr 0 .ok, .thr 1 .ok])).calls = 2 :=
  ⟨rfl, rfl, rfl, by simp only [List.forall_mem_cons]; exact ⟨rfl, rfl, rfl, by simp⟩, rfl⟩

end Verif.Actor
