import Verif.Spec.Actor
import Mathlib.Tactic.Linarith
/-!
# The actor: invariants
-/
namespace Verif.Actor

set_option linter.unusedSectionVars false

variable {K : Type} [Field K] [LinearOrder K]

theorem run_nil (cf : Conf K) (s : St K) : run cf s [] = s := rfl
theorem run_cons (cf : Conf K) (s : St K) (l : Lab) (ls : List Lab) :
    run cf s (l :: ls) = run cf (step cf s l) ls := rfl
theorem run_append (cf : Conf K) (s : St K) (ls ls' : List Lab) :
    run cf s (ls ++ ls') = run cf (run cf s ls) ls' := List.foldl_append

/-- Induction over a schedule all of whose labels satisfy `Q`. -/
theorem run_inv {cf : Conf K} {P : St K → Prop} {Q : Lab → Prop}
    (h : ∀ s l, Q l → P s → P (step cf s l)) : ∀ (ls : List Lab) (s : St K), (∀ l ∈ ls, Q l) → P s →
      P (run cf s ls) := by
  intro ls
  induction ls with
  | nil => intro s _ hs; exact hs
  | cons l ls ih =>
    intro s hq hs
    exact ih _ (fun m hm => hq m (by simp [hm])) (h s l (hq l (by simp)) hs)

/-! ## Interval -/

theorem next_bounds [IsStrictOrderedRing K] {cf : Conf K} (h0 : 0 ≤ cf.orig) (hm : cf.orig ≤ cf.max) {i : K}
    (hi : cf.orig ≤ i ∧ i ≤ cf.max) (o : Outcome) :
    cf.orig ≤ nextInterval cf i o ∧ nextInterval cf i o ≤ cf.max := by
  cases o with
  | ok =>
    simp only [nextInterval]
    refine ⟨le_max_right _ _, max_le ?_ hm⟩
    have : 0 ≤ (cf.max - cf.orig) / 8 := div_nonneg (by linarith) (by norm_num)
    linarith
  | exc b =>
    cases b with
    | false =>
      simp only [nextInterval]
      exact ⟨le_min (by linarith) hm, min_le_right _ _⟩
    | true => exact hi
  | exit => exact hi
  | base => exact hi

theorem setThr_interval (s : St K) (i : Nat) (p : Phase) : (s.setThr i p).interval = s.interval := rfl

theorem ctlStep_interval (s : St K) (c : Nat) :
    (ctlStep s c).interval = s.interval ∧ (ctlStep s c).outs = s.outs := by
  simp only [ctlStep, St.setCtl, St.setThr]
  repeat' split
  all_goals exact ⟨rfl, rfl⟩

/-- Only a finished task call changes the interval, and by `nextInterval`. -/
theorem step_interval (cf : Conf K) (s : St K) (l : Lab) :
    ((step cf s l).interval = s.interval ∧ (step cf s l).outs = s.outs) ∨
    ∃ o, (step cf s l).interval = nextInterval cf s.interval o ∧ (step cf s l).outs = o :: s.outs := by
  cases l with
  | thr i o =>
    simp only [step, thrStep, St.setThr]
    cases s.phase i with
    | running => exact .inr ⟨o, rfl, rfl⟩
    | _ => exact .inl ⟨rfl, rfl⟩
  | call c op =>
    left
    simp only [step]
    split
    · cases op <;> exact ⟨rfl, rfl⟩
    · exact ⟨rfl, rfl⟩
  | ctl c => exact .inl (ctlStep_interval s c)
  | timeout c => left; simp only [step]; split <;> exact ⟨rfl, rfl⟩
  | fork c => left; simp only [step]; split <;> exact ⟨rfl, rfl⟩

/-- The interval is a function of the outcomes so far. -/
theorem interval_outs (cf : Conf K) (ls : List Lab) :
    (run cf (init cf) ls).interval =
      (run cf (init cf) ls).outs.foldr (fun o i => nextInterval cf i o) cf.orig := by
  refine run_inv (P := fun s => s.interval = s.outs.foldr (fun o i => nextInterval cf i o) cf.orig)
    (Q := fun _ => True) ?_ ls _ (fun _ _ => trivial) rfl
  intro s l _ hs
  rcases step_interval cf s l with ⟨h1, h2⟩ | ⟨o, h1, h2⟩
  · rw [h1, h2, hs]
  · rw [h1, h2, List.foldr_cons, ← hs]

/-! ## Phases -/

theorem phase_setThr (s : St K) (i j : Nat) (p : Phase) (hi : i < s.thr.length) :
    (s.setThr i p).phase j = if i = j then p else s.phase j := by
  simp only [St.setThr, St.phase, List.getD_eq_getElem?_getD, List.getElem?_set]
  by_cases h : i = j
  · subst h; simp [hi]
  · simp [h]

theorem lt_of_phase {s : St K} {i : Nat} (h : s.phase i ≠ .dead) : i < s.thr.length := by
  by_contra hc
  apply h
  simp [St.phase, List.getD_eq_getElem?_getD, List.getElem?_eq_none (Nat.le_of_not_lt hc)]

/-- One thread's turn, on phases. -/
def thrNext (daemon stopping : Bool) (o : Outcome) : Phase → Phase
  | .unstarted => .unstarted
  | .check => if stopping then .leaving else .ready
  | .ready => .running
  | .running => if lethal daemon o then .leaving else .waiting
  | .waiting => .check
  | .leaving => .cleared
  | .cleared => .dead
  | .dead => .dead

theorem thrStep_phase (cf : Conf K) (s : St K) (i j : Nat) (o : Outcome) :
    (thrStep cf s i o).phase j =
      if i = j then thrNext cf.daemon s.stopping o (s.phase i) else s.phase j := by
  have key : ∀ p, s.phase i = p → p ≠ .dead → ∀ q, (s.setThr i q).phase j = if i = j then q else s.phase j :=
    fun p hp hne q => phase_setThr s i j q (lt_of_phase (by rw [hp]; exact hne))
  simp only [thrStep]
  cases hp : s.phase i with
  | unstarted => by_cases h : i = j <;> simp [h, thrNext]; rw [← h, hp]
  | check => exact key _ hp (by simp) _
  | ready => exact key _ hp (by simp) _
  | running => exact key _ hp (by simp) _
  | waiting => exact key _ hp (by simp) _
  | leaving => exact key _ hp (by simp) _
  | cleared => exact key _ hp (by simp) _
  | dead => by_cases h : i = j <;> simp [h, thrNext]; rw [← h, hp]

theorem thrStep_other (cf : Conf K) (s : St K) (i : Nat) (o : Outcome) :
    (thrStep cf s i o).cur = s.cur ∧ (thrStep cf s i o).ctl = s.ctl ∧ (thrStep cf s i o).apid = s.apid ∧
    (thrStep cf s i o).pid = s.pid ∧ (thrStep cf s i o).thr.length = s.thr.length := by
  simp only [thrStep]
  split <;> simp [St.setThr]

theorem thrStep_stopping (cf : Conf K) (s : St K) (i : Nat) (o : Outcome) :
    (thrStep cf s i o).stopping = if s.phase i = .leaving then false else s.stopping := by
  simp only [thrStep]
  cases hp : s.phase i <;> simp [St.setThr]

theorem thrStep_calls (cf : Conf K) (s : St K) (i : Nat) (o : Outcome) :
    (thrStep cf s i o).calls = if s.phase i = .ready then s.calls + 1 else s.calls := by
  simp only [thrStep]
  cases hp : s.phase i <;> simp [St.setThr]

theorem ctlStep_calls (s : St K) (c : Nat) : (ctlStep s c).calls = s.calls := by
  simp only [ctlStep, St.setCtl, St.setThr]
  repeat' split
  all_goals rfl

theorem step_calls_le (cf : Conf K) (s : St K) (l : Lab) : s.calls ≤ (step cf s l).calls := by
  cases l with
  | thr i o => simp only [step]; rw [thrStep_calls]; split <;> omega
  | ctl c => simp only [step]; rw [ctlStep_calls]
  | call c op => simp only [step]; split; · cases op <;> exact Nat.le_refl _
                 · exact Nat.le_refl _
  | timeout c => simp only [step]; split <;> exact Nat.le_refl _
  | fork c => simp only [step]; split <;> exact Nat.le_refl _

/-- A user's step changes a thread's phase only by starting it. -/
theorem ctlStep_phase (s : St K) (c j : Nat) (hj : s.phase j ≠ .unstarted) (hd : s.phase j ≠ .dead) :
    (ctlStep s c).phase j = s.phase j := by
  have hlt := lt_of_phase hd
  simp only [ctlStep]
  cases hc : s.ctl c <;> simp only [] <;> repeat' split
  all_goals first
    | rfl
    | skip
  · simp only [St.phase, St.setCtl, List.getD_eq_getElem?_getD, List.getElem?_append_left hlt]
  · rename_i i hi hp
    have h : i ≠ j := fun h => hj (h ▸ hp)
    have := phase_setThr s i j .check (lt_of_phase (by rw [hp]; simp))
    rw [if_neg h] at this
    exact this

/-! ## Going round the loop -/

/-- Nothing is about to stop thread `n`. -/
structure Going (n : Nat) (s : St K) : Prop where
  stopping : s.stopping = false
  users : ∀ c, s.ctl c ≠ .stop77 ∧ s.ctl c ≠ .stop78 true
  loop : (s.phase n).looping

theorem setCtl_ctl (s : St K) (c d : Nat) (x : Ctl) : (s.setCtl c x).ctl d = if d = c then x else s.ctl d := rfl

theorem ctlStep_users {s : St K} (hu : ∀ c, s.ctl c ≠ .stop77 ∧ s.ctl c ≠ .stop78 true) (c d : Nat) :
    (ctlStep s c).ctl d ≠ .stop77 ∧ (ctlStep s c).ctl d ≠ .stop78 true := by
  have := hu c
  have hd := hu d
  simp only [ctlStep]
  cases hc : s.ctl c <;> simp only [] <;> repeat' split
  all_goals try simp only [St.setCtl, St.setThr]
  all_goals first
    | exact hd
    | (split
       · first
         | (constructor <;> simp; done)
         | exact absurd hc this.1
       · exact hd)

theorem ctlStep_stopping {s : St K} (hu : ∀ c, s.ctl c ≠ .stop77 ∧ s.ctl c ≠ .stop78 true)
    (hs : s.stopping = false) (c : Nat) : (ctlStep s c).stopping = false := by
  have := hu c
  simp only [ctlStep]
  cases hc : s.ctl c <;> simp only [] <;> repeat' split
  all_goals try simp only [St.setCtl, St.setThr]
  all_goals first
    | exact hs
    | (rename_i b; cases b; · rfl
       · exact absurd hc this.2)

def loopRank : Phase → Nat
  | .running => 0 | .waiting => 1 | .check => 2 | .ready => 3 | _ => 0

theorem Going.step {cf : Conf K} {n : Nat} {s : St K} (h : Going n s) {l : Lab}
    (hstop : ∀ c, l ≠ .call c .stop) (hfork : ∀ c, l ≠ .fork c)
    (ho : ∀ o, l = .thr n o → lethal cf.daemon o = false) :
    Going n (step cf s l) ∧
    4 * s.calls + loopRank (s.phase n) + turns n [l] ≤ 4 * (step cf s l).calls + loopRank ((step cf s l).phase n) := by
  have hnd : s.phase n ≠ .dead := fun e => by have := h.loop; rw [e] at this; exact this
  have hnu : s.phase n ≠ .unstarted := fun e => by have := h.loop; rw [e] at this; exact this
  cases l with
  | thr i o =>
    obtain ⟨-, h2, -, -, -⟩ := thrStep_other cf s i o
    simp only [Actor.step]
    have hst : (thrStep cf s i o).stopping = false := by rw [thrStep_stopping, h.stopping]; split <;> rfl
    by_cases hin : i = n
    · subst hin
      have hlet := ho o rfl
      have hph := thrStep_phase cf s i i o
      rw [if_pos rfl, h.stopping] at hph
      have hcl := thrStep_calls cf s i o
      have hloop := h.loop
      refine ⟨⟨hst, by rw [h2]; exact h.users, ?_⟩, ?_⟩
      · rw [hph]
        cases hp : s.phase i <;> simp_all [thrNext, Phase.looping]
      · rw [hph, hcl]
        cases hp : s.phase i <;> simp_all [thrNext, Phase.looping, loopRank, turns] <;> omega
    · have hph := thrStep_phase cf s i n o
      rw [if_neg hin] at hph
      refine ⟨⟨hst, by rw [h2]; exact h.users, by rw [hph]; exact h.loop⟩, ?_⟩
      rw [hph]
      have := step_calls_le cf s (.thr i o)
      simp only [Actor.step] at this
      simp [turns, hin]; omega
  | ctl c =>
    have hph := ctlStep_phase s c n hnu hnd
    refine ⟨⟨ctlStep_stopping h.users h.stopping c, ctlStep_users h.users c, by
      show (Phase.looping ((ctlStep s c).phase n)); rw [hph]; exact h.loop⟩, ?_⟩
    simp only [Actor.step]
    rw [hph, ctlStep_calls]; simp [turns]
  | call c op =>
    have hst := hstop c
    simp only [Actor.step]
    split
    · cases op with
      | start =>
        refine ⟨⟨h.stopping, fun d => ?_, h.loop⟩, by exact Nat.le_refl _⟩
        rw [setCtl_ctl]; split
        · simp
        · exact h.users d
      | stop => exact absurd rfl hst
      | join t =>
        refine ⟨⟨h.stopping, fun d => ?_, h.loop⟩, by exact Nat.le_refl _⟩
        rw [setCtl_ctl]; split
        · simp
        · exact h.users d
    · exact ⟨h, Nat.le_refl _⟩
  | timeout c =>
    simp only [Actor.step]
    split
    · refine ⟨⟨h.stopping, fun d => ?_, h.loop⟩, by exact Nat.le_refl _⟩
      rw [setCtl_ctl]; split
      · simp
      · exact h.users d
    · exact ⟨h, Nat.le_refl _⟩
  | fork c => exact absurd rfl (hfork c)

theorem turns_cons (n : Nat) (l : Lab) (ls : List Lab) : turns n (l :: ls) = turns n [l] + turns n ls := by
  simp only [turns, List.countP_cons, List.countP_nil]; omega

theorem not_lethal {daemon : Bool} {o : Outcome} (h : o = .ok ∨ o = .exc false ∨ (o = .exit ∧ daemon = true)) :
    lethal daemon o = false := by
  rcases h with rfl | rfl | ⟨rfl, rfl⟩ <;> rfl

theorem Going.run {cf : Conf K} {n : Nat} {ls : List Lab} : ∀ {s : St K}, Going n s → NoStop ls → NoFork ls →
    Survivable cf.daemon n ls → Going n (run cf s ls) ∧
    4 * s.calls + loopRank (s.phase n) + turns n ls ≤
      4 * (run cf s ls).calls + loopRank ((run cf s ls).phase n) := by
  induction ls with
  | nil => intro s h _ _ _; exact ⟨h, by simp [turns, Actor.run]⟩
  | cons l ls ih =>
    intro s h h1 h2 h3
    obtain ⟨g, e⟩ := h.step (cf := cf) (l := l) (fun c hc => h1 c (by simp [hc])) (fun c hc => h2 c (by simp [hc]))
      (fun o hc => not_lethal (h3 o (by simp [hc])))
    obtain ⟨g', e'⟩ := ih g (fun c hc => h1 c (by simp [hc])) (fun c hc => h2 c (by simp [hc]))
      (fun o hc => h3 o (by simp [hc]))
    refine ⟨g', ?_⟩
    rw [turns_cons, run_cons]
    omega

theorem loopRank_le (p : Phase) : loopRank p ≤ 3 := by cases p <;> simp [loopRank]

/-- Without a call of `stop` the flag stays down. -/
theorem quiet_step {cf : Conf K} {s : St K} {l : Lab} (hstop : ∀ c, l ≠ .call c .stop) (hfork : ∀ c, l ≠ .fork c)
    (hs : s.stopping = false) (hu : ∀ c, s.ctl c ≠ .stop77 ∧ s.ctl c ≠ .stop78 true) :
    (step cf s l).stopping = false ∧ ∀ c, (step cf s l).ctl c ≠ .stop77 ∧ (step cf s l).ctl c ≠ .stop78 true := by
  cases l with
  | thr i o =>
    obtain ⟨-, h2, -, -, -⟩ := thrStep_other cf s i o
    simp only [step]
    exact ⟨by rw [thrStep_stopping, hs]; split <;> rfl, by rw [h2]; exact hu⟩
  | ctl c => exact ⟨ctlStep_stopping hu hs c, ctlStep_users hu c⟩
  | call c op =>
    have hst := hstop c
    simp only [step]
    split
    · cases op with
      | stop => exact absurd rfl hst
      | _ =>
        refine ⟨hs, fun d => ?_⟩
        rw [setCtl_ctl]; split
        · simp
        · exact hu d
    · exact ⟨hs, hu⟩
  | timeout c =>
    simp only [step]
    split
    · refine ⟨hs, fun d => ?_⟩
      rw [setCtl_ctl]; split
      · simp
      · exact hu d
    · exact ⟨hs, hu⟩
  | fork c => exact absurd rfl (hfork c)

end Verif.Actor
