import Verif.Lemmas.Actor
/-!
# The actor with one user
-/
namespace Verif.Actor

set_option linter.unusedSectionVars false

variable {K : Type} [Field K] [LinearOrder K]

/-- Every thread is dead. -/
def AllDead (s : St K) : Prop := ∀ i, s.phase i = .dead

/-- What user 0's position says about the threads. -/
def Fits (s : St K) : Ctl → Prop
  | .start60 | .start64 | .start66 | .stop78 false | .join88 false => AllDead s
  | .start68 => ∃ i, s.cur = some i ∧ s.phase i = .unstarted
  | _ => ∀ i, s.phase i ≠ .unstarted

structure One (s : St K) : Prop where
  others : ∀ c, c ≠ 0 → ∃ r, s.ctl c = .idle r
  old : ∀ i, s.cur ≠ some i → s.phase i = .dead
  fits : Fits s (s.ctl 0)

theorem one_init (cf : Conf K) : One (init cf) :=
  ⟨fun _ _ => ⟨.nothing, rfl⟩, fun i _ => rfl, fun i => by simp [init, St.phase]⟩

theorem allDead_of {s : St K} (hold : ∀ i, s.cur ≠ some i → s.phase i = .dead)
    (hu : ∀ i, s.phase i ≠ .unstarted) (ha : s.alive = false) : AllDead s := by
  intro i
  by_cases hc : s.cur = some i
  · simp only [St.alive, hc] at ha
    have := hu i
    cases hp : s.phase i <;> simp_all [Phase.alive]
  · exact hold i hc

theorem AllDead.not_unstarted {s : St K} (h : AllDead s) (i : Nat) : s.phase i ≠ .unstarted := by
  rw [h i]; simp

theorem AllDead.not_alive {s : St K} (h : AllDead s) : s.alive = false := by
  simp only [St.alive]; split
  · rfl
  · rw [h]; rfl

/-- What holds of `Fits` for a user not inside `start`'s second half. -/
theorem Fits.weak {s : St K} {x : Ctl} (h : Fits s x) (hx : x ≠ .start68) (i : Nat) :
    s.phase i ≠ .unstarted := by
  unfold Fits at h
  split at h
  · rw [h i]; simp
  · rw [h i]; simp
  · rw [h i]; simp
  · rw [h i]; simp
  · rw [h i]; simp
  · exact absurd rfl hx
  · exact h i

theorem thrNext_unstarted {d b : Bool} {o : Outcome} {p : Phase} (h : thrNext d b o p = .unstarted) :
    p = .unstarted := by
  cases p <;> simp [thrNext] at h ⊢ <;> split at h <;> simp at h

theorem One.thr {cf : Conf K} {s : St K} (h : One s) (i : Nat) (o : Outcome) : One (thrStep cf s i o) := by
  obtain ⟨hcur, hctl, -, -, -⟩ := thrStep_other cf s i o
  have hph := fun j => thrStep_phase cf s i j o
  have hdead : ∀ j, s.phase j = .dead → (thrStep cf s i o).phase j = .dead := by
    intro j hj
    rw [hph]; split
    · rename_i e; subst e; rw [hj]; rfl
    · exact hj
  have hun : ∀ j, s.phase j ≠ .unstarted → (thrStep cf s i o).phase j ≠ .unstarted := by
    intro j hj
    rw [hph]; split
    · rename_i e; subst e; exact fun h => hj (thrNext_unstarted h)
    · exact hj
  refine ⟨by rw [hctl]; exact h.others, fun j hj => hdead j (h.old j (by rw [← hcur]; exact hj)), ?_⟩
  rw [hctl]
  have hf := h.fits
  unfold Fits at hf ⊢
  split at hf
  · exact fun j => hdead j (hf j)
  · exact fun j => hdead j (hf j)
  · exact fun j => hdead j (hf j)
  · exact fun j => hdead j (hf j)
  · exact fun j => hdead j (hf j)
  · obtain ⟨j, hj, hp⟩ := hf
    refine ⟨j, by rw [hcur]; exact hj, ?_⟩
    rw [hph]; split
    · rename_i e; subst e; rw [hp]; rfl
    · exact hp
  · exact fun j => hun j (hf j)

theorem One.of_setCtl {s t : St K} (h : One s) (hthr : t.thr = s.thr) (hcur : t.cur = s.cur) (x : Ctl)
    (hctl : ∀ c, t.ctl c = if c = 0 then x else s.ctl c) (hf : Fits t x) : One t := by
  refine ⟨fun c hc => ?_, fun i hi => ?_, ?_⟩
  · rw [hctl, if_neg hc]; exact h.others c hc
  · have := h.old i (by rw [← hcur]; exact hi)
    simpa only [St.phase, hthr] using this
  · rw [hctl, if_pos rfl]; exact hf

theorem One.ctl {s : St K} (h : One s) : One (ctlStep s 0) := by
  have hf := h.fits
  have mk : ∀ x, Fits (s.setCtl 0 x) x → One (s.setCtl 0 x) :=
    fun x hx => h.of_setCtl rfl rfl x (fun _ => rfl) hx
  simp only [ctlStep]
  cases hc : s.ctl 0 with
  | idle r => exact h
  | start57 =>
    rw [hc] at hf
    simp only []
    split
    · exact mk _ hf
    · exact mk _ (allDead_of (s := s) h.old hf (by simpa using ‹¬ s.alive = true›))
  | start60 =>
    rw [hc] at hf
    simp only []
    split
    · exact mk _ (AllDead.not_unstarted (s := s) hf)
    · exact mk _ hf
  | start64 =>
    rw [hc] at hf
    exact h.of_setCtl rfl rfl .start66 (fun _ => rfl) hf
  | start66 =>
    rw [hc] at hf
    have hold : ∀ i, ¬ s.thr.length = i → (s.thr ++ [Phase.unstarted]).getD i .dead = .dead := by
      intro i hi
      have := hf i
      simp only [St.phase, List.getD_eq_getElem?_getD] at this ⊢
      rcases Nat.lt_or_gt_of_ne hi with hlt | hgt
      · rw [List.getElem?_eq_none (by simp; omega)]; rfl
      · rw [List.getElem?_append_left hgt]; exact this
    refine ⟨fun c hcc => ?_, fun i hi => ?_, ?_⟩
    · show ∃ r, (if c = 0 then Ctl.start68 else s.ctl c) = _
      rw [if_neg hcc]; exact h.others c hcc
    · exact hold i (fun he => hi (by simp [he]))
    · refine ⟨s.thr.length, rfl, ?_⟩
      simp [St.phase]
  | start68 =>
    rw [hc] at hf
    obtain ⟨i, hi, hp⟩ := hf
    simp only [hi, hp, if_true]
    have hlt : i < s.thr.length := lt_of_phase (by rw [hp]; simp)
    have hph := fun j => phase_setThr s i j .check hlt
    refine ⟨fun c hcc => ?_, fun j hj => ?_, ?_⟩
    · show ∃ r, (if c = 0 then Ctl.idle .returned else s.ctl c) = _
      rw [if_neg hcc]; exact h.others c hcc
    · have hne : i ≠ j := fun he => hj (by rw [← he]; exact hi)
      show (s.setThr i .check).phase j = _
      rw [hph, if_neg hne]; exact h.old j hj
    · show Fits _ (Ctl.idle .returned)
      intro j
      show (s.setThr i .check).phase j ≠ _
      rw [hph]; split
      · simp
      · rw [h.old j (by rw [hi]; simpa using ‹¬ i = j›)]; simp
  | stop77 =>
    rw [hc] at hf
    refine mk _ ?_
    cases ha : s.alive with
    | true => exact hf
    | false => exact allDead_of (s := s) h.old hf ha
  | stop78 b =>
    rw [hc] at hf
    exact h.of_setCtl rfl rfl (.idle .returned) (fun _ => rfl)
      (fun i => Fits.weak (s := s) hf (by simp) i)
  | join84 t =>
    rw [hc] at hf
    simp only []
    split
    · exact mk _ hf
    · split
      · exact mk _ hf
      · exact mk _ hf
  | join86 i t =>
    rw [hc] at hf
    simp only []
    split
    · exact mk _ hf
    · exact h
  | join87 =>
    rw [hc] at hf
    refine mk _ ?_
    cases ha : s.alive with
    | true => exact hf
    | false => exact allDead_of (s := s) h.old hf ha
  | join88 b =>
    rw [hc] at hf
    simp only []
    split
    · exact mk _ (fun i => Fits.weak (s := s) hf (by simp) i)
    · exact h.of_setCtl rfl rfl (.idle (.joined b)) (fun _ => rfl)
        (fun i => Fits.weak (s := s) hf (by simp) i)

theorem One.step {cf : Conf K} {s : St K} (h : One s) {l : Lab}
    (hl : match l with
      | .thr _ _ => True
      | .call c _ | .ctl c | .timeout c | .fork c => c = 0) : One (step cf s l) := by
  have hf := h.fits
  have mk : ∀ x, Fits (s.setCtl 0 x) x → One (s.setCtl 0 x) :=
    fun x hx => h.of_setCtl rfl rfl x (fun _ => rfl) hx
  cases l with
  | thr i o => exact h.thr i o
  | ctl c => simp only at hl; subst hl; exact h.ctl
  | call c op =>
    simp only at hl; subst hl
    simp only [Actor.step]
    split
    · rename_i r hc
      rw [hc] at hf
      cases op <;> exact mk _ hf
    · exact h
  | timeout c =>
    simp only at hl; subst hl
    simp only [Actor.step]
    split
    · rename_i i hc
      rw [hc] at hf
      exact mk _ hf
    · exact h
  | fork c =>
    simp only at hl; subst hl
    simp only [Actor.step]
    split
    · rename_i r hc
      have hd : ∀ i, ((s.thr.map fun _ => Phase.dead).getD i .dead) = .dead := by
        intro i
        simp only [List.getD_eq_getElem?_getD, List.getElem?_map]
        cases s.thr[i]? <;> rfl
      refine ⟨fun c hcc => ⟨.nothing, by simp [hcc]⟩, fun i _ => hd i, ?_⟩
      simp only [if_true]
      rw [hc]
      intro i
      show ((s.thr.map fun _ => Phase.dead).getD i .dead) ≠ _
      rw [hd]; simp
    · exact h

theorem one_run (cf : Conf K) {ls : List Lab} (h : OneUser ls) {s : St K} (hs : One s) : One (run cf s ls) :=
  run_inv (P := One) (Q := fun l => match l with
      | .thr _ _ => True
      | .call c _ | .ctl c | .timeout c | .fork c => c = 0) (fun _ _ hq hs => hs.step hq) ls s h hs

/-! ## After stop -/

/-- The actor is on its way out: the flag is up or the thread has left the loop; nobody is starting it. -/
structure Ending (s : St K) : Prop where
  one : One s
  users : s.ctl 0 ≠ .start57 ∧ s.ctl 0 ≠ .start60 ∧ s.ctl 0 ≠ .start64 ∧ s.ctl 0 ≠ .start66 ∧ s.ctl 0 ≠ .start68
  out : s.stopping = true ∨ ∀ i, s.phase i = .leaving ∨ s.phase i = .cleared ∨ s.phase i = .dead

/-- Turns left to a thread that finds the flag up. -/
def endRank : Phase → Nat
  | .ready => 6 | .running => 5 | .waiting => 4 | .check => 3 | .leaving => 2 | .cleared => 1 | _ => 0

/-- Task calls still to come. -/
def owed (p : Phase) : Nat := if p = .ready then 1 else 0

def St.curPhase (s : St K) : Phase := match s.cur with | none => .dead | some i => s.phase i

theorem Ending.step {cf : Conf K} {s : St K} (h : Ending s) {l : Lab}
    (hl : match l with
      | .thr _ _ => True
      | .call c _ | .ctl c | .timeout c | .fork c => c = 0)
    (hns : ∀ c, l ≠ .call c .start) :
    Ending (step cf s l) ∧ (step cf s l).cur = s.cur ∧
    (step cf s l).calls + owed ((step cf s l).curPhase) ≤ s.calls + owed s.curPhase ∧
    (∀ n, s.cur = some n →
      endRank ((step cf s l).phase n) + turns n [l] ≤ endRank (s.phase n) ∨ (step cf s l).phase n = .dead) := by
  have h1 := h.one.step (cf := cf) hl
  have same : ∀ x, x ≠ .start57 ∧ x ≠ .start60 ∧ x ≠ .start64 ∧ x ≠ .start66 ∧ x ≠ .start68 →
      One (s.setCtl 0 x) → Ending (s.setCtl 0 x) :=
    fun x hx ho => ⟨ho, by simpa [setCtl_ctl] using hx, h.out⟩
  have triv : ∀ l, (∀ n, turns n [l] = 0) → ∀ n, s.cur = some n →
      endRank (s.phase n) + turns n [l] ≤ endRank (s.phase n) ∨ s.phase n = .dead :=
    fun l hl n _ => .inl (by rw [hl]; exact Nat.le_refl _)
  cases l with
  | thr i o =>
    obtain ⟨hcur, hctl, -, -, -⟩ := thrStep_other cf s i o
    have hph := fun j => thrStep_phase cf s i j o
    have hcl := thrStep_calls cf s i o
    have hsp := thrStep_stopping cf s i o
    simp only [Actor.step] at h1 ⊢
    refine ⟨⟨h1, by rw [hctl]; exact h.users, ?_⟩, hcur, ?_, ?_⟩
    · by_cases hlv : s.phase i = .leaving
      · right
        have hci : s.cur = some i := by
          by_contra hc; rw [h.one.old i hc] at hlv; cases hlv
        intro j
        rw [hph]; split
        · rw [hlv]; simp [thrNext]
        · right; right; exact h.one.old j (by rw [hci]; simpa using ‹¬ i = j›)
      · rw [hsp, if_neg hlv]
        rcases h.out with hs | hd
        · exact .inl hs
        · right
          intro j
          rw [hph]; split
          · subst_vars
            rcases hd j with e | e | e <;> rw [e] <;> simp [thrNext]
          · exact hd j
    · by_cases hci : s.cur = some i
      · simp only [St.curPhase, hcur, hci]
        rw [hph, if_pos rfl, hcl]
        cases hp : s.phase i with
        | check =>
          rcases h.out with hs | hd
          · simp [thrNext, hs, owed]
          · have := hd i; rw [hp] at this; simp at this
        | running => cases hle : lethal cf.daemon o <;> simp [thrNext, hle, owed]
        | _ => simp [thrNext, owed]
      · have hd := h.one.old i hci
        have hne : ∀ j, i ≠ j → (thrStep cf s i o).phase j = s.phase j := fun j hj => by rw [hph, if_neg hj]
        have : (thrStep cf s i o).curPhase = s.curPhase := by
          simp only [St.curPhase, hcur]
          cases hcc : s.cur with
          | none => rfl
          | some j => exact hne j (fun e => hci (by rw [hcc, e]))
        rw [this, hcl, hd]; simp
    · intro n hn
      by_cases hin : i = n
      · subst hin
        rw [hph, if_pos rfl]
        have ht : turns i [Lab.thr i o] = 1 := by simp [turns]
        rw [ht]
        have hnu := h.one.fits.weak h.users.2.2.2.2 i
        cases hp : s.phase i with
        | check =>
          rcases h.out with hs | hd
          · simp [thrNext, hs, endRank]
          · have := hd i; rw [hp] at this; simp at this
        | running => cases hle : lethal cf.daemon o <;> simp [thrNext, hle, endRank]
        | unstarted => exact absurd hp hnu
        | dead => exact .inr rfl
        | _ => simp [thrNext, endRank]
      · left
        rw [hph, if_neg hin]; simp [turns, hin]
  | ctl c =>
    simp only at hl; subst hl
    have hu := h.users
    have hf := h.one.fits
    simp only [Actor.step] at h1 ⊢
    revert h1
    simp only [ctlStep]
    cases hc : s.ctl 0 with
    | idle r => intro _; exact ⟨h, rfl, Nat.le_refl _, triv _ (fun _ => rfl)⟩
    | start57 => exact absurd hc hu.1
    | start60 => exact absurd hc hu.2.1
    | start64 => exact absurd hc hu.2.2.1
    | start66 => exact absurd hc hu.2.2.2.1
    | start68 => exact absurd hc hu.2.2.2.2
    | stop77 => intro ho; exact ⟨same _ (by simp) ho, rfl, Nat.le_refl _, triv _ (fun _ => rfl)⟩
    | stop78 b =>
      intro ho
      refine ⟨⟨ho, by simp [St.setCtl], ?_⟩, rfl, Nat.le_refl _, triv _ (fun _ => rfl)⟩
      cases b with
      | true => exact .inl rfl
      | false =>
        right; intro i; right; right
        rw [hc] at hf; exact hf i
    | join84 t =>
      simp only []
      repeat' split
      all_goals (intro ho; exact ⟨same _ (by simp) ho, rfl, Nat.le_refl _, triv _ (fun _ => rfl)⟩)
    | join86 i t =>
      simp only []
      split
      · intro ho; exact ⟨same _ (by simp) ho, rfl, Nat.le_refl _, triv _ (fun _ => rfl)⟩
      · intro ho; exact ⟨h, rfl, Nat.le_refl _, triv _ (fun _ => rfl)⟩
    | join87 => intro ho; exact ⟨same _ (by simp) ho, rfl, Nat.le_refl _, triv _ (fun _ => rfl)⟩
    | join88 b =>
      simp only []
      cases b with
      | true => intro ho; exact ⟨same _ (by simp) ho, rfl, Nat.le_refl _, triv _ (fun _ => rfl)⟩
      | false =>
        intro ho
        refine ⟨⟨ho, by simp [St.setCtl], ?_⟩, rfl, Nat.le_refl _, triv _ (fun _ => rfl)⟩
        right; intro i; right; right
        rw [hc] at hf; exact hf i
  | call c op =>
    simp only at hl; subst hl
    revert h1
    simp only [Actor.step]
    split
    · cases op with
      | start => exact absurd rfl (hns 0)
      | stop => intro ho; exact ⟨same _ (by simp) ho, rfl, Nat.le_refl _, triv _ (fun _ => rfl)⟩
      | join t => intro ho; exact ⟨same _ (by simp) ho, rfl, Nat.le_refl _, triv _ (fun _ => rfl)⟩
    · intro ho; exact ⟨h, rfl, Nat.le_refl _, triv _ (fun _ => rfl)⟩
  | timeout c =>
    simp only at hl; subst hl
    revert h1
    simp only [Actor.step]
    split
    · intro ho; exact ⟨same _ (by simp) ho, rfl, Nat.le_refl _, triv _ (fun _ => rfl)⟩
    · intro ho; exact ⟨h, rfl, Nat.le_refl _, triv _ (fun _ => rfl)⟩
  | fork c =>
    simp only at hl; subst hl
    revert h1
    simp only [Actor.step]
    split
    · intro ho
      have hd : ∀ i, ((s.thr.map fun _ => Phase.dead).getD i .dead) = .dead := by
        intro i
        simp only [List.getD_eq_getElem?_getD, List.getElem?_map]
        cases s.thr[i]? <;> rfl
      refine ⟨⟨ho, by simpa using h.users, .inr (fun i => .inr (.inr (hd i)))⟩, rfl, ?_, fun n _ => .inr (hd n)⟩
      simp only [St.curPhase]
      cases s.cur with
      | none => exact Nat.le_refl _
      | some i =>
        show s.calls + owed ((s.thr.map fun _ => Phase.dead).getD i .dead) ≤ _
        rw [hd]; simp [owed]
    · intro ho; exact ⟨h, rfl, Nat.le_refl _, triv _ (fun _ => rfl)⟩

theorem Ending.run {cf : Conf K} {ls : List Lab} : ∀ {s : St K}, Ending s → OneUser ls → NoStart ls →
    Ending (run cf s ls) ∧ (run cf s ls).cur = s.cur ∧
    (run cf s ls).calls + owed ((run cf s ls).curPhase) ≤ s.calls + owed s.curPhase ∧
    (∀ n, s.cur = some n → endRank ((run cf s ls).phase n) + turns n ls ≤ endRank (s.phase n) ∨
      (run cf s ls).phase n = .dead) := by
  induction ls with
  | nil =>
    intro s h _ _
    exact ⟨h, rfl, Nat.le_refl _, fun n _ => .inl (Nat.le_refl _)⟩
  | cons l ls ih =>
    intro s h h1 h2
    obtain ⟨g, gc, e, r⟩ := h.step (cf := cf) (l := l) (h1 l (by simp)) (fun c hc => h2 c (by simp [hc]))
    obtain ⟨g', gc', e', r'⟩ := ih g (fun m hm => h1 m (by simp [hm])) (fun c hc => h2 c (by simp [hc]))
    rw [run_cons]
    refine ⟨g', gc'.trans gc, Nat.le_trans e' e, fun n hn => ?_⟩
    rw [turns_cons]
    rcases r' n (by rw [gc]; exact hn) with r' | r'
    · rcases r n hn with r | r
      · left; omega
      · by_cases hd : (Actor.run cf (Actor.step cf s l) ls).phase n = .dead
        · exact .inr hd
        · exfalso
          have hnu := g'.one.fits.weak g'.users.2.2.2.2 n
          rw [r] at r'
          simp only [endRank] at r'
          cases hp : (Actor.run cf (Actor.step cf s l) ls).phase n <;> simp_all [endRank]
    · exact .inr r'

/-! ## Calls made alone -/

theorem setCtl_setCtl (s : St K) (c : Nat) (x y : Ctl) : (s.setCtl c x).setCtl c y = s.setCtl c y := by
  simp only [St.setCtl]
  congr 1
  funext d; split <;> rfl

theorem call_idle {cf : Conf K} {s : St K} {c : Nat} {r : Res} (h : s.ctl c = .idle r) :
    step cf s (.call c .start) = s.setCtl c .start57 ∧ step cf s (.call c .stop) = s.setCtl c .stop77 ∧
    ∀ t, step cf s (.call c (.join t)) = s.setCtl c (.join84 t) := by
  simp only [step, h, implies_true, and_self]

theorem ctlStep_start68 {t : St K} {i : Nat} (h : t.ctl 0 = .start68) (hc : t.cur = some i)
    (hp : t.phase i = .unstarted) : ctlStep t 0 = (t.setThr i .check).setCtl 0 (.idle .returned) := by
  simp only [ctlStep, h, hc, hp, if_true]

/-- `start()` alone on an actor whose threads are all dead. -/
theorem start_alone {cf : Conf K} {s : St K} {r : Res} (hidle : s.ctl 0 = .idle r) (hd : AllDead s) :
    ((some s.pid = s.apid ∧ s.stopping = true) →
      run cf s (callAlone 0 .start) = s.setCtl 0 (.idle .raised)) ∧
    (¬ (some s.pid = s.apid ∧ s.stopping = true) → run cf s (callAlone 0 .start) =
      { s.setCtl 0 (.idle .returned) with
        thr := s.thr ++ [.check], cur := some s.thr.length, apid := some s.pid, stopping := false }) := by
  have ha := hd.not_alive
  have e0 := (call_idle (cf := cf) hidle).1
  have e1 : step cf (s.setCtl 0 .start57) (.ctl 0) = s.setCtl 0 .start60 := by
    simp only [step, ctlStep, setCtl_ctl, if_true]
    rw [if_neg]
    · exact setCtl_setCtl _ _ _ _
    · show ¬ s.alive = true
      rw [ha]; simp
  have hrun : run cf s (callAlone 0 .start) =
      run cf (s.setCtl 0 .start60) [.ctl 0, .ctl 0, .ctl 0, .ctl 0] := by
    show run cf (step cf (step cf s _) _) _ = _
    rw [e0, e1]; rfl
  rw [hrun]
  constructor
  · intro hr
    have e2 : step cf (s.setCtl 0 .start60) (.ctl 0) = s.setCtl 0 (.idle .raised) := by
      simp only [step, ctlStep, setCtl_ctl, if_true]
      rw [if_pos (by exact hr)]
      exact setCtl_setCtl _ _ _ _
    have e3 : step cf (s.setCtl 0 (.idle .raised)) (.ctl 0) = s.setCtl 0 (.idle .raised) := by
      simp only [step, ctlStep, setCtl_ctl, if_true]
    rw [run_cons, e2, run_cons, e3, run_cons, e3, run_cons, e3, run_nil]
  · intro hr
    have e2 : step cf (s.setCtl 0 .start60) (.ctl 0) = s.setCtl 0 .start64 := by
      simp only [step, ctlStep, setCtl_ctl, if_true]
      rw [if_neg (by exact hr)]
      exact setCtl_setCtl _ _ _ _
    have e3 : step cf (s.setCtl 0 .start64) (.ctl 0) =
        { s.setCtl 0 .start66 with apid := some s.pid, stopping := false } := by
      simp only [step, ctlStep, setCtl_ctl, if_true]
      rw [setCtl_setCtl]; rfl
    have e4 : step cf { s.setCtl 0 .start66 with apid := some s.pid, stopping := false } (.ctl 0) =
        { s.setCtl 0 .start68 with
          apid := some s.pid, stopping := false, thr := s.thr ++ [.unstarted], cur := some s.thr.length } := by
      simp only [step, ctlStep, St.setCtl, if_true]
      congr 1
      funext d; split <;> rfl
    have e5 : step cf { s.setCtl 0 .start68 with
          apid := some s.pid, stopping := false, thr := s.thr ++ [.unstarted], cur := some s.thr.length } (.ctl 0) =
        { s.setCtl 0 (.idle .returned) with
          thr := s.thr ++ [.check], cur := some s.thr.length, apid := some s.pid, stopping := false } := by
      simp only [step]
      rw [ctlStep_start68 (i := s.thr.length) rfl rfl (by simp [St.phase])]
      simp only [St.setThr, St.setCtl]
      congr 1
      · simp
      · funext d; split <;> rfl
    rw [run_cons, e2, run_cons, e3, run_cons, e4, run_cons, e5, run_nil]

/-- `join()` alone on an actor whose threads are all dead. -/
theorem join_alone {cf : Conf K} {s : St K} {r : Res} {n : Nat} (timed : Bool) (hidle : s.ctl 0 = .idle r)
    (hd : AllDead s) (hn : s.cur = some n) :
    run cf s (callAlone 0 (.join timed)) = { s.setCtl 0 (.idle (.joined false)) with stopping := false } := by
  have ha := hd.not_alive
  have e0 := (call_idle (cf := cf) hidle).2.2 timed
  have e1 : step cf (s.setCtl 0 (.join84 timed)) (.ctl 0) = s.setCtl 0 (.join86 n timed) := by
    simp only [step, ctlStep, setCtl_ctl, if_true]
    have : (s.setCtl 0 (.join84 timed)).cur = some n := hn
    rw [this]
    simp only []
    rw [if_neg (by show ¬ s.phase n = _; rw [hd n]; simp)]
    exact setCtl_setCtl _ _ _ _
  have e2 : step cf (s.setCtl 0 (.join86 n timed)) (.ctl 0) = s.setCtl 0 .join87 := by
    simp only [step, ctlStep, setCtl_ctl, if_true]
    rw [if_pos (by show s.phase n = _; rw [hd n])]
    exact setCtl_setCtl _ _ _ _
  have e3 : step cf (s.setCtl 0 .join87) (.ctl 0) = s.setCtl 0 (.join88 false) := by
    simp only [step, ctlStep, setCtl_ctl, if_true]
    have : (s.setCtl 0 .join87).alive = false := ha
    rw [this]
    exact setCtl_setCtl _ _ _ _
  have e4 : step cf (s.setCtl 0 (.join88 false)) (.ctl 0) =
      { s.setCtl 0 (.idle (.joined false)) with stopping := false } := by
    simp only [step, ctlStep, setCtl_ctl, if_true]
    rw [if_neg (by simp), setCtl_setCtl]
  have e5 : step cf { s.setCtl 0 (.idle (.joined false)) with stopping := false } (.ctl 0) =
      { s.setCtl 0 (.idle (.joined false)) with stopping := false } := by
    simp only [step, ctlStep, St.setCtl, if_true]
  show run cf (step cf s _) [_, _, _, _, _] = _
  rw [e0, run_cons, e1, run_cons, e2, run_cons, e3, run_cons, e4, run_cons, e5, run_nil]

end Verif.Actor
