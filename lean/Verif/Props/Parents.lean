import Verif.Model.Parents
/-!
# C108: parents with hooks of the application
-/
namespace Verif.Parents

variable {κ : Type} [DecidableEq κ]

/-! ### The specification -/

/-- What a thread does with actions: make one and use it without a block, or make one and run a body in its block; then go
on.  Bodies left by an exception are written with what ran of them. -/
inductive Prog
  | done
  | act (l : LogId) (given : Option Id) (rest : Prog)
  | block (l : LogId) (body rest : Prog)

/-- The number of actions made. -/
def Prog.size : Prog → Nat
  | .done => 0
  | .act _ _ rest => 1 + rest.size
  | .block _ body rest => 1 + body.size + rest.size

/-- The calls, actions being numbered from `n` in the order they are made. -/
def Prog.calls : Nat → Prog → List Op
  | _, .done => []
  | n, .act l given rest => .make n l given :: rest.calls (n + 1)
  | n, .block l body rest =>
    .make n l none :: .enter n :: body.calls (n + 1) ++ .exit n :: rest.calls (n + 1 + body.size)

/-- Every action with its logger and the parent it should have: the one given, or else the action of the innermost block
around it on the same logger (`around`). -/
def Prog.parents (t : Tid) (around : LogId → Option Nat) : Nat → Prog → List (Nat × LogId × Option Id)
  | _, .done => []
  | n, .act l given rest => (n, l, given.or ((around l).map (t, ·))) :: rest.parents t around (n + 1)
  | n, .block l body rest =>
    (n, l, (around l).map (t, ·)) :: body.parents t (fun m => if m = l then some n else around m) (n + 1) ++
      rest.parents t around (n + 1 + body.size)

/-- The hooks keep the active actions of different threads apart, and those of different loggers. -/
def Apart (key : Tid → LogId → κ) : Prop := ∀ t u l m, key t l = key u m → t = u ∧ l = m

theorem perThread_apart : Apart perThread := by
  rintro t u l m h
  exact Prod.mk.inj h

/-! ### Other threads do not matter -/

/-- What a thread sees. -/
def Same (key : Tid → LogId → κ) (t : Tid) (s s' : S κ) : Prop :=
  (∀ l, s.active (key t l) = s'.active (key t l)) ∧ ∀ i, s.info (t, i) = s'.info (t, i)

theorem step_other {key : Tid → LogId → κ} (hk : Apart key) {t u : Tid} (h : u ≠ t) (s : S κ) (o : Op) :
    Same key t (step key s u o) s := by
  have hset : ∀ l a, Same key t (s.set (key u l) a) s := fun l a =>
    ⟨fun m => if_neg fun he => h (hk _ _ _ _ he).1.symm, fun i => rfl⟩
  have hrefl : Same key t s s := ⟨fun _ => rfl, fun _ => rfl⟩
  cases o with
  | make i l given =>
    simp only [step]
    split
    · exact hrefl
    · refine ⟨fun m => rfl, fun j => ?_⟩
      dsimp only
      rw [if_neg]
      intro he
      exact h (Prod.mk.inj he).1.symm
  | enter i =>
    simp only [step]
    split
    · exact hset _ _
    · exact hrefl
  | exit i =>
    simp only [step]
    split
    · exact hset _ _
    · exact hrefl

theorem step_same {key : Tid → LogId → κ} (hk : Apart key) {t : Tid} {s s' : S κ} (h : Same key t s s') (o : Op) :
    Same key t (step key s t o) (step key s' t o) := by
  have hset : ∀ l a, Same key t (s.set (key t l) a) (s'.set (key t l) a) := fun l a =>
    ⟨fun m => by simp only [S.set, h.1], fun i => h.2 i⟩
  cases o with
  | make i l given =>
    simp only [step, h.2 i]
    split
    · exact h
    · refine ⟨h.1, fun j => ?_⟩
      dsimp only
      rw [h.1, h.2]
  | enter i =>
    simp only [step, h.2 i]
    split
    · exact hset _ _
    · exact h
  | exit i =>
    simp only [step, h.2 i]
    split
    · exact hset _ _
    · exact h

/-- **C108**, first part: with hooks that keep threads apart, whatever other threads do in between, a thread's actions get
the parents they would get if the thread ran alone, and the same action is active for it afterwards. -/
theorem C108_alone {key : Tid → LogId → κ} (hk : Apart key) (sched : List (Tid × Op)) (t : Tid) :
    (∀ i, (run key {} sched).info (t, i) = (run key {} (sched.filter (·.1 = t))).info (t, i)) ∧
    ∀ l, (run key {} sched).active (key t l) = (run key {} (sched.filter (·.1 = t))).active (key t l) := by
  suffices h : ∀ s s' : S κ, Same key t s s' → Same key t (run key s sched) (run key s' (sched.filter (·.1 = t))) from
    (h {} {} ⟨fun _ => rfl, fun _ => rfl⟩).symm
  induction sched with
  | nil => exact fun s s' h => h
  | cons x sched ih =>
    intro s s' h
    by_cases hx : x.1 = t
    · rw [List.filter_cons_of_pos (by simpa using hx)]
      simp only [run, List.foldl_cons]
      rw [hx]
      exact ih _ _ (step_same hk h x.2)
    · rw [List.filter_cons_of_neg (by simpa using hx)]
      simp only [run, List.foldl_cons]
      have h1 := step_other hk hx s x.2
      exact ih _ _ ⟨fun l => (h1.1 l).trans (h.1 l), fun i => (h1.2 i).trans (h.2 i)⟩

/-! ### Programs of blocks -/

theorem run_cons (key : Tid → LogId → κ) (s : S κ) (t : Tid) (o : Op) (os : List Op) :
    run key s ((o :: os).map (t, ·)) = run key (step key s t o) (os.map (t, ·)) := rfl

theorem run_append (key : Tid → LogId → κ) (s : S κ) (t : Tid) (a b : List Op) :
    run key s ((a ++ b).map (t, ·)) = run key (run key s (a.map (t, ·))) (b.map (t, ·)) := by
  simp [run]

/-- What a piece of program does for its thread. -/
structure Does (key : Tid → LogId → κ) (t : Tid) (around : LogId → Option Nat) (n : Nat) (p : Prog) (s s' : S κ) : Prop where
  active : ∀ l, s'.active (key t l) = (around l).map (t, ·)
  parents : ∀ x ∈ p.parents t around n, s'.info (t, x.1) = some x.2
  before : ∀ i < n, s'.info (t, i) = s.info (t, i)
  after : ∀ i, n + p.size ≤ i → s'.info (t, i) = none

theorem does {key : Tid → LogId → κ} (hk : Apart key) (t : Tid) (p : Prog) : ∀ (around : LogId → Option Nat) (n : Nat)
    (s : S κ), (∀ l, s.active (key t l) = (around l).map (t, ·)) → (∀ i, n ≤ i → s.info (t, i) = none) →
    Does key t around n p s (run key s ((p.calls n).map (t, ·))) := by
  induction p with
  | done =>
    intro around n s ha hf
    exact ⟨ha, by simp [Prog.parents], fun _ _ => rfl, fun i hi => hf i (by simpa [Prog.size] using hi)⟩
  | act l given rest ih =>
    intro around n s ha hf
    rw [Prog.calls, run_cons]
    have hs : step key s t (.make n l given) =
        { s with info := fun a => if a = (t, n) then some (l, given.or ((around l).map (t, ·))) else s.info a } := by
      simp only [step, hf n (Nat.le_refl n), ha l]
    have h := ih around (n + 1) (step key s t (.make n l given)) (by rw [hs]; exact ha)
      (by rw [hs]; intro i hi; simp only [Prod.mk.injEq, true_and]; rw [if_neg (by omega)]; exact hf i (by omega))
    have hn : ∀ i < n + 1, (run key (step key s t (.make n l given)) ((rest.calls (n + 1)).map (t, ·))).info (t, i) =
        if i = n then some (l, given.or ((around l).map (t, ·))) else s.info (t, i) := by
      intro i hi
      rw [h.before i hi, hs]
      simp
    refine ⟨h.active, ?_, ?_, ?_⟩
    · intro x hx
      rw [Prog.parents] at hx
      rcases List.mem_cons.1 hx with rfl | hx
      · rw [hn n (by omega), if_pos rfl]
      · exact h.parents x hx
    · intro i hi
      rw [hn i (by omega), if_neg (by omega)]
    · intro i hi
      exact h.after i (by simp only [Prog.size] at hi; omega)
  | block l body rest ihb ihr =>
    intro around n s ha hf
    rw [Prog.calls, List.cons_append, run_cons, List.cons_append, run_cons, run_append, run_cons]
    have hs : step key s t (.make n l none) =
        { s with info := fun a => if a = (t, n) then some (l, (around l).map (t, ·)) else s.info a } := by
      simp only [step, hf n (Nat.le_refl n), ha l, Option.none_or]
    have hs2 : step key (step key s t (.make n l none)) t (.enter n) =
        { active := fun k => if k = key t l then some (t, n) else s.active k
          info := fun a => if a = (t, n) then some (l, (around l).map (t, ·)) else s.info a } := by
      rw [hs]; simp [step, S.set]
    have h1 := ihb (fun m => if m = l then some n else around m) (n + 1) (step key (step key s t (.make n l none)) t (.enter n))
      (by
        rw [hs2]; intro m
        by_cases hm : m = l
        · subst hm; simp
        · have : key t m ≠ key t l := fun he => hm (hk _ _ _ _ he).2
          simp [this, hm, ha])
      (by rw [hs2]; intro i hi; simp only [Prod.mk.injEq, true_and]; rw [if_neg (by omega)]; exact hf i (by omega))
    generalize run key (step key (step key s t (.make n l none)) t (.enter n)) ((body.calls (n + 1)).map (t, ·)) = s3 at h1 ⊢
    have hn : ∀ i < n + 1, s3.info (t, i) = if i = n then some (l, (around l).map (t, ·)) else s.info (t, i) := by
      intro i hi
      rw [h1.before i hi, hs2]
      simp
    have hs4 : step key s3 t (.exit n) = s3.set (key t l) ((around l).map (t, ·)) := by
      simp only [step, hn n (by omega), if_true]
    have h2 := ihr around (n + 1 + body.size) (step key s3 t (.exit n))
      (by
        rw [hs4]; intro m
        by_cases hm : m = l
        · subst hm; simp [S.set]
        · have : key t m ≠ key t l := fun he => hm (hk _ _ _ _ he).2
          simp [S.set, this, h1.active, hm])
      (by rw [hs4]; intro i hi; exact h1.after i hi)
    have h3 : ∀ i < n + 1 + body.size,
        (run key (step key s3 t (.exit n)) ((rest.calls (n + 1 + body.size)).map (t, ·))).info (t, i) = s3.info (t, i) := by
      intro i hi
      rw [h2.before i hi, hs4]; rfl
    have hlt : ∀ (q : Prog) (ar : LogId → Option Nat) (m : Nat), ∀ x ∈ q.parents t ar m, m ≤ x.1 ∧ x.1 < m + q.size := by
      intro q
      induction q with
      | done => simp [Prog.parents]
      | act l' g' r' ih' =>
        intro ar m x hx
        rw [Prog.parents] at hx
        rw [Prog.size]
        rcases List.mem_cons.1 hx with rfl | hx
        · dsimp only; omega
        · have := ih' ar (m + 1) x hx; omega
      | block l' b' r' ihb' ihr' =>
        intro ar m x hx
        rw [Prog.parents] at hx
        rw [Prog.size]
        rcases List.mem_append.1 hx with hx | hx
        · rcases List.mem_cons.1 hx with rfl | hx
          · dsimp only; omega
          · have := ihb' _ (m + 1) x hx; omega
        · have := ihr' ar _ x hx; omega
    refine ⟨h2.active, ?_, ?_, ?_⟩
    · intro x hx
      rw [Prog.parents] at hx
      rcases List.mem_append.1 hx with hx | hx
      · rcases List.mem_cons.1 hx with rfl | hx
        · dsimp only
          rw [h3 n (by omega), hn n (by omega), if_pos rfl]
        · have := hlt _ _ _ x hx
          rw [h3 x.1 (by omega)]
          exact h1.parents x hx
      · exact h2.parents x hx
    · intro i hi
      rw [h3 i (by omega), hn i (by omega), if_neg (by omega)]
    · intro i hi
      exact h2.after i (by simp only [Prog.size] at hi; omega)

/-- **C108**: any number of threads run programs of with blocks, nested in each thread, on any loggers, interleaved in any
way.  With hooks that keep threads apart every action has as parent the one given for it, or else the action of the innermost
block around it on its logger in its own thread; and when a thread's program is over, none is active for it. -/
theorem C108_blocks {key : Tid → LogId → κ} (hk : Apart key) (progs : Tid → Prog) (sched : List (Tid × Op)) (t : Tid)
    (hs : sched.filter (·.1 = t) = ((progs t).calls 0).map (t, ·)) :
    (∀ x ∈ (progs t).parents t (fun _ => none) 0, (run key {} sched).info (t, x.1) = some x.2) ∧
    ∀ l, (run key {} sched).active (key t l) = none := by
  obtain ⟨h1, h2⟩ := C108_alone hk sched t
  have h := does hk t (progs t) (fun _ => none) 0 {} (fun _ => rfl) (fun _ _ => rfl)
  rw [← hs] at h
  exact ⟨fun x hx => (h1 x.1).trans (h.parents x hx), fun l => (h2 l).trans (h.active l)⟩

/-! ### The hypotheses can be met, and matter -/

/-- One block with an action in it, on logger 0. -/
def one : Prog := .block 0 (.act 0 none .done) .done

/-- Two threads with overlapping blocks. -/
def overlap : List (Tid × Op) :=
  [(0, .make 0 0 none), (0, .enter 0), (1, .make 0 0 none), (1, .enter 0), (0, .make 1 0 none), (0, .exit 0),
   (1, .make 1 0 none), (1, .exit 0)]

example : overlap.filter (·.1 = 0) = (one.calls 0).map (0, ·) ∧ overlap.filter (·.1 = 1) = (one.calls 0).map (1, ·) ∧
    one.parents 1 (fun _ => none) 0 = [(0, 0, none), (1, 0, some (1, 0))] := by decide
example : (run perThread {} overlap).info (1, 0) = some (0, none) ∧
    (run perThread {} overlap).info (0, 1) = some (0, some (0, 0)) ∧
    (run perThread {} overlap).active (perThread 1 0) = none := by
  obtain ⟨a, b⟩ := C108_blocks perThread_apart (fun _ => one) overlap 1 (by decide)
  obtain ⟨c, _⟩ := C108_blocks perThread_apart (fun _ => one) overlap 0 (by decide)
  exact ⟨a (0, 0, none) (by decide), c (1, 0, some (0, 0)) (by decide), b 0⟩

/-- With the default hooks the same interleaving gives thread 1's block a parent of thread 0, thread 0's inner action one of
thread 1, and leaves a finished action active. -/
theorem C108_default_violated :
    (run perLogger {} overlap).info (1, 0) = some (0, some (0, 0)) ∧
    (run perLogger {} overlap).info (0, 1) = some (0, some (1, 0)) ∧
    (run perLogger {} overlap).active (perLogger 1 0) = some (0, 0) := by decide

end Verif.Parents
