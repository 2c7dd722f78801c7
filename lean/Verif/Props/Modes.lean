import Verif.Spec.Modes
import Verif.Lemmas.ModesDisable
/-!
# C99 and C100: publishing while modes change; `disable_async` among other threads
-/
namespace Verif.Modes

open scoped List

/-! ### C99 -/

/-- **C99**, first part: whatever threads do, a logger's sinks are handed only events published on it, each at most once
per publication. -/
theorem C99_at_most_once (n : Nat) (sched : List (Tid × Act)) (l : LogId) :
    (run (init n) sched).got l <+~ (run (init n) sched).pub l := by
  have h := run_all (init n) sched l (by rw [init_all]; exact List.nil_subperm)
  refine List.Subperm.trans ?_ h
  simp only [all, List.append_assoc]
  exact (List.sublist_append_left _ _).subperm

/-- **C99**, second part: with no more than `QUEUE_LIMIT` events published on a logger, when all calls have returned every
one has been handed over or is queued, exactly once. -/
theorem C99_nothing_lost (n : Nat) (sched : List (Tid × Act)) (l : LogId)
    (hl : ((run (init n) sched).pub l).length ≤ QUEUE_LIMIT) (hi : allReturned (run (init n) sched)) :
    (run (init n) sched).got l ++ (run (init n) sched).queue l ~ (run (init n) sched).pub l := by
  have h := run_all_perm (init n) sched l (by rw [init_all]; exact List.Perm.refl _) hl
  have h0 : (run (init n) sched).pcs.flatMap (held l) = [] := by
    rw [List.flatMap_eq_nil_iff]
    intro p hp
    rw [hi p hp]; rfl
  rw [all, h0, List.append_nil] at h
  exact h

theorem got_mono (s : Sys) (t : Tid) (a : Act) (l : LogId) (e : Ev) (h : e ∈ s.got l) : e ∈ (step s t a).got l := by
  unfold step
  cases hp : s.pcs[t]? with
  | none => exact h
  | some p =>
    dsimp only
    split
    · cases p with
      | deliver m e' =>
        simp only [go, Sys.to, upd]
        split
        · next h1 => subst h1; exact List.mem_append_left _ h
        · exact h
      | deliv m e' ls off =>
        simp only [go, Sys.to, upd]
        split
        · next h1 => subst h1; exact List.mem_append_left _ h
        · exact h
      | setting ls d => cases ls <;> exact h
      | flush ls off =>
        cases ls with
        | nil => cases off <;> exact h
        | cons m ls => simp only [go]; split <;> exact h
      | loop m ls off => simp only [go]; split <;> exact h
      | _ => exact h
    · split
      · cases a <;> exact h
      · exact h

theorem calm_of {s : Sys} {l : LogId} (h : ¬ beingSet s l) : ∀ p ∈ s.pcs, calm l true p := by
  intro p hp
  cases p with
  | made m g => rintro rfl; exact h (Or.inl ⟨g, hp⟩)
  | set m b => rintro rfl; exact h (Or.inr ⟨b, hp⟩)
  | read m e => exact Or.inl rfl
  | append m e => exact Or.inl rfl
  | deliver m e => exact Or.inl rfl
  | _ => exact trivial

theorem calm_of' {s : Sys} {l : LogId} (h : ¬ beingSet s l) (h' : ¬ beingPublished s l) :
    ∀ p ∈ s.pcs, calm l false p := by
  intro p hp
  cases p with
  | made m g => rintro rfl; exact h (Or.inl ⟨g, hp⟩)
  | set m b => rintro rfl; exact h (Or.inr ⟨b, hp⟩)
  | read m e => right; rintro rfl; exact h' ⟨e, Or.inl hp⟩
  | append m e => right; rintro rfl; exact h' ⟨e, Or.inr (Or.inl hp)⟩
  | deliver m e => right; rintro rfl; exact h' ⟨e, Or.inr (Or.inr hp)⟩
  | _ => exact trivial

theorem ok_of {l : LogId} {a : Act} (h : ¬ changes l a) : okAct l true a := by
  cases a with
  | new m g => rintro rfl; exact h (Or.inl ⟨g, rfl⟩)
  | setAsync m b => rintro rfl; exact h (Or.inr (Or.inl ⟨b, rfl⟩))
  | remove m => rintro rfl; exact h (Or.inr (Or.inr rfl))
  | publish m e => exact Or.inl rfl
  | _ => exact trivial

theorem ok_of' {l : LogId} {a : Act} (h : ¬ changes l a) (h' : ∀ e, a ≠ .publish l e) : okAct l false a := by
  cases a with
  | new m g => rintro rfl; exact h (Or.inl ⟨g, rfl⟩)
  | setAsync m b => rintro rfl; exact h (Or.inr (Or.inl ⟨b, rfl⟩))
  | remove m => rintro rfl; exact h (Or.inr (Or.inr rfl))
  | publish m e => right; rintro rfl; exact h' e rfl
  | _ => exact trivial

/-- A publishing call under way on a logger that is and stays synchronous. -/
theorem sync_inv {t : Tid} {l : LogId} {e : Ev} (sched : List (Tid × Act))
    (hs : ∀ x ∈ sched, ¬ changes l x.2 ∧ (x.1 = t → x.2 = .go)) {s : Sys} (hm : s.mode l = false)
    (hc : ∀ p ∈ s.pcs, calm l true p)
    (hp : s.pcs[t]? = some (.read l e) ∨ s.pcs[t]? = some (.deliver l e) ∨ s.pcs[t]? = some .idle ∧ e ∈ s.got l) :
    (run s sched).pcs[t]? = some (.read l e) ∨ (run s sched).pcs[t]? = some (.deliver l e) ∨
      (run s sched).pcs[t]? = some .idle ∧ e ∈ (run s sched).got l := by
  induction sched generalizing s with
  | nil => exact hp
  | cons x sched ih =>
    rw [run_cons]
    refine ih (fun y hy => hs y (List.mem_cons_of_mem _ hy)) (step_mode s x.1 x.2 l true hc hm)
      (step_calm s x.1 x.2 l true hc (ok_of (hs x List.mem_cons_self).1)) ?_
    by_cases hx : x.1 = t
    · have hgo := (hs x List.mem_cons_self).2 hx
      rw [hgo, hx]
      rcases hp with h | h | ⟨h, h'⟩
      · right; left
        rw [step_go h]
        simp only [go, hm]
        exact set_self h _
      · right; right
        rw [step_go h]
        refine ⟨set_self h _, ?_⟩
        simp [go, Sys.to]
      · right; right
        rw [step_go h]
        exact ⟨h, h'⟩
    · rw [step_other s x.2 hx]
      rcases hp with h | h | ⟨h, h'⟩
      · exact Or.inl h
      · exact Or.inr (Or.inl h)
      · exact Or.inr (Or.inr ⟨h, got_mono s x.1 x.2 l e h'⟩)

/-- **C99**, third part: an event published on a logger that is synchronous when the publishing call is made, and is not
made, removed or switched meanwhile, has been handed over when the call returns, whatever other threads do. -/
theorem C99_synchronous (s : Sys) (t : Tid) (l : LogId) (e : Ev) (sched : List (Tid × Act))
    (ht : s.pcs[t]? = some .idle) (hm : s.mode l = false) (hb : ¬ beingSet s l)
    (hs : ∀ x ∈ sched, ¬ changes l x.2 ∧ (x.1 = t → x.2 = .go))
    (hr : (run s ((t, .publish l e) :: sched)).pcs[t]? = some .idle) :
    e ∈ (run s ((t, .publish l e) :: sched)).got l := by
  have h1 : (step s t (.publish l e)).pcs[t]? = some (.read l e) := by
    rw [step_call ht (by simp)]
    exact set_self ht _
  have h2 := sync_inv sched hs (step_mode s t (.publish l e) l true (calm_of hb) hm)
    (step_calm s t (.publish l e) l true (calm_of hb) (Or.inl rfl)) (Or.inl h1)
  rw [run_cons] at hr ⊢
  dsimp only at hr ⊢
  rcases h2 with h | h | h
  · rw [h] at hr; simp at hr
  · rw [h] at hr; simp at hr
  · exact h.2

/-! ### C100 -/

/-- **C100**, the part that holds with publishers: a logger that is registered when `disable_async()` is called, and that
nobody makes, removes or switches meanwhile, is synchronous when the call has returned, and has fewer events queued than
there are threads: at most the one each other thread was about to append. -/
theorem C100_bound_partial (n : Nat) (before after : List (Tid × Act)) (t : Tid) (l : LogId)
    (ht : (run (init n) before).pcs[t]? = some .idle) (hl : l ∈ (run (init n) before).loggers)
    (hb : ¬ beingSet (run (init n) before) l)
    (ha : ∀ x ∈ after, ¬ changes l x.2 ∧ (x.1 = t → x.2 = .go))
    (hr : (run (init n) (before ++ (t, .disable true) :: after)).pcs[t]? = some .idle) :
    (run (init n) (before ++ (t, .disable true) :: after)).mode l = false ∧
    ((run (init n) (before ++ (t, .disable true) :: after)).queue l).length < n := by
  have hn : (run (init n) before).pcs.length = n := by rw [run_length]; simp [init]
  have hlock := run_locked (init n) before (init_locked n)
  rw [run_append, run_cons] at hr ⊢
  dsimp only at hr ⊢
  generalize run (init n) before = s0 at *
  have hpos := (List.getElem?_eq_some_iff.mp ht).1
  have h0 : Inv t l true (n - 1) (step s0 t (.disable true)) := by
    refine ⟨step_locked s0 t _ hlock, step_calm s0 t _ l true (calm_of hb) trivial,
      step_registered s0 t _ l true hl trivial, Or.inr (by rw [step_length, hn]; omega), .snap true, ?_, trivial⟩
    rw [step_call ht (by simp)]
    exact set_self ht _
  obtain ⟨p, hp, hph⟩ := (run_Inv h0 after fun x hx => ⟨ok_of (ha x hx).1, (ha x hx).2⟩).phase
  rw [hr] at hp
  obtain rfl := Option.some.inj hp
  refine ⟨hph.1, ?_⟩
  have := hph.2
  simp only [left, List.length_append] at this
  omega

/-- **C100**, the part that holds without publishers: if moreover nobody is publishing on the logger when `disable_async()`
is called nor until it returns, then its queue is empty and (with no more than `QUEUE_LIMIT` events published) every event
published on it has been handed over exactly once, whatever other threads flush meanwhile. -/
theorem C100_quiet_partial (n : Nat) (before after : List (Tid × Act)) (t : Tid) (l : LogId)
    (ht : (run (init n) before).pcs[t]? = some .idle) (hl : l ∈ (run (init n) before).loggers)
    (hb : ¬ beingSet (run (init n) before) l) (hb' : ¬ beingPublished (run (init n) before) l)
    (ha : ∀ x ∈ after, ¬ changes l x.2 ∧ (∀ e, x.2 ≠ .publish l e) ∧ (x.1 = t → x.2 = .go))
    (hr : (run (init n) (before ++ (t, .disable true) :: after)).pcs[t]? = some .idle) :
    (run (init n) (before ++ (t, .disable true) :: after)).mode l = false ∧
    (run (init n) (before ++ (t, .disable true) :: after)).queue l = [] ∧
    (((run (init n) (before ++ (t, .disable true) :: after)).pub l).length ≤ QUEUE_LIMIT →
      (run (init n) (before ++ (t, .disable true) :: after)).got l ~
        (run (init n) (before ++ (t, .disable true) :: after)).pub l) := by
  have hall := run_all_perm (init n) (before ++ (t, .disable true) :: after) l
    (by rw [init_all]; exact List.Perm.refl _)
  have hlock := run_locked (init n) before (init_locked n)
  rw [run_append, run_cons] at hr hall ⊢
  dsimp only at hr hall ⊢
  generalize run (init n) before = s0 at *
  have h0 : Inv t l false 0 (step s0 t (.disable true)) := by
    refine ⟨step_locked s0 t _ hlock, step_calm s0 t _ l false (calm_of' hb hb') trivial,
      step_registered s0 t _ l false hl trivial, Or.inl rfl, .snap true, ?_, trivial⟩
    rw [step_call ht (by simp)]
    exact set_self ht _
  have hI := run_Inv h0 after fun x hx => ⟨ok_of' (ha x hx).1 (ha x hx).2.1, (ha x hx).2.2⟩
  obtain ⟨p, hp, hph⟩ := hI.phase
  rw [hr] at hp
  obtain rfl := Option.some.inj hp
  have hcalm := hI.calm
  generalize run (step s0 t (.disable true)) after = s1 at *
  have h1 : left s1 l = [] := List.eq_nil_of_length_eq_zero (Nat.le_zero.mp hph.2)
  obtain ⟨hq, hpend⟩ := List.append_eq_nil_iff.mp h1
  refine ⟨hph.1, hq, fun hlim => ?_⟩
  have h2 := hall hlim
  have h3 : s1.pcs.flatMap (held l) = [] := by
    rw [List.flatMap_eq_nil_iff] at hpend ⊢
    intro p hp
    have hc := hcalm p hp
    have hpe := hpend p hp
    cases p with
    | read m e => simp only [calm, Bool.false_eq_true, false_or] at hc; simp [held, hc]
    | append m e => simp only [calm, Bool.false_eq_true, false_or] at hc; simp [held, hc]
    | deliver m e => simp only [calm, Bool.false_eq_true, false_or] at hc; simp [held, hc]
    | deliv m e ls off => exact hpe
    | _ => rfl
  rw [all, h3, hq, List.append_nil, List.append_nil] at h2
  exact h2

/-- A publishing call that found the logger asynchronous appends its event after `disable_async` has flushed: with
everything returned, a synchronous logger has an event queued that no sink has been handed. -/
theorem C100_stranded_violated : ¬ DisableFull := by
  intro h
  have := h 2 [(0, .new 1 (some true)), (0, .go), (0, .go), (0, .publish 1 7), (0, .go)]
    [(1, .go), (1, .go), (1, .go), (1, .go), (1, .go), (1, .go), (1, .go), (0, .go)] 1 (by decide +kernel)
    (by
      intro x hx
      simp only [List.mem_cons, List.not_mem_nil, or_false] at hx
      rcases hx with rfl | rfl | rfl | rfl | rfl | rfl | rfl | rfl <;> simp [asksAsync])
    (by unfold allReturned; decide +kernel) 1 (by decide +kernel)
  revert this
  decide +kernel

/-- A logger made while `disable_async` flushes takes over the asynchronous mode of the context and keeps it. -/
theorem C100_made_violated : ¬ DisableFull := by
  intro h
  have := h 2 [(1, .enable true), (1, .go), (1, .go)]
    [(1, .go), (1, .go), (1, .go), (0, .new 5 none), (0, .go), (0, .go), (1, .go)] 1 (by decide +kernel)
    (by
      intro x hx
      simp only [List.mem_cons, List.not_mem_nil, or_false] at hx
      rcases hx with rfl | rfl | rfl | rfl | rfl | rfl | rfl <;> simp [asksAsync])
    (by unfold allReturned; decide +kernel) 5 (by decide +kernel)
  revert this
  decide +kernel

/-! ### C100: what loggers made afterwards take over -/

/-- Inside `disable_async()`. -/
def disabling : PC → Prop
  | .snap d => d = true
  | .setting _ d => d = true
  | .flushSnap off => off = true
  | .flush _ off => off = true
  | .loop _ _ off => off = true
  | .deliv _ _ _ off => off = true
  | _ => False

/-- Only `enable_async` makes the context asynchronous. -/
theorem ctx_stays {s : Sys} (t : Tid) {a : Act} (ha : ∀ u, a ≠ .enable u) (h : s.ctxAsync = false) :
    (step s t a).ctxAsync = false := by
  unfold step
  cases hp : s.pcs[t]? with
  | none => exact h
  | some p =>
    dsimp only
    split
    · cases p with
      | setting ls d => cases ls <;> exact h
      | flush ls off =>
        cases ls with
        | nil => cases off <;> first | exact h | rfl
        | cons m ls => simp only [go]; split <;> exact h
      | loop m ls off => simp only [go]; split <;> exact h
      | _ => exact h
    · split
      · cases a with
        | enable u => exact absurd rfl (ha u)
        | _ => exact h
      · exact h

/-- The next step of `disable_async()`: it is under way still, or has returned and made the context synchronous. -/
theorem disabling_go {s : Sys} {t : Tid} {p : PC} (hp : s.pcs[t]? = some p) (hd : disabling p) :
    (∃ q, (go s t p).pcs[t]? = some q ∧ disabling q) ∨
      (go s t p).pcs[t]? = some .idle ∧ (go s t p).ctxAsync = false := by
  have same : ∀ q, (s.pcs.set t q)[t]? = some q := fun q => set_self hp q
  cases p with
  | snap d => exact Or.inl ⟨_, same _, hd⟩
  | setting ls d =>
    cases hd
    cases ls with
    | nil => exact Or.inl ⟨_, same _, rfl⟩
    | cons m ls => exact Or.inl ⟨_, same _, rfl⟩
  | flushSnap off => exact Or.inl ⟨_, same _, hd⟩
  | flush ls off =>
    cases hd
    cases ls with
    | nil => exact Or.inr ⟨same _, rfl⟩
    | cons m ls =>
      simp only [go]
      split
      · exact Or.inl ⟨_, same _, rfl⟩
      · exact Or.inl ⟨_, hp, rfl⟩
  | loop m ls off =>
    cases hd
    simp only [go]
    split
    · exact Or.inl ⟨_, same _, rfl⟩
    · exact Or.inl ⟨_, same _, rfl⟩
  | deliv m e ls off => exact Or.inl ⟨_, same _, hd⟩
  | _ => exact absurd hd (by simp [disabling])

theorem disabling_run {t : Tid} (after : List (Tid × Act)) (ha : ∀ x ∈ after, (∀ u, x.2 ≠ .enable u) ∧ (x.1 = t → x.2 = .go))
    {s : Sys} (h : (∃ q, s.pcs[t]? = some q ∧ disabling q) ∨ s.pcs[t]? = some .idle ∧ s.ctxAsync = false) :
    (∃ q, (run s after).pcs[t]? = some q ∧ disabling q) ∨
      (run s after).pcs[t]? = some .idle ∧ (run s after).ctxAsync = false := by
  induction after generalizing s with
  | nil => exact h
  | cons x after ih =>
    rw [run_cons]
    refine ih (fun y hy => ha y (List.mem_cons_of_mem _ hy)) ?_
    have hx := ha x List.mem_cons_self
    by_cases hxt : x.1 = t
    · rw [hx.2 hxt, hxt]
      rcases h with ⟨q, h1, h2⟩ | ⟨h1, h2⟩
      · rw [step_go h1]; exact disabling_go h1 h2
      · rw [step_go h1]; exact Or.inr ⟨h1, h2⟩
    · rw [step_other s x.2 hxt]
      exact h.imp id fun h => ⟨h.1, ctx_stays x.1 hx.1 h.2⟩

/-- **C100**, the context: when `disable_async()` has returned, and no call of `enable_async` has been made since it was
called, a logger that any thread makes then without saying otherwise is synchronous — whatever else threads did. -/
theorem C100_context_partial (s : Sys) (after : List (Tid × Act)) (t u : Tid) (update : Bool) (l : LogId)
    (ht : s.pcs[t]? = some .idle)
    (ha : ∀ x ∈ after, (∀ u, x.2 ≠ .enable u) ∧ (x.1 = t → x.2 = .go))
    (hr : (run s ((t, .disable update) :: after)).pcs[t]? = some .idle)
    (hu : (run s ((t, .disable update) :: after)).pcs[u]? = some .idle) :
    (run s ((t, .disable update) :: after)).ctxAsync = false ∧
    (run s ((t, .disable update) :: after ++ [(u, .new l none), (u, .go), (u, .go)])).mode l = false := by
  have h0 : ∃ q, (step s t (.disable update)).pcs[t]? = some q ∧ disabling q := by
    rw [step_call ht (by simp)]
    cases update
    · exact ⟨_, set_self ht _, rfl⟩
    · exact ⟨_, set_self ht _, rfl⟩
  rw [List.cons_append, run_cons, run_cons, run_append]
  rw [run_cons] at hr hu
  dsimp only at hr hu ⊢
  rcases disabling_run after ha (Or.inl h0) with ⟨q, h1, h2⟩ | ⟨h1, h2⟩
  · rw [hr] at h1
    cases h1
    exact h2.elim
  · refine ⟨h2, ?_⟩
    generalize run (step s t (.disable update)) after = s1 at hu h2
    rw [run_cons, run_cons, run_cons]
    dsimp only
    have e1 : (step s1 u (.new l none)).pcs[u]? = some (.made l none) := by
      rw [step_call hu (by simp)]; exact set_self hu _
    have c1 := ctx_stays u (a := .new l none) (by simp) h2
    generalize step s1 u (.new l none) = s2 at e1 c1
    have e2 : (step s2 u .go).pcs[u]? = some (.set l false) := by
      rw [step_go e1]
      simp only [go, c1, Option.getD_none]
      exact set_self e1 _
    generalize step s2 u .go = s3 at e2
    rw [step_go e2]
    simp [run, go, Sys.to, upd]

/-! ### The hypotheses can be met -/

/-- Thread 0 makes a logger asynchronous and publishes twice; thread 2 publishes once more while thread 1 runs
`disable_async`; thread 0 flushes meanwhile. -/
def exBefore : List (Tid × Act) :=
  [(0, .new 1 (some true)), (0, .go), (0, .go), (0, .publish 1 7), (0, .go), (0, .go), (0, .publish 1 8), (0, .go), (0, .go)]

def exAfter : List (Tid × Act) :=
  [(0, .flush), (1, .go), (0, .go), (0, .go), (0, .go), (1, .go), (1, .go), (1, .go), (1, .go), (0, .go), (0, .go), (0, .go),
   (0, .go), (0, .go), (1, .go), (1, .go), (1, .go)]

/-- C100_quiet_partial and C100_bound_partial. -/
example : (run (init 3) exBefore).pcs[1]? = some .idle ∧ 1 ∈ (run (init 3) exBefore).loggers ∧
    ¬ beingSet (run (init 3) exBefore) 1 ∧ ¬ beingPublished (run (init 3) exBefore) 1 ∧
    (∀ x ∈ exAfter, ¬ changes 1 x.2 ∧ (∀ e, x.2 ≠ .publish 1 e) ∧ (x.1 = 1 → x.2 = .go)) ∧
    (run (init 3) (exBefore ++ (1, .disable true) :: exAfter)).pcs[1]? = some .idle ∧
    (run (init 3) (exBefore ++ (1, .disable true) :: exAfter)).got 1 = [7, 8] ∧
    (run (init 3) exBefore).queue 1 = [7, 8] := by
  have e : (run (init 3) exBefore).pcs = [.idle, .idle, .idle] := by decide +kernel
  refine ⟨by decide +kernel, by decide +kernel, ?_, ?_, ?_, by decide +kernel, by decide +kernel, by decide +kernel⟩
  · rw [beingSet, e]; simp
  · rw [beingPublished, e]; simp
  · intro x hx
    simp only [exAfter, List.mem_cons, List.not_mem_nil, or_false] at hx
    rcases hx with rfl | rfl | rfl | rfl | rfl | rfl | rfl | rfl | rfl | rfl | rfl | rfl | rfl | rfl | rfl | rfl | rfl <;>
      simp [changes]

/-- C100_context_partial: the context was asynchronous before. -/
example : (run (init 2) [(0, .enable true), (0, .go), (0, .go)]).ctxAsync = true ∧
    (run (init 2) [(0, .enable true), (0, .go), (0, .go)]).pcs[1]? = some .idle ∧
    (run (run (init 2) [(0, .enable true), (0, .go), (0, .go)])
      [(1, .disable true), (0, .new 4 none), (1, .go), (0, .go), (1, .go), (1, .go), (0, .go), (1, .go), (1, .go), (1, .go),
       (1, .go), (1, .go)]).pcs = [.idle, .idle] := by decide +kernel

/-- C99_nothing_lost: thread 0's event is left in the queue, thread 1's was handed over. -/
example : allReturned (run (init 2) [(0, .new 1 (some true)), (0, .go), (0, .go), (0, .publish 1 7), (0, .go),
      (1, .setAsync 1 false), (1, .go), (1, .publish 1 8), (1, .go), (1, .go), (0, .go)]) ∧
    (run (init 2) [(0, .new 1 (some true)), (0, .go), (0, .go), (0, .publish 1 7), (0, .go),
      (1, .setAsync 1 false), (1, .go), (1, .publish 1 8), (1, .go), (1, .go), (0, .go)]).got 1 = [8] ∧
    (run (init 2) [(0, .new 1 (some true)), (0, .go), (0, .go), (0, .publish 1 7), (0, .go),
      (1, .setAsync 1 false), (1, .go), (1, .publish 1 8), (1, .go), (1, .go), (0, .go)]).queue 1 = [7] := by
  unfold allReturned
  decide +kernel

/-- C99_synchronous. -/
example : (init 2).pcs[0]? = some .idle ∧ (init 2).mode 3 = false ∧ ¬ beingSet (init 2) 3 ∧
    (run (init 2) [(0, .publish 3 9), (1, .flush), (0, .go), (1, .go), (0, .go)]).pcs[0]? = some .idle ∧
    (run (init 2) [(0, .publish 3 9), (1, .flush), (0, .go), (1, .go), (0, .go)]).got 3 = [9] := by
  refine ⟨by decide, by decide, ?_, by decide +kernel, by decide +kernel⟩
  simp [beingSet, init]

end Verif.Modes
