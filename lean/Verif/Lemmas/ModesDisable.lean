import Verif.Lemmas.Modes
/-!
# `disable_async` among other threads
-/
namespace Verif.Modes

open scoped List

/-- The thread is not making `l` or changing its mode, nor (unless `pub`) publishing on it. -/
def calm (l : LogId) (pub : Bool) : PC → Prop
  | .made m _ | .set m _ => m ≠ l
  | .read m _ | .append m _ | .deliver m _ => pub = true ∨ m ≠ l
  | _ => True

/-- A call that does not make, remove or switch `l`, nor (unless `pub`) publish on it. -/
def okAct (l : LogId) (pub : Bool) : Act → Prop
  | .new m _ | .setAsync m _ | .remove m => m ≠ l
  | .publish m _ => pub = true ∨ m ≠ l
  | _ => True

/-- Events of `l` a thread is about to put into the queue, or has taken out of it and not delivered. -/
def pendOf (l : LogId) : PC → List Ev
  | .append m e | .deliv m e _ _ => if m = l then [e] else []
  | _ => []

/-- Events of `l` queued or pending. -/
def left (s : Sys) (l : LogId) : List Ev := s.queue l ++ s.pcs.flatMap (pendOf l)

theorem calm_set {l : LogId} {pub : Bool} {xs : List PC} {t : Nat} {p : PC} (h : ∀ p ∈ xs, calm l pub p)
    (hp : calm l pub p) : ∀ q ∈ xs.set t p, calm l pub q := by
  intro q hq
  rcases List.mem_or_eq_of_mem_set hq with h1 | h1
  · exact h q h1
  · rw [h1]; exact hp

theorem step_calm (s : Sys) (t : Tid) (a : Act) (l : LogId) (pub : Bool) (h : ∀ p ∈ s.pcs, calm l pub p)
    (ha : okAct l pub a) : ∀ p ∈ (step s t a).pcs, calm l pub p := by
  unfold step
  cases hp : s.pcs[t]? with
  | none => exact h
  | some p =>
    have h0 := h p (List.mem_of_getElem? hp)
    dsimp only
    split
    · cases p with
      | idle => exact h
      | read m e => exact calm_set h (by cases s.mode m <;> exact h0)
      | append m e => exact calm_set h trivial
      | deliver m e => exact calm_set h trivial
      | made m g => exact calm_set h h0
      | set m b => exact calm_set h trivial
      | snap d => exact calm_set h trivial
      | setting ls d =>
        cases ls with
        | nil => exact calm_set h (by cases d <;> exact trivial)
        | cons m ls => exact calm_set h trivial
      | flushSnap off => exact calm_set h trivial
      | flush ls off =>
        cases ls with
        | nil => cases off <;> exact calm_set h trivial
        | cons m ls =>
          simp only [go]
          split
          · exact calm_set h trivial
          · exact h
      | loop m ls off =>
        simp only [go]
        split <;> exact calm_set h trivial
      | deliv m e ls off => exact calm_set h trivial
    · split
      · cases a with
        | publish m e => exact calm_set h ha
        | new m g => exact calm_set h ha
        | setAsync m b => exact calm_set h ha
        | remove m => exact h
        | enable u => exact calm_set h (by cases u <;> exact trivial)
        | disable u => exact calm_set h (by cases u <;> exact trivial)
        | flush => exact calm_set h trivial
        | flushLogger m => exact calm_set h trivial
        | go => exact h
      · exact h

theorem step_registered (s : Sys) (t : Tid) (a : Act) (l : LogId) (pub : Bool) (h : l ∈ s.loggers)
    (ha : okAct l pub a) : l ∈ (step s t a).loggers := by
  unfold step
  cases hp : s.pcs[t]? with
  | none => exact h
  | some p =>
    dsimp only
    split
    · cases p with
      | setting ls d => cases ls <;> exact h
      | flush ls off =>
        cases ls with
        | nil => cases off <;> exact h
        | cons m ls => simp only [go]; split <;> exact h
      | loop m ls off => simp only [go]; split <;> exact h
      | _ => exact h
    · split
      · cases a with
        | new m g =>
          simp only [call, Sys.to]
          split
          · exact h
          · exact List.mem_append_left _ h
        | remove m =>
          simp only [call, List.mem_filter, decide_eq_true_eq]
          exact ⟨h, Ne.symm ha⟩
        | _ => exact h
      · exact h

theorem step_mode (s : Sys) (t : Tid) (a : Act) (l : LogId) (pub : Bool) (hc : ∀ p ∈ s.pcs, calm l pub p)
    (h : s.mode l = false) : (step s t a).mode l = false := by
  unfold step
  cases hp : s.pcs[t]? with
  | none => exact h
  | some p =>
    have h0 := hc p (List.mem_of_getElem? hp)
    dsimp only
    split
    · cases p with
      | set m b =>
        simp only [go, Sys.to]
        rw [upd_ne _ _ (Ne.symm h0)]; exact h
      | setting ls d =>
        cases ls with
        | nil => exact h
        | cons m ls =>
          simp only [go, Sys.to, upd]
          split
          · rfl
          · exact h
      | flush ls off =>
        cases ls with
        | nil => cases off <;> exact h
        | cons m ls => simp only [go]; split <;> exact h
      | loop m ls off => simp only [go]; split <;> exact h
      | _ => exact h
    · split
      · cases a <;> exact h
      · exact h

theorem go_append (s : Sys) (t : Tid) (m : LogId) (e : Ev) : ∃ q : List Ev, q.length ≤ (s.queue m).length + 1 ∧
    go s t (.append m e) = { s with queue := upd s.queue m q }.to t .idle := by
  refine ⟨_, ?_, rfl⟩
  have := (pushBounded_sublist QUEUE_LIMIT (s.queue m) e).length_le
  rw [List.length_append, List.length_singleton] at this
  exact this

/-- Once `l` is synchronous, what is queued or pending only gets less. -/
theorem step_left (s : Sys) (t : Tid) (a : Act) (l : LogId) (h : s.mode l = false) :
    (left (step s t a) l).length ≤ (left s l).length := by
  unfold step
  cases hp : s.pcs[t]? with
  | none => exact Nat.le_refl _
  | some p =>
    obtain ⟨X, h1, h2⟩ := flatMap_set (pendOf l) hp
    have key : ∀ (q : List Ev) (p' : PC), q.length + (pendOf l p').length ≤ (s.queue l).length + (pendOf l p).length →
        (q ++ (s.pcs.set t p').flatMap (pendOf l)).length ≤ (s.queue l ++ s.pcs.flatMap (pendOf l)).length := by
      intro q p' hle
      have e1 := h1.length_eq
      have e2 := (h2 p').length_eq
      simp only [List.length_append] at e1 e2 ⊢
      omega
    dsimp only
    split
    · cases p with
      | idle => simp [go]
      | read m e =>
        simp only [left, go, Sys.to]
        apply key
        by_cases hml : m = l
        · subst hml; simp [h, pendOf]
        · cases s.mode m <;> simp [pendOf, hml]
      | append m e =>
        obtain ⟨q, hq, hgo⟩ := go_append s t m e
        rw [hgo]
        simp only [left, Sys.to]
        apply key
        by_cases hml : m = l
        · subst hml
          rw [upd_same]
          simp only [pendOf, if_true, List.length_nil, List.length_singleton, Nat.add_zero]
          exact hq
        · simp [pendOf, hml, upd_ne _ _ (Ne.symm hml)]
      | deliver m e => simp only [left, go, Sys.to]; apply key; simp [pendOf]
      | made m g => simp only [left, go, Sys.to]; apply key; simp [pendOf]
      | set m b => simp only [left, go, Sys.to]; apply key; simp [pendOf]
      | snap d => simp only [left, go, Sys.to]; apply key; simp [pendOf]
      | setting ls d =>
        cases ls with
        | nil => simp only [left, go, Sys.to]; apply key; cases d <;> simp [pendOf]
        | cons m ls => simp only [left, go, Sys.to]; apply key; simp [pendOf]
      | flushSnap off => simp only [left, go, Sys.to]; apply key; simp [pendOf]
      | flush ls off =>
        cases ls with
        | nil =>
          cases off
          · simp only [left, go, Sys.to]; apply key; simp [pendOf]
          · simp only [left, go, Sys.to]; apply key; simp [pendOf]
        | cons m ls =>
          simp only [go]
          split
          · simp only [left, Sys.to]; apply key; simp [pendOf]
          · exact Nat.le_refl _
      | loop m ls off =>
        simp only [go]
        split
        · simp only [left, Sys.to]; apply key; simp [pendOf]
        · next e q hq =>
          simp only [left, Sys.to]
          apply key
          by_cases hml : m = l
          · subst hml; simp [pendOf, hq]
          · simp [pendOf, hml, upd_ne _ _ (Ne.symm hml)]
      | deliv m e ls off =>
        simp only [left, go, Sys.to]; apply key
        simp [pendOf]
    · split
      · next hi =>
        subst hi
        cases a with
        | publish m e => simp only [left, call, Sys.to]; apply key; simp [pendOf]
        | new m g => simp only [left, call, Sys.to]; apply key; simp [pendOf]
        | setAsync m b => simp only [left, call, Sys.to]; apply key; simp [pendOf]
        | remove m => simp [call, left]
        | enable u => simp only [left, call, Sys.to]; apply key; cases u <;> simp [pendOf]
        | disable u => simp only [left, call, Sys.to]; apply key; cases u <;> simp [pendOf]
        | flush => simp only [left, call, Sys.to]; apply key; simp [pendOf]
        | flushLogger m => simp only [left, call, Sys.to]; apply key; simp [pendOf]
        | go => simp [call]
      · exact Nat.le_refl _

theorem step_other (s : Sys) {t t' : Tid} (a : Act) (h : t' ≠ t) : (step s t' a).pcs[t]? = s.pcs[t]? := by
  unfold step
  cases s.pcs[t']? with
  | none => rfl
  | some p =>
    dsimp only
    split
    · cases p with
      | setting ls d => cases ls <;> simp [go, Sys.to, h]
      | flush ls off =>
        cases ls with
        | nil => cases off <;> simp [go, Sys.to, h]
        | cons m ls => simp only [go]; split <;> simp [Sys.to, h]
      | loop m ls off => simp only [go]; split <;> simp [Sys.to, h]
      | _ => simp [go, Sys.to, h]
    · split
      · cases a <;> simp [call, Sys.to, h]
      · rfl

/-- How far a thread in `disable_async` is with `l`. -/
def Phase (l : LogId) (mode done : Prop) : PC → Prop
  | .snap true => True
  | .setting ls true => l ∈ ls ∨ mode
  | .flushSnap true => mode
  | .flush ls true => mode ∧ (l ∈ ls ∨ done)
  | .loop m ls true | .deliv m _ ls true => mode ∧ (m = l ∨ l ∈ ls ∨ done)
  | .idle => mode ∧ done
  | _ => False

theorem Phase.mono {l : LogId} {m d m' d' : Prop} {p : PC} (hm : m → m') (hd : m → d → d') (h : Phase l m d p) :
    Phase l m' d' p := by
  cases p with
  | idle => exact ⟨hm h.1, hd h.1 h.2⟩
  | snap b => cases b <;> exact h
  | setting ls b => cases b with
    | false => exact h
    | true => exact h.imp id hm
  | flushSnap b => cases b with
    | false => exact h
    | true => exact hm h
  | flush ls b => cases b with
    | false => exact h
    | true => exact ⟨hm h.1, h.2.imp id (hd h.1)⟩
  | loop k ls b => cases b with
    | false => exact h
    | true => exact ⟨hm h.1, h.2.imp id (Or.imp id (hd h.1))⟩
  | deliv k e ls b => cases b with
    | false => exact h
    | true => exact ⟨hm h.1, h.2.imp id (Or.imp id (hd h.1))⟩
  | read _ _ => exact h
  | append _ _ => exact h
  | deliver _ _ => exact h
  | made _ _ => exact h
  | set _ _ => exact h

theorem flatMap_short {α β : Type} (f : α → List β) (hf : ∀ a, (f a).length ≤ 1) (xs : List α) :
    (xs.flatMap f).length ≤ xs.length := by
  induction xs with
  | nil => simp
  | cons x xs ih =>
    have := hf x
    simp only [List.flatMap_cons, List.length_append, List.length_cons]; omega

theorem flatMap_shorter {α β : Type} (f : α → List β) (hf : ∀ a, (f a).length ≤ 1) {xs : List α} {t : Nat} {p : α}
    (h : xs[t]? = some p) (hp : f p = []) : (xs.flatMap f).length + 1 ≤ xs.length := by
  induction xs generalizing t with
  | nil => simp at h
  | cons x xs ih =>
    cases t with
    | zero =>
      simp only [List.getElem?_cons_zero, Option.some.injEq] at h
      subst h
      have := flatMap_short f hf xs
      simp only [List.flatMap_cons, hp, List.nil_append, List.length_cons]; omega
    | succ t =>
      have := ih (by simpa using h)
      have := hf x
      simp only [List.flatMap_cons, List.length_append, List.length_cons]; omega

theorem pendOf_short (l : LogId) (p : PC) : (pendOf l p).length ≤ 1 := by
  unfold pendOf
  split <;> first | (split <;> simp) | simp

/-- The state of affairs while thread `t` is in `disable_async`. -/
structure Inv (t : Tid) (l : LogId) (pub : Bool) (B : Nat) (s : Sys) : Prop where
  locked : Locked s
  calm : ∀ p ∈ s.pcs, calm l pub p
  reg : l ∈ s.loggers
  bound : pub = false ∨ s.pcs.length ≤ B + 1
  phase : ∃ p, s.pcs[t]? = some p ∧ Phase l (s.mode l = false) ((left s l).length ≤ B) p

/-- What the flusher of `l` leaves when it finds the queue empty. -/
theorem Inv.found_empty {t : Tid} {l : LogId} {pub : Bool} {B : Nat} {s : Sys} (h : Inv t l pub B s) {ls off}
    (hp : s.pcs[t]? = some (.loop l ls off)) (hq : s.queue l = []) : (left s l).length ≤ B := by
  simp only [left, hq, List.nil_append]
  rcases h.bound with hb | hb
  · have : s.pcs.flatMap (pendOf l) = [] := by
      rw [List.flatMap_eq_nil_iff]
      intro p hpm
      have hc := h.calm p hpm
      cases p with
      | append m e =>
        simp only [Modes.calm, hb, Bool.false_eq_true, false_or] at hc
        simp [pendOf, hc]
      | deliv m e ls' off' =>
        by_cases hml : m = l
        · exfalso
          obtain ⟨t', ht'⟩ := List.getElem?_of_mem hpm
          have h1 := h.locked t' _ l ht' hml
          have h2 := h.locked t _ l hp rfl
          rw [h1] at h2
          have := Option.some.inj h2
          subst this
          rw [ht'] at hp
          simp at hp
        · simp [pendOf, hml]
      | _ => rfl
    simp [this]
  · have := flatMap_shorter (pendOf l) (pendOf_short l) hp rfl
    omega

theorem step_Inv {t : Tid} {l : LogId} {pub : Bool} {B : Nat} {s : Sys} (h : Inv t l pub B s) (t' : Tid) (a : Act)
    (ha : okAct l pub a) (ht : t' = t → a = .go) : Inv t l pub B (step s t' a) := by
  have hcalm' := step_calm s t' a l pub h.calm ha
  have hreg' := step_registered s t' a l pub h.reg ha
  have hb' : pub = false ∨ (step s t' a).pcs.length ≤ B + 1 := by rw [step_length]; exact h.bound
  refine ⟨step_locked s t' a h.locked, hcalm', hreg', hb', ?_⟩
  obtain ⟨p, hp, hph⟩ := h.phase
  have hm := step_mode s t' a l pub h.calm
  have hd := step_left s t' a l
  have hph' : Phase l ((step s t' a).mode l = false) ((left (step s t' a) l).length ≤ B) p :=
    hph.mono hm (fun h1 h2 => Nat.le_trans (hd h1) h2)
  by_cases hne : t' = t
  · subst hne
    have := ht rfl
    subst this
    have hlt : t' < s.pcs.length := (List.getElem?_eq_some_iff.mp hp).1
    have hget : ∀ q, (s.pcs.set t' q)[t']? = some q := by intro q; simp [hlt]
    have hs : step s t' .go = go s t' p := by simp [step, hp]
    rw [hs] at hph' ⊢
    cases p with
    | idle => exact ⟨.idle, hp, hph'⟩
    | snap b =>
      cases b with
      | false => exact hph.elim
      | true => exact ⟨_, hget _, Or.inl h.reg⟩
    | setting ls b =>
      cases b with
      | false => exact hph.elim
      | true =>
        cases ls with
        | nil =>
          refine ⟨_, hget _, ?_⟩
          rcases hph' with h1 | h1
          · simp at h1
          · exact h1
        | cons m ls =>
          refine ⟨_, hget _, ?_⟩
          rcases hph' with h1 | h1
          · rcases List.mem_cons.mp h1 with h2 | h2
            · right; subst h2; simp [go, Sys.to]
            · exact Or.inl h2
          · exact Or.inr h1
    | flushSnap b =>
      cases b with
      | false => exact hph.elim
      | true => exact ⟨_, hget _, hph', Or.inl h.reg⟩
    | flush ls b =>
      cases b with
      | false => exact hph.elim
      | true =>
        cases ls with
        | nil =>
          refine ⟨.idle, hget _, hph'.1, ?_⟩
          rcases hph'.2 with h1 | h1
          · simp at h1
          · exact h1
        | cons m ls =>
          simp only [go] at hph' ⊢
          split at hph'
          · next ho =>
            rw [if_pos ho]
            refine ⟨_, hget _, hph'.1, ?_⟩
            rcases hph'.2 with h1 | h1
            · rcases List.mem_cons.mp h1 with h2 | h2
              · exact Or.inl h2.symm
              · exact Or.inr (Or.inl h2)
            · exact Or.inr (Or.inr h1)
          · next ho =>
            rw [if_neg ho]
            exact ⟨_, hp, hph'⟩
    | loop m ls b =>
      cases b with
      | false => exact hph.elim
      | true =>
        cases hq : s.queue m with
        | nil =>
          have hgo : go s t' (.loop m ls true) = { s with owner := upd s.owner m none }.to t' (.flush ls true) := by
            simp [go, hq]
          rw [hgo] at hph' ⊢
          refine ⟨_, hget _, hph'.1, ?_⟩
          rcases hph'.2 with h1 | h1
          · right
            subst h1
            have h2 := h.found_empty hp hq
            have h3 := hd hph.1
            rw [hs, hgo] at h3
            exact Nat.le_trans h3 h2
          · exact h1
        | cons e q =>
          have hgo : go s t' (.loop m ls true) = { s with queue := upd s.queue m q }.to t' (.deliv m e ls true) := by
            simp [go, hq]
          rw [hgo] at hph' ⊢
          exact ⟨_, hget _, hph'⟩
    | deliv m e ls b =>
      cases b with
      | false => exact hph.elim
      | true => exact ⟨_, hget _, hph'⟩
    | read _ _ => exact hph.elim
    | append _ _ => exact hph.elim
    | deliver _ _ => exact hph.elim
    | made _ _ => exact hph.elim
    | set _ _ => exact hph.elim
  · exact ⟨p, by rw [step_other s a hne]; exact hp, hph'⟩

theorem run_Inv {t : Tid} {l : LogId} {pub : Bool} {B : Nat} {s : Sys} (h : Inv t l pub B s)
    (sched : List (Tid × Act)) (ha : ∀ x ∈ sched, okAct l pub x.2 ∧ (x.1 = t → x.2 = .go)) :
    Inv t l pub B (run s sched) := by
  induction sched generalizing s with
  | nil => exact h
  | cons x sched ih =>
    exact ih (step_Inv h x.1 x.2 (ha x (List.mem_cons_self)).1 (ha x (List.mem_cons_self)).2)
      fun y hy => ha y (List.mem_cons_of_mem _ hy)

end Verif.Modes
