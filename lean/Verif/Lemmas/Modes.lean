import Verif.Model.Modes
import Verif.Lemmas.Full
import Verif.Lemmas.DelInv
import Mathlib.Data.List.Perm.Subperm
/-!
# Invariants of `Model/Modes.lean`
-/
namespace Verif.Modes

open scoped List

/-- Exchanging one thread's part of a list collected from all threads. -/
theorem flatMap_set {α β : Type} (f : α → List β) {xs : List α} {t : Nat} {p : α} (h : xs[t]? = some p) :
    ∃ X, xs.flatMap f ~ f p ++ X ∧ ∀ q, (xs.set t q).flatMap f ~ f q ++ X := by
  induction xs generalizing t with
  | nil => simp at h
  | cons x xs ih =>
    cases t with
    | zero =>
      simp only [List.getElem?_cons_zero, Option.some.injEq] at h
      subst h
      exact ⟨xs.flatMap f, by simp, fun q => by simp⟩
    | succ t =>
      simp only [List.getElem?_cons_succ] at h
      obtain ⟨X, h1, h2⟩ := ih h
      refine ⟨f x ++ X, ?_, fun q => ?_⟩
      · simp only [List.flatMap_cons]
        exact (h1.append_left _).trans (List.perm_append_comm_assoc _ _ _)
      · simp only [List.set_cons_succ, List.flatMap_cons]
        exact ((h2 q).append_left _).trans (List.perm_append_comm_assoc _ _ _)

/-- The events of `l` a thread has in hand. -/
def held (l : LogId) : PC → List Ev
  | .read m e | .append m e | .deliver m e | .deliv m e _ _ => if m = l then [e] else []
  | _ => []

/-- All that has been published on `l` and not lost. -/
def all (s : Sys) (l : LogId) : List Ev := s.got l ++ s.queue l ++ s.pcs.flatMap (held l)

@[simp] theorem upd_same {α : Type} (f : LogId → α) (l : LogId) (a : α) : upd f l a l = a := by simp [upd]
theorem upd_ne {α : Type} (f : LogId → α) {l m : LogId} (a : α) (h : l ≠ m) : upd f m a l = f l := by simp [upd, h]

/-- How `all` and `pub` change in a step: nothing, or the same event is added to both, or the oldest queued event is
dropped because the queue is full. -/
theorem step_all (s : Sys) (t : Tid) (a : Act) (l : LogId) :
    (∃ new, (step s t a).pub l = s.pub l ++ new ∧ all (step s t a) l ~ all s l ++ new) ∨
    ((step s t a).pub l = s.pub l ∧ QUEUE_LIMIT < (all s l).length ∧ all (step s t a) l <+~ all s l) := by
  unfold step
  cases hp : s.pcs[t]? with
  | none => exact Or.inl ⟨[], by simp, by simp⟩
  | some p =>
    obtain ⟨X, h1, h2⟩ := flatMap_set (held l) hp
    dsimp only
    have key : ∀ (g q : List Ev) (p' : PC) (new : List Ev), g ++ q ++ held l p' ~ s.got l ++ s.queue l ++ held l p ++ new →
        g ++ q ++ (s.pcs.set t p').flatMap (held l) ~ s.got l ++ s.queue l ++ s.pcs.flatMap (held l) ++ new := by
      intro g q p' new h
      calc g ++ q ++ (s.pcs.set t p').flatMap (held l) ~ g ++ q ++ (held l p' ++ X) := (h2 p').append_left _
        _ = (g ++ q ++ held l p') ++ X := by simp
        _ ~ (s.got l ++ s.queue l ++ held l p ++ new) ++ X := h.append_right _
        _ ~ (s.got l ++ s.queue l ++ held l p ++ X) ++ new := by
          simp only [List.append_assoc]
          exact (((List.perm_append_comm).append_left _).append_left _).append_left _
        _ = s.got l ++ s.queue l ++ (held l p ++ X) ++ new := by simp
        _ ~ _ := (h1.symm.append_left _).append_right _
    split
    · -- go
      cases p with
      | idle => exact Or.inl ⟨[], by simp [go], by simp [go]⟩
      | read m e =>
        refine Or.inl ⟨[], by simp [go, Sys.to], ?_⟩
        simp only [all, go, Sys.to]
        apply key
        by_cases hm : s.mode m <;> simp [held, hm]
      | append m e =>
        by_cases hml : l = m
        · subst hml
          by_cases hq : (s.queue l).length + 1 ≤ QUEUE_LIMIT
          · refine Or.inl ⟨[], by simp [go, Sys.to], ?_⟩
            simp only [all, go, Sys.to, upd_same]
            apply key
            rw [pushBounded_room hq]
            simp [held]
          · refine Or.inr ⟨by simp [go, Sys.to], ?_, ?_⟩
            · have hl : (s.pcs.flatMap (held l)).length = (held l (.append l e) ++ X).length := h1.length_eq
              simp only [held, if_true, List.singleton_append, List.length_cons] at hl
              simp only [all, List.length_append]
              omega
            · simp only [all, go, Sys.to, upd_same]
              have h3 : s.got l ++ (s.queue l ++ [e]) ++ (s.pcs.set t .idle).flatMap (held l) ~
                  s.got l ++ s.queue l ++ s.pcs.flatMap (held l) ++ [] := by
                apply key; simp [held]
              rw [List.append_nil] at h3
              refine List.Subperm.trans ?_ h3.subperm
              exact (((pushBounded_sublist QUEUE_LIMIT (s.queue l) e).append_left _).append_right _).subperm
        · refine Or.inl ⟨[], by simp [go, Sys.to], ?_⟩
          simp only [all, go, Sys.to, upd_ne _ _ hml]
          apply key
          simp [held, Ne.symm hml]
      | deliver m e =>
        refine Or.inl ⟨[], by simp [go, Sys.to], ?_⟩
        simp only [all, go, Sys.to]
        apply key
        by_cases hml : l = m
        · subst hml
          simp only [upd_same, held, if_true, List.append_nil, List.append_assoc]
          exact List.perm_append_comm.append_left _
        · simp [held, Ne.symm hml, upd_ne _ _ hml]
      | made m g =>
        refine Or.inl ⟨[], by simp [go, Sys.to], ?_⟩
        simp only [all, go, Sys.to]
        apply key; simp [held]
      | set m b =>
        refine Or.inl ⟨[], by simp [go, Sys.to], ?_⟩
        simp only [all, go, Sys.to]
        apply key; simp [held]
      | snap d =>
        refine Or.inl ⟨[], by simp [go, Sys.to], ?_⟩
        simp only [all, go, Sys.to]
        apply key; simp [held]
      | setting ls d =>
        cases ls with
        | nil =>
          refine Or.inl ⟨[], by simp [go, Sys.to], ?_⟩
          simp only [all, go, Sys.to]
          apply key; cases d <;> simp [held]
        | cons m ls =>
          refine Or.inl ⟨[], by simp [go, Sys.to], ?_⟩
          simp only [all, go, Sys.to]
          apply key; simp [held]
      | flushSnap off =>
        refine Or.inl ⟨[], by simp [go, Sys.to], ?_⟩
        simp only [all, go, Sys.to]
        apply key; simp [held]
      | flush ls off =>
        cases ls with
        | nil =>
          cases off
          · refine Or.inl ⟨[], by simp [go, Sys.to], ?_⟩
            simp only [all, go, Sys.to]
            apply key; simp [held]
          · refine Or.inl ⟨[], by simp [go, Sys.to], ?_⟩
            simp only [all, go, Sys.to]
            apply key; simp [held]
        | cons m ls =>
          simp only [go]
          split
          · refine Or.inl ⟨[], by simp [Sys.to], ?_⟩
            simp only [all, Sys.to]
            apply key; simp [held]
          · exact Or.inl ⟨[], by simp, by simp⟩
      | loop m ls off =>
        simp only [go]
        split
        · refine Or.inl ⟨[], by simp [Sys.to], ?_⟩
          simp only [all, Sys.to]
          apply key; simp [held]
        · next e q hq =>
          refine Or.inl ⟨[], by simp [Sys.to], ?_⟩
          simp only [all, Sys.to]
          apply key
          by_cases hml : l = m
          · subst hml
            simp only [upd_same, held, if_true, hq, List.append_nil, List.append_assoc]
            exact (List.perm_append_comm (l₁ := q) (l₂ := [e])).append_left _
          · simp [held, Ne.symm hml, upd_ne _ _ hml]
      | deliv m e ls off =>
        refine Or.inl ⟨[], by simp [go, Sys.to], ?_⟩
        simp only [all, go, Sys.to]
        apply key
        by_cases hml : l = m
        · subst hml
          simp only [upd_same, held, if_true, List.append_nil, List.append_assoc]
          exact List.perm_append_comm.append_left _
        · simp [held, Ne.symm hml, upd_ne _ _ hml]
    · split
      · next hidle =>
        subst hidle
        cases a with
        | publish m e =>
          by_cases hml : l = m
          · subst hml
            refine Or.inl ⟨[e], by simp [call, Sys.to], ?_⟩
            simp only [all, call, Sys.to]
            apply key; simp [held]
          · refine Or.inl ⟨[], by simp [call, Sys.to, upd_ne _ _ hml], ?_⟩
            simp only [all, call, Sys.to]
            apply key; simp [held, Ne.symm hml]
        | new m g =>
          refine Or.inl ⟨[], by simp [call, Sys.to], ?_⟩
          simp only [all, call, Sys.to]
          apply key; simp [held]
        | setAsync m b =>
          refine Or.inl ⟨[], by simp [call, Sys.to], ?_⟩
          simp only [all, call, Sys.to]
          apply key; simp [held]
        | remove m => exact Or.inl ⟨[], by simp [call], by simp [call, all]⟩
        | enable u =>
          refine Or.inl ⟨[], by simp [call, Sys.to], ?_⟩
          simp only [all, call, Sys.to]
          apply key; cases u <;> simp [held]
        | disable u =>
          refine Or.inl ⟨[], by simp [call, Sys.to], ?_⟩
          simp only [all, call, Sys.to]
          apply key; cases u <;> simp [held]
        | flush =>
          refine Or.inl ⟨[], by simp [call, Sys.to], ?_⟩
          simp only [all, call, Sys.to]
          apply key; simp [held]
        | flushLogger m =>
          refine Or.inl ⟨[], by simp [call, Sys.to], ?_⟩
          simp only [all, call, Sys.to]
          apply key; simp [held]
        | go => exact Or.inl ⟨[], by simp [call], by simp [call]⟩
      · exact Or.inl ⟨[], by simp, by simp⟩

theorem run_append (s : Sys) (a b : List (Tid × Act)) : run s (a ++ b) = run (run s a) b := by simp [run]
theorem run_cons (s : Sys) (p : Tid × Act) (b : List (Tid × Act)) : run s (p :: b) = run (step s p.1 p.2) b := rfl

/-- Nothing is handed over, queued or in hand more often than published. -/
theorem run_all (s : Sys) (sched : List (Tid × Act)) (l : LogId) (h : all s l <+~ s.pub l) :
    all (run s sched) l <+~ (run s sched).pub l := by
  induction sched generalizing s with
  | nil => exact h
  | cons p sched ih =>
    rw [run_cons]
    apply ih
    rcases step_all s p.1 p.2 l with ⟨new, h1, h2⟩ | ⟨h1, _, h3⟩
    · rw [h1]
      exact h2.subperm.trans (List.subperm_append_right new |>.mpr h)
    · rw [h1]; exact h3.trans h

theorem pub_mono (s : Sys) (t : Tid) (a : Act) (l : LogId) : (s.pub l).length ≤ ((step s t a).pub l).length := by
  rcases step_all s t a l with ⟨new, h1, _⟩ | ⟨h1, _, _⟩ <;> simp [h1]

theorem run_pub_mono (s : Sys) (sched : List (Tid × Act)) (l : LogId) :
    (s.pub l).length ≤ ((run s sched).pub l).length := by
  induction sched generalizing s with
  | nil => exact Nat.le_refl _
  | cons p sched ih => exact Nat.le_trans (pub_mono s p.1 p.2 l) (ih _)

/-- Nothing is lost as long as no more than `QUEUE_LIMIT` events are published. -/
theorem run_all_perm (s : Sys) (sched : List (Tid × Act)) (l : LogId) (h : all s l ~ s.pub l)
    (hl : ((run s sched).pub l).length ≤ QUEUE_LIMIT) : all (run s sched) l ~ (run s sched).pub l := by
  induction sched generalizing s with
  | nil => exact h
  | cons p sched ih =>
    rw [run_cons] at hl ⊢
    apply ih _ _ hl
    rcases step_all s p.1 p.2 l with ⟨new, h1, h2⟩ | ⟨h1, h2, _⟩
    · rw [h1]; exact h2.trans (h.append_right _)
    · exfalso
      have := h.length_eq
      have := run_pub_mono (step s p.1 p.2) sched l
      rw [h1] at this
      omega

theorem init_all (n : Nat) (l : LogId) : all (init n) l = [] := by
  simp only [all, init, List.nil_append, List.flatMap_eq_nil_iff]
  intro p hp
  rw [List.eq_of_mem_replicate hp]; rfl

theorem step_go {s : Sys} {t : Tid} {p : PC} (h : s.pcs[t]? = some p) : step s t .go = go s t p := by simp [step, h]

theorem step_call {s : Sys} {t : Tid} {a : Act} (h : s.pcs[t]? = some .idle) (ha : a ≠ .go) :
    step s t a = call s t a := by simp [step, h, ha]

theorem set_self {s : Sys} {t : Tid} {p : PC} (h : s.pcs[t]? = some p) (q : PC) : (s.pcs.set t q)[t]? = some q := by
  have := (List.getElem?_eq_some_iff.mp h).1
  simp [this]

/-! ### Locks -/

/-- Does the thread hold the lock of `m`? -/
def holds (m : LogId) : PC → Prop
  | .loop l _ _ | .deliv l _ _ _ => l = m
  | _ => False

/-- Threads inside the locked part of `flush` hold the lock. -/
def Locked (s : Sys) : Prop := ∀ t p m, s.pcs[t]? = some p → holds m p → s.owner m = some t

theorem set_get {α : Type} {xs : List α} {t t' : Nat} {p q : α} (h : (xs.set t q)[t']? = some p) :
    (t' = t ∧ p = q) ∨ (t' ≠ t ∧ xs[t']? = some p) := by
  rw [List.getElem?_set] at h
  split at h
  · split at h
    · left; simp_all
    · simp at h
  · right; constructor
    · omega
    · exact h

/-- A move that leaves locks alone, to a place without lock or with the same lock. -/
theorem Locked.move {s s' : Sys} {t : Tid} {p p' : PC} (h : Locked s) (hp : s.pcs[t]? = some p)
    (ho : s'.owner = s.owner) (hs : s'.pcs = s.pcs.set t p') (hh : ∀ m, holds m p' → holds m p) : Locked s' := by
  intro t' q m hq hm
  rw [hs] at hq
  rw [ho]
  rcases set_get hq with ⟨rfl, rfl⟩ | ⟨_, h3⟩
  · exact h _ _ _ hp (hh m hm)
  · exact h _ _ _ h3 hm

theorem step_locked (s : Sys) (t : Tid) (a : Act) (h : Locked s) : Locked (step s t a) := by
  unfold step
  cases hp : s.pcs[t]? with
  | none => exact h
  | some p =>
    dsimp only
    split
    · cases p with
      | idle => exact h
      | read m e => exact h.move hp rfl rfl (by intro k; cases s.mode m <;> simp [holds])
      | append m e => exact h.move hp rfl rfl (by simp [holds])
      | deliver m e => exact h.move hp rfl rfl (by simp [holds])
      | made m g => exact h.move hp rfl rfl (by simp [holds])
      | set m b => exact h.move hp rfl rfl (by simp [holds])
      | snap d => exact h.move hp rfl rfl (by simp [holds])
      | setting ls d =>
        cases ls with
        | nil => exact h.move hp rfl rfl (by cases d <;> simp [holds])
        | cons m ls => exact h.move hp rfl rfl (by simp [holds])
      | flushSnap off => exact h.move hp rfl rfl (by simp [holds])
      | flush ls off =>
        cases ls with
        | nil => cases off <;> exact h.move hp rfl rfl (by simp [holds])
        | cons m ls =>
          simp only [go]
          split
          · next ho =>
            intro t' q k hq hk
            rcases set_get hq with ⟨rfl, rfl⟩ | ⟨_, h3⟩
            · simp only [holds] at hk
              subst hk
              simp [Sys.to]
            · have := h _ _ _ h3 hk
              have hne : k ≠ m := by rintro rfl; rw [ho] at this; simp at this
              simpa [Sys.to, upd, hne] using this
          · exact h
      | loop m ls off =>
        simp only [go]
        split
        · intro t' q k hq hk
          rcases set_get hq with ⟨rfl, rfl⟩ | ⟨hne, h3⟩
          · simp [holds] at hk
          · have h4 := h _ _ _ h3 hk
            have h5 := h t _ m hp rfl
            have hkm : k ≠ m := by
              rintro rfl
              rw [h4] at h5
              exact hne (Option.some.inj h5)
            simpa [Sys.to, upd, hkm] using h4
        · exact h.move hp rfl rfl (by simp [holds])
      | deliv m e ls off => exact h.move hp rfl rfl (by simp [holds])
    · split
      · next hi =>
        subst hi
        cases a with
        | publish m e => exact h.move hp rfl rfl (by simp [holds])
        | new m g => exact h.move hp rfl rfl (by simp [holds])
        | setAsync m b => exact h.move hp rfl rfl (by simp [holds])
        | remove m => exact h
        | enable u => exact h.move hp rfl rfl (by cases u <;> simp [holds])
        | disable u => exact h.move hp rfl rfl (by cases u <;> simp [holds])
        | flush => exact h.move hp rfl rfl (by simp [holds])
        | flushLogger m => exact h.move hp rfl rfl (by simp [holds])
        | go => exact h
      · exact h

theorem run_locked (s : Sys) (sched : List (Tid × Act)) (h : Locked s) : Locked (run s sched) := by
  induction sched generalizing s with
  | nil => exact h
  | cons p sched ih => exact ih _ (step_locked s p.1 p.2 h)

theorem init_locked (n : Nat) : Locked (init n) := by
  intro t p m hp hm
  have := List.mem_of_getElem? hp
  rw [List.eq_of_mem_replicate this] at hm
  exact hm.elim

theorem step_length (s : Sys) (t : Tid) (a : Act) : (step s t a).pcs.length = s.pcs.length := by
  unfold step
  cases s.pcs[t]? with
  | none => rfl
  | some p =>
    dsimp only
    split
    · cases p with
      | setting ls d => cases ls <;> simp [go, Sys.to]
      | flush ls off =>
        cases ls with
        | nil => cases off <;> simp [go, Sys.to]
        | cons m ls => simp only [go]; split <;> simp [Sys.to]
      | loop m ls off => simp only [go]; split <;> simp [Sys.to]
      | _ => simp [go, Sys.to]
    · split
      · cases a <;> simp [call, Sys.to]
      · rfl

theorem run_length (s : Sys) (sched : List (Tid × Act)) : (run s sched).pcs.length = s.pcs.length := by
  induction sched generalizing s with
  | nil => rfl
  | cons p sched ih => rw [run_cons, ih, step_length]

end Verif.Modes
