import Verif.Model.SyncConc
import Mathlib.Data.List.Perm.Basic
import Mathlib.Data.List.Perm.Subperm
import Mathlib.Data.List.Nodup
import Mathlib.Tactic.Common
/-!
# C78, C79, C80: threads using one synchronous logger
-/
namespace Verif.SyncConc
open scoped List

variable {has : SinkId → Kind → Bool}

/-- What sink `i` has been handed by thread `t`, in order. -/
def received (t : Tid) (i : SinkId) (tr : List (Tid × SinkId × Kind × Event)) : List (Kind × Event) :=
  tr.filterMap fun p => if p.1 = t ∧ p.2.1 = i then some p.2.2 else none

/-- What thread `t` has published, in order. -/
def published (t : Tid) (pub : List (Tid × Kind × Event × List SinkId)) : List (Kind × Event) :=
  pub.filterMap fun p => if p.1 = t then some (p.2.1, p.2.2.1) else none

/-- The publications sink `i` has a hook for. -/
def wanted (hooks : Kind → List SinkId) (i : SinkId) (ps : List (Kind × Event)) : List (Kind × Event) :=
  ps.filter fun p => decide (i ∈ hooks p.1)

/-- Thread `t`'s hooks do not raise, and nobody changes the sinks. -/
def Fixed (sched : List (Tid × Act)) : Prop := ∀ t a, (t, a) ∈ sched → ∀ x xs, a ≠ .addSink x ∧ a ≠ .setSinks xs

/-- No hook called by thread `t` raises. -/
def NoRaise (t : Tid) (sched : List (Tid × Act)) : Prop := (t, Act.raise) ∉ sched

/-- Is this step a publication? -/
def Act.publishes : Act → Bool
  | .publish _ _ => true
  | _ => false

/-- Along the schedule, thread `t` publishes only when it is not inside the logger (or one of its sinks). -/
def Straight (has : SinkId → Kind → Bool) (t : Tid) : Sys → List (Tid × Act) → Prop
  | _, [] => True
  | s, (t', a) :: rest =>
    (t' = t → a.publishes = true → s.stack t = []) ∧ Straight has t (step has s t' a) rest

instance (has : SinkId → Kind → Bool) (t : Tid) : ∀ s sched, Decidable (Straight has t s sched)
  | _, [] => .isTrue trivial
  | s, (t', a) :: rest =>
    have := instDecidableStraight has t (step has s t' a) rest
    inferInstanceAs (Decidable ((t' = t → a.publishes = true → s.stack t = []) ∧ Straight has t (step has s t' a) rest))

@[simp] theorem at_stack (s : Sys) (t t' : Tid) (fs : List Frame) : (s.at t fs).stack t' = if t' = t then fs else s.stack t' := rfl
@[simp] theorem at_heap (s : Sys) (t : Tid) (fs : List Frame) : (s.at t fs).heap = s.heap := rfl
@[simp] theorem at_ptr (s : Sys) (t : Tid) (fs : List Frame) : (s.at t fs).ptr = s.ptr := rfl
@[simp] theorem at_next (s : Sys) (t : Tid) (fs : List Frame) : (s.at t fs).next = s.next := rfl
@[simp] theorem at_trace (s : Sys) (t : Tid) (fs : List Frame) : (s.at t fs).trace = s.trace := rfl
@[simp] theorem at_pub (s : Sys) (t : Tid) (fs : List Frame) : (s.at t fs).pub = s.pub := rfl

/-- The rest of a delivery that sink `i` is still part of. -/
def Frame.owed (heap : Nat → List SinkId) (i : SinkId) : Frame → List (Kind × Event)
  | .iter k e l n => if i ∈ (heap l).drop n then [(k, e)] else []
  | .inHook k e l n => if i ∈ (heap l).drop n then [(k, e)] else []
  | _ => []

/-- Handed out or still owed. -/
def account (t : Tid) (i : SinkId) (s : Sys) : List (Kind × Event) :=
  received t i s.trace ++ (s.stack t).flatMap (Frame.owed s.heap i)

theorem received_snoc (t t' : Tid) (i i' : SinkId) (k : Kind) (e : Event) (tr : List (Tid × SinkId × Kind × Event)) :
    received t i (tr ++ [(t', i', k, e)]) = received t i tr ++ if t' = t ∧ i' = i then [(k, e)] else [] := by
  simp only [received, List.filterMap_append, List.filterMap_cons, List.filterMap_nil]
  split <;> simp_all

theorem published_snoc (t t' : Tid) (k : Kind) (e : Event) (sn : List SinkId) (ps : List (Tid × Kind × Event × List SinkId)) :
    published t (ps ++ [(t', k, e, sn)]) = published t ps ++ if t' = t then [(k, e)] else [] := by
  simp only [published, List.filterMap_append, List.filterMap_cons, List.filterMap_nil]
  split <;> simp_all

/-- While nobody changes the sinks: lists and attributes are as at the beginning, and every call in progress is a delivery. -/
structure Still (hooks : Kind → List SinkId) (s : Sys) : Prop where
  hook : ∀ k, s.heap (s.ptr (.hook k)) = hooks k
  frames : ∀ t f, f ∈ s.stack t → ∃ k e n, f = .iter k e (s.ptr (.hook k)) n ∨ f = .inHook k e (s.ptr (.hook k)) n

theorem still_init (sinks : List SinkId) (hooks : Kind → List SinkId) : Still hooks (init sinks hooks) :=
  ⟨fun k => by cases k <;> rfl, fun t f h => by simp [init] at h⟩

theorem still_at {hooks : Kind → List SinkId} {s : Sys} (h : Still hooks s) (t : Tid) (fs : List Frame)
    (hfs : ∀ f ∈ fs, ∃ k e n, f = .iter k e (s.ptr (.hook k)) n ∨ f = .inHook k e (s.ptr (.hook k)) n) :
    Still hooks (s.at t fs) := by
  refine ⟨h.hook, fun t' f hf => ?_⟩
  rw [at_stack] at hf
  split at hf
  · exact hfs f hf
  · exact h.frames t' f hf

/-- What a step does while nobody changes the sinks. -/
theorem still_step {hooks : Kind → List SinkId} {s : Sys} (h : Still hooks s) (t : Tid) (a : Act)
    (ha : ∀ x xs, a ≠ .addSink x ∧ a ≠ .setSinks xs) : Still hooks (step has s t a) := by
  have hf := h.frames t
  cases a with
  | addSink x => exact absurd rfl (ha x []).1
  | setSinks xs => exact absurd rfl (ha 0 xs).2
  | publish k e =>
    simp only [step]
    split
    · refine still_at (s := { s with pub := s.pub ++ [(t, k, e, s.heap (s.ptr (.hook k)))] }) ⟨h.hook, h.frames⟩ t _ ?_
      intro f hm
      rcases List.mem_cons.1 hm with rfl | hm
      · exact ⟨k, e, 0, .inl rfl⟩
      · exact hf f hm
    · exact h
  | raise =>
    simp only [step]
    split
    · rename_i fs hs
      exact still_at h t fs fun f hm => hf f (by rw [hs]; exact List.mem_cons_of_mem _ hm)
    · exact h
  | go =>
    simp only [step]
    split
    · exact h
    · rename_i k e l i fs hs
      have hfs : ∀ f ∈ fs, ∃ k e n, f = Frame.iter k e (s.ptr (.hook k)) n ∨ f = .inHook k e (s.ptr (.hook k)) n :=
        fun f hm => hf f (by rw [hs]; exact List.mem_cons_of_mem _ hm)
      split
      · exact still_at h t fs hfs
      · rename_i x hx
        refine still_at (s := { s with trace := s.trace ++ [(t, x, k, e)] }) ⟨h.hook, h.frames⟩ t _ ?_
        intro f hm
        rcases List.mem_cons.1 hm with rfl | hm
        · obtain ⟨k', e', n, h' | h'⟩ := hf (.iter k e l i) (by rw [hs]; exact List.mem_cons_self)
          · cases h'; exact ⟨k, e, i + 1, .inr rfl⟩
          · cases h'
        · exact hfs f hm
    · rename_i k e l i fs hs
      refine still_at h t _ ?_
      intro f hm
      rcases List.mem_cons.1 hm with rfl | hm
      · obtain ⟨k', e', n, h' | h'⟩ := hf (.inHook k e l i) (by rw [hs]; exact List.mem_cons_self)
        · cases h'
        · cases h'; exact ⟨k, e, i, .inl rfl⟩
      · exact hf f (by rw [hs]; exact List.mem_cons_of_mem _ hm)
    all_goals
      rename_i hs
      obtain ⟨k', e', n, h' | h'⟩ := hf _ (by rw [hs]; exact List.mem_cons_self) <;> cases h'

/-- The publications of thread `t` that sink `i` has a hook for. -/
def want (hooks : Kind → List SinkId) (t : Tid) (i : SinkId) (s : Sys) : List (Kind × Event) :=
  wanted hooks i (published t s.pub)

/-- What a step does to the account of one thread and sink while nobody changes the sinks. -/
theorem account_step {hooks : Kind → List SinkId} (hnd : ∀ k, (hooks k).Nodup) {s : Sys} (h : Still hooks s) (t : Tid) (a : Act)
    (ha : ∀ x xs, a ≠ .addSink x ∧ a ≠ .setSinks xs) (t' : Tid) (i : SinkId) :
    (∃ new, want hooks t' i (step has s t a) = want hooks t' i s ++ new ∧
      account t' i (step has s t a) = received t' i s.trace ++ (new ++ (s.stack t').flatMap (Frame.owed s.heap i)) ∧
      t = t' ∧ ∃ k e, a = .publish k e) ∨
    (want hooks t' i (step has s t a) = want hooks t' i s ∧ account t' i (step has s t a) = account t' i s) ∨
    (a = .raise ∧ t = t' ∧ want hooks t' i (step has s t a) = want hooks t' i s ∧
      account t' i (step has s t a) <+ account t' i s) := by
  have hf := h.frames t
  have idle : ∀ fs, t' ≠ t → account t' i (s.at t fs) = account t' i s := by
    intro fs hne
    simp [account, hne]
  cases a with
  | addSink x => exact absurd rfl (ha x []).1
  | setSinks xs => exact absurd rfl (ha 0 xs).2
  | publish k e =>
    simp only [step]
    split
    · by_cases ht : t' = t
      · subst ht
        left
        refine ⟨if i ∈ hooks k then [(k, e)] else [], ?_, ?_, rfl, k, e, rfl⟩
        · simp only [want, at_pub, published_snoc, if_true, wanted, List.filter_append, List.filter_cons, List.filter_nil,
            decide_eq_true_eq]
        · simp only [account, at_trace, at_stack, if_true, at_heap, List.flatMap_cons, Frame.owed, List.drop_zero, h.hook]
      · right; left
        refine ⟨?_, ?_⟩
        · simp only [want, at_pub, published_snoc]
          rw [if_neg (fun h => ht h.symm), List.append_nil]
        · simp [account, ht]
    · exact .inr (.inl ⟨rfl, rfl⟩)
  | raise =>
    simp only [step]
    split
    · rename_i k e l n fs hs
      by_cases ht : t' = t
      · subst ht
        right; right
        refine ⟨trivial, rfl, rfl, ?_⟩
        simp only [account, at_trace, at_stack, if_true, at_heap, hs, List.flatMap_cons]
        exact (List.sublist_append_right _ _).append_left _
      · exact .inr (.inl ⟨rfl, idle fs ht⟩)
    · exact .inr (.inl ⟨rfl, rfl⟩)
  | go =>
    right; left
    simp only [step]
    split
    · exact ⟨rfl, rfl⟩
    · rename_i k e l n fs hs
      split
      · rename_i hx
        refine ⟨rfl, ?_⟩
        by_cases ht : t' = t
        · subst ht
          simp only [account, at_trace, at_stack, if_true, at_heap, hs, List.flatMap_cons, Frame.owed]
          rw [List.drop_eq_nil_of_le (List.getElem?_eq_none_iff.1 hx)]
          simp
        · exact idle fs ht
      · rename_i x hx
        refine ⟨rfl, ?_⟩
        by_cases ht : t' = t
        · subst ht
          obtain ⟨k', e', n', h' | h'⟩ := hf (.iter k e l n) (by rw [hs]; exact List.mem_cons_self)
          · cases h'
            have hn : ((s.heap (s.ptr (.hook k))).drop n).Nodup := by rw [h.hook]; exact (hnd k).sublist (List.drop_sublist _ _)
            obtain ⟨hlt, hget⟩ := List.getElem?_eq_some_iff.1 hx
            have hd := List.drop_eq_getElem_cons hlt
            rw [hget] at hd
            rw [hd] at hn
            simp only [account, at_trace, at_stack, if_true, at_heap, hs, List.flatMap_cons, Frame.owed, received_snoc, true_and,
              hd, List.mem_cons]
            by_cases hxi : x = i
            · subst hxi
              rw [if_pos rfl, if_neg (List.nodup_cons.1 hn).1, if_pos (.inl rfl)]
              simp
            · have : (i = x ∨ i ∈ (s.heap (s.ptr (.hook k))).drop (n + 1)) ↔ i ∈ (s.heap (s.ptr (.hook k))).drop (n + 1) :=
                ⟨fun h => h.resolve_left fun h => hxi h.symm, .inr⟩
              rw [if_neg hxi, List.append_nil]
              simp only [this]
          · cases h'
        · simp only [account, at_trace, at_stack, ht, if_false, at_heap, received_snoc, Ne.symm ht, false_and, List.append_nil]
    · rename_i k e l n fs hs
      refine ⟨rfl, ?_⟩
      by_cases ht : t' = t
      · subst ht
        simp only [account, at_trace, at_stack, if_true, at_heap, hs, List.flatMap_cons, Frame.owed]
      · exact idle _ ht
    all_goals
      rename_i hs
      obtain ⟨k', e', n, h' | h'⟩ := hf _ (by rw [hs]; exact List.mem_cons_self) <;> cases h'

theorem fixed_cons {p : Tid × Act} {sched : List (Tid × Act)} (h : Fixed (p :: sched)) :
    (∀ x xs, p.2 ≠ .addSink x ∧ p.2 ≠ .setSinks xs) ∧ Fixed sched :=
  ⟨h p.1 p.2 List.mem_cons_self, fun t a hm => h t a (List.mem_cons_of_mem _ hm)⟩

theorem account_run {hooks : Kind → List SinkId} (hnd : ∀ k, (hooks k).Nodup) (t : Tid) (i : SinkId) (sched : List (Tid × Act))
    (hfix : Fixed sched) (s : Sys) (h : Still hooks s) :
    (account t i s <+~ want hooks t i s → account t i (run has s sched) <+~ want hooks t i (run has s sched)) ∧
    (NoRaise t sched → account t i s ~ want hooks t i s → account t i (run has s sched) ~ want hooks t i (run has s sched)) ∧
    (NoRaise t sched → Straight has t s sched → account t i s = want hooks t i s →
      account t i (run has s sched) = want hooks t i (run has s sched)) := by
  induction sched generalizing s with
  | nil => exact ⟨id, fun _ => id, fun _ _ => id⟩
  | cons p sched ih =>
    obtain ⟨t', a⟩ := p
    obtain ⟨ha, hfix'⟩ := fixed_cons hfix
    obtain ⟨i1, i2, i3⟩ := ih hfix' (step has s t' a) (still_step h t' a ha)
    have hst := account_step (has := has) hnd h t' a ha t i
    have nr : NoRaise t ((t', a) :: sched) → NoRaise t sched ∧ ¬ (a = .raise ∧ t' = t) := by
      intro hn
      refine ⟨fun hm => hn (List.mem_cons_of_mem _ hm), ?_⟩
      rintro ⟨rfl, rfl⟩
      exact hn List.mem_cons_self
    refine ⟨fun h1 => i1 ?_, fun hn h2 => i2 (nr hn).1 ?_, fun hn hs h3 => i3 (nr hn).1 hs.2 ?_⟩
    · rcases hst with ⟨new, e1, e2, _⟩ | ⟨e1, e2⟩ | ⟨_, _, e1, e2⟩
      · rw [e1, e2]
        have : received t i s.trace ++ (new ++ (s.stack t).flatMap (Frame.owed s.heap i)) ~ account t i s ++ new := by
          rw [account, List.append_assoc]
          exact List.Perm.append_left _ List.perm_append_comm
        exact this.subperm.trans ((List.subperm_append_right new).2 h1)
      · rw [e1, e2]; exact h1
      · rw [e1]; exact e2.subperm.trans h1
    · rcases hst with ⟨new, e1, e2, _⟩ | ⟨e1, e2⟩ | ⟨hr, ht, _⟩
      · rw [e1, e2]
        have : received t i s.trace ++ (new ++ (s.stack t).flatMap (Frame.owed s.heap i)) ~ account t i s ++ new := by
          rw [account, List.append_assoc]
          exact List.Perm.append_left _ List.perm_append_comm
        exact this.trans (h2.append_right new)
      · rw [e1, e2]; exact h2
      · exact absurd ⟨hr, ht⟩ (nr hn).2
    · rcases hst with ⟨new, e1, e2, ht, hpub⟩ | ⟨e1, e2⟩ | ⟨hr, ht, _⟩
      · have hempty := hs.1 ht (by obtain ⟨_, _, rfl⟩ := hpub; rfl)
        rw [e1, e2, ← h3, account, hempty]
        simp
      · rw [e1, e2]; exact h3
      · exact absurd ⟨hr, ht⟩ (nr hn).2

/-- C78: whatever the threads do, no sink is handed an event more often than it was published. -/
theorem C78_at_most_once (sinks : List SinkId) (hooks : Kind → List SinkId) (hnd : ∀ k, (hooks k).Nodup)
    (sched : List (Tid × Act)) (hfix : Fixed sched) (t : Tid) (i : SinkId) :
    received t i (run has (init sinks hooks) sched).trace <+~
      wanted hooks i (published t (run has (init sinks hooks) sched).pub) := by
  have h := (account_run (has := has) hnd t i sched hfix _ (still_init sinks hooks)).1 (by simp [account, want, init, received, published, wanted])
  exact (List.sublist_append_left _ _).subperm.trans h

/-- C78: when a thread has left the logger, each sink has been handed each of the thread's events for which it has a hook,
exactly once — if the sinks did not raise in this thread. -/
theorem C78_exactly_once (sinks : List SinkId) (hooks : Kind → List SinkId) (hnd : ∀ k, (hooks k).Nodup)
    (sched : List (Tid × Act)) (hfix : Fixed sched) (t : Tid) (hn : NoRaise t sched)
    (hout : (run has (init sinks hooks) sched).stack t = []) (i : SinkId) :
    received t i (run has (init sinks hooks) sched).trace ~
      wanted hooks i (published t (run has (init sinks hooks) sched).pub) := by
  have h := (account_run (has := has) hnd t i sched hfix _ (still_init sinks hooks)).2.1 hn (by simp [account, want, init, received, published, wanted])
  rw [account, hout, List.flatMap_nil, List.append_nil] at h
  exact h

/-- C78: and in the order of publication, at every moment, if the thread's sinks do not publish themselves. -/
theorem C78_order (sinks : List SinkId) (hooks : Kind → List SinkId) (hnd : ∀ k, (hooks k).Nodup)
    (sched : List (Tid × Act)) (hfix : Fixed sched) (t : Tid) (hn : NoRaise t sched)
    (hs : Straight has t (init sinks hooks) sched) (i : SinkId) :
    received t i (run has (init sinks hooks) sched).trace <+:
      wanted hooks i (published t (run has (init sinks hooks) sched).pub) := by
  have h := (account_run (has := has) hnd t i sched hfix _ (still_init sinks hooks)).2.2 hn hs (by simp [account, want, init, received, published, wanted])
  exact ⟨_, h⟩

/-! ## C79: sinks added or replaced meanwhile -/

/-- A delivery in progress of event `e` along list object `l`, with `n` hooks called. -/
def Frame.At (k : Kind) (e : Event) (l n : Nat) (f : Frame) : Prop := f = .iter k e l n ∨ f = .inHook k e l n

/-- What holds while anything goes on. -/
structure Live (s : Sys) : Prop where
  ptr : ∀ sl, s.ptr sl < s.next
  frame : ∀ t f, f ∈ s.stack t → ∀ k e l n, f.At k e l n → l < s.next ∧ n ≤ (s.heap l).length ∧
    ∀ x ∈ (s.heap l).take n, (t, x, k, e) ∈ s.trace

/-- Every publication of thread `t` has reached the sinks registered when it was made, or is still going on. -/
def Reached (t : Tid) (s : Sys) : Prop :=
  ∀ k e snap, (t, k, e, snap) ∈ s.pub → (∀ x ∈ snap, (t, x, k, e) ∈ s.trace) ∨
    ∃ f ∈ s.stack t, ∃ l n, f.At k e l n ∧ snap <+: s.heap l

theorem live_init (sinks : List SinkId) (hooks : Kind → List SinkId) : Live (init sinks hooks) := by
  refine ⟨?_, ?_⟩
  · intro sl
    cases sl with
    | all => show 0 < 6; decide
    | hook k => cases k <;> simp [init]
  · intro t f hf; simp [init] at hf

theorem reached_init (t : Tid) (sinks : List SinkId) (hooks : Kind → List SinkId) : Reached t (init sinks hooks) := by
  intro k e snap h; simp [init] at h

/-- Lists that exist only grow, the trace only grows, nothing is published, and thread `t`'s stack changes to `fs`. -/
structure Moves (s s' : Sys) (t : Tid) (fs : List Frame) : Prop where
  ptr : ∀ sl, s'.ptr sl < s'.next
  next : s.next ≤ s'.next
  heap : ∀ l, l < s.next → s.heap l <+: s'.heap l
  trace : s.trace ⊆ s'.trace
  pub : s'.pub = s.pub
  stack : ∀ t', s'.stack t' = if t' = t then fs else s.stack t'

theorem take_prefix {α : Type} {a b : List α} (h : a <+: b) {n : Nat} (hn : n ≤ a.length) : b.take n = a.take n := by
  obtain ⟨c, rfl⟩ := h
  exact List.take_append_of_le_length hn

theorem Live.move {s s' : Sys} {t : Tid} {fs : List Frame} (h : Live s) (m : Moves s s' t fs)
    (hfs : ∀ f ∈ fs, f ∈ s.stack t ∨ ∀ k e l n, f.At k e l n → l < s'.next ∧ n ≤ (s'.heap l).length ∧
      ∀ x ∈ (s'.heap l).take n, (t, x, k, e) ∈ s'.trace) : Live s' := by
  have old : ∀ t f, f ∈ s.stack t → ∀ k e l n, f.At k e l n → l < s'.next ∧ n ≤ (s'.heap l).length ∧
      ∀ x ∈ (s'.heap l).take n, (t, x, k, e) ∈ s'.trace := by
    intro t f hf k e l n hat
    obtain ⟨h1, h2, h3⟩ := h.frame t f hf k e l n hat
    refine ⟨Nat.lt_of_lt_of_le h1 m.next, Nat.le_trans h2 (m.heap l h1).length_le, fun x hx => m.trace (h3 x ?_)⟩
    rw [← take_prefix (m.heap l h1) h2]; exact hx
  refine ⟨m.ptr, ?_⟩
  intro t' f hf
  rw [m.stack] at hf
  split at hf
  · rename_i ht; subst ht
    rcases hfs f hf with h' | h'
    · exact old t' f h'
    · exact h'
  · exact old t' f hf

theorem Reached.move {s s' : Sys} {t t' : Tid} {fs : List Frame} (hl : Live s) (h : Reached t s) (m : Moves s s' t' fs)
    (hfs : t' = t → ∀ f ∈ s.stack t, ∀ k e l n, f.At k e l n → (∃ f' ∈ fs, ∃ n', f'.At k e l n') ∨
      (∀ x ∈ s'.heap l, (t, x, k, e) ∈ s'.trace)) : Reached t s' := by
  intro k e snap hp
  rw [m.pub] at hp
  rcases h k e snap hp with h | ⟨f, hf, l, n, hat, hsn⟩
  · exact .inl fun x hx => m.trace (h x hx)
  · have hlt := (hl.frame t f hf k e l n hat).1
    have hsn' : snap <+: s'.heap l := hsn.trans (m.heap l hlt)
    by_cases ht : t' = t
    · rcases hfs ht f hf k e l n hat with ⟨f', hf', n', hat'⟩ | hall
      · exact .inr ⟨f', by rw [m.stack, if_pos ht.symm]; exact hf', l, n', hat', hsn'⟩
      · exact .inl fun x hx => hall x (hsn'.subset hx)
    · exact .inr ⟨f, by rw [m.stack, if_neg (fun h => ht h.symm)]; exact hf, l, n, hat, hsn'⟩

theorem moves_at {s : Sys} (h : Live s) (t : Tid) (fs : List Frame) : Moves s (s.at t fs) t fs :=
  ⟨h.ptr, Nat.le_refl _, fun _ _ => List.prefix_refl _, fun _ h => h, rfl, fun _ => rfl⟩

theorem live_step {s : Sys} (h : Live s) (t : Tid) (a : Act) : Live (step has s t a) ∧
    ∀ t', ¬ (a = .raise ∧ t = t') → Reached t' s → Reached t' (step has s t a) := by
  have push : ∀ f, (∀ k e l n, ¬ f.At k e l n) → Live (s.at t (f :: s.stack t)) ∧
      ∀ t', Reached t' s → Reached t' (s.at t (f :: s.stack t)) := by
    intro f hf
    refine ⟨h.move (moves_at h t _) ?_, fun t' hr => hr.move h (moves_at h t _) ?_⟩
    · intro g hg
      rcases List.mem_cons.1 hg with rfl | hg
      · exact .inr fun k e l n hat => absurd hat (hf k e l n)
      · exact .inl hg
    · rintro rfl g hg k e l n hat
      exact .inl ⟨g, List.mem_cons_of_mem _ hg, n, hat⟩
  -- the top frame is replaced by other frames that are not deliveries
  have top : ∀ (s' : Sys) (f : Frame) (gs fs : List Frame), s.stack t = f :: fs → (∀ k e l n, ¬ f.At k e l n) →
      (∀ g ∈ gs, ∀ k e l n, ¬ g.At k e l n) → Moves s s' t (gs ++ fs) →
      Live s' ∧ ∀ t', Reached t' s → Reached t' s' := by
    intro s' f gs fs hs hf hg m
    refine ⟨h.move m ?_, fun t' hr => hr.move h m ?_⟩
    · intro g hm
      rcases List.mem_append.1 hm with hm | hm
      · exact .inr fun k e l n hat => absurd hat (hg g hm k e l n)
      · exact .inl (by rw [hs]; exact List.mem_cons_of_mem _ hm)
    · rintro rfl g hm k e l n hat
      rw [hs] at hm
      rcases List.mem_cons.1 hm with rfl | hm
      · exact absurd hat (hf k e l n)
      · exact .inl ⟨g, List.mem_append_right _ hm, n, hat⟩
  have no1 : ∀ x k e l n, ¬ (Frame.addStart x).At k e l n := by simp [Frame.At]
  have no2 : ∀ x r k e l n, ¬ (Frame.adding x r).At k e l n := by simp [Frame.At]
  have no3 : ∀ r xs k e l n, ¬ (Frame.setting r xs).At k e l n := by simp [Frame.At]
  cases a with
  | addSink x =>
    simp only [step]
    split
    · exact ⟨(push _ (no1 x)).1, fun t' _ => (push _ (no1 x)).2 t'⟩
    · exact ⟨h, fun _ _ => id⟩
  | setSinks xs =>
    simp only [step]
    split
    · exact ⟨(push _ (no3 _ xs)).1, fun t' _ => (push _ (no3 _ xs)).2 t'⟩
    · exact ⟨h, fun _ _ => id⟩
  | publish k e =>
    simp only [step]
    split
    · constructor
      · refine ⟨h.ptr, ?_⟩
        intro t' f hf k' e' l n hat
        rw [at_stack] at hf
        have old : f ∈ s.stack t' → _ := fun hf => h.frame t' f hf k' e' l n hat
        split at hf
        · rename_i ht; subst ht
          rcases List.mem_cons.1 hf with rfl | hf
          · rcases hat with hat | hat <;> cases hat
            exact ⟨h.ptr _, Nat.zero_le _, by simp⟩
          · exact old hf
        · exact old hf
      · intro t' _ hr k' e' snap hp
        rcases List.mem_append.1 hp with hp | hp
        · rcases hr k' e' snap hp with h1 | ⟨f, hf, l, n, hat, hsn⟩
          · exact .inl h1
          · refine .inr ⟨f, ?_, l, n, hat, hsn⟩
            rw [at_stack]
            split
            · rename_i ht; subst ht; exact List.mem_cons_of_mem _ hf
            · exact hf
        · rw [List.mem_singleton] at hp
          cases hp
          exact .inr ⟨.iter k e (s.ptr (.hook k)) 0, by simp, _, 0, .inl rfl, List.prefix_refl _⟩
    · exact ⟨h, fun _ _ => id⟩
  | raise =>
    simp only [step]
    split
    · rename_i k e l n fs hs
      refine ⟨h.move (moves_at h t fs) fun f hf => .inl (by rw [hs]; exact List.mem_cons_of_mem _ hf), ?_⟩
      intro t' hne hr
      refine hr.move h (moves_at h t fs) ?_
      intro ht
      exact absurd ⟨trivial, ht⟩ hne
    · exact ⟨h, fun _ _ => id⟩
  | go =>
    simp only [step]
    split
    · exact ⟨h, fun _ _ => id⟩
    · rename_i k e l n fs hs
      have hmem : Frame.iter k e l n ∈ s.stack t := by rw [hs]; exact List.mem_cons_self
      obtain ⟨f1, f2, f3⟩ := h.frame t _ hmem k e l n (.inl rfl)
      split
      · rename_i hx
        refine ⟨h.move (moves_at h t fs) fun f hf => .inl (by rw [hs]; exact List.mem_cons_of_mem _ hf), ?_⟩
        intro t' _ hr
        refine hr.move h (moves_at h t fs) ?_
        rintro rfl f hf k' e' l' n' hat
        rw [hs] at hf
        rcases List.mem_cons.1 hf with rfl | hf
        · rcases hat with hat | hat <;> cases hat
          right
          intro x hx'
          rw [List.getElem?_eq_none_iff] at hx
          rw [List.take_of_length_le hx] at f3
          exact f3 x hx'
        · exact .inl ⟨f, hf, n', hat⟩
      · rename_i x hx
        obtain ⟨hlt, hget⟩ := List.getElem?_eq_some_iff.1 hx
        have m : Moves s ({ s with trace := s.trace ++ [(t, x, k, e)] }.at t (.inHook k e l (n + 1) :: fs)) t
            (.inHook k e l (n + 1) :: fs) :=
          ⟨h.ptr, Nat.le_refl _, fun _ _ => List.prefix_refl _, List.subset_append_left _ _, rfl, fun _ => rfl⟩
        refine ⟨h.move m ?_, fun t' _ hr => hr.move h m ?_⟩
        · intro f hf
          rcases List.mem_cons.1 hf with rfl | hf
          · right
            intro k' e' l' n' hat
            rcases hat with hat | hat <;> cases hat
            refine ⟨f1, hlt, ?_⟩
            intro y hy
            simp only [at_heap] at hy
            rw [List.take_succ_eq_append_getElem hlt] at hy
            rcases List.mem_append.1 hy with hy | hy
            · exact List.mem_append_left _ (f3 y hy)
            · rw [List.mem_singleton, hget] at hy
              subst hy
              simp
          · exact .inl (by rw [hs]; exact List.mem_cons_of_mem _ hf)
        · rintro rfl f hf k' e' l' n' hat
          rw [hs] at hf
          rcases List.mem_cons.1 hf with rfl | hf
          · rcases hat with hat | hat <;> cases hat
            exact .inl ⟨_, List.mem_cons_self, n + 1, .inr rfl⟩
          · exact .inl ⟨f, List.mem_cons_of_mem _ hf, n', hat⟩
    · rename_i k e l n fs hs
      have hmem : Frame.inHook k e l n ∈ s.stack t := by rw [hs]; exact List.mem_cons_self
      refine ⟨h.move (moves_at h t _) ?_, fun t' _ hr => hr.move h (moves_at h t _) ?_⟩
      · intro f hf
        rcases List.mem_cons.1 hf with rfl | hf
        · right
          intro k' e' l' n' hat
          rcases hat with hat | hat <;> cases hat
          exact h.frame t _ hmem k e l n (.inr rfl)
        · exact .inl (by rw [hs]; exact List.mem_cons_of_mem _ hf)
      · rintro rfl f hf k' e' l' n' hat
        rw [hs] at hf
        rcases List.mem_cons.1 hf with rfl | hf
        · rcases hat with hat | hat <;> cases hat
          exact .inl ⟨_, List.mem_cons_self, n, .inl rfl⟩
        · exact .inl ⟨f, List.mem_cons_of_mem _ hf, n', hat⟩
    · rename_i x fs hs
      split
      · have := top _ _ [] fs hs (no1 x) (by simp) (moves_at h t fs)
        exact ⟨this.1, fun t' _ => this.2 t'⟩
      · have := top _ _ [.adding x ((kinds.filter (has x)).map .hook ++ [.all])] fs hs (no1 x) (by simp [Frame.At])
          (moves_at h t _)
        exact ⟨this.1, fun t' _ => this.2 t'⟩
    · rename_i x fs hs
      have := top _ _ [] fs hs (no2 x _) (by simp) (moves_at h t fs)
      exact ⟨this.1, fun t' _ => this.2 t'⟩
    · rename_i x sl rest fs hs
      have m : Moves s ((s.append sl x).at t (.adding x rest :: fs)) t ([.adding x rest] ++ fs) := by
        refine ⟨h.ptr, Nat.le_refl _, fun l _ => ?_, fun _ h => h, rfl, fun _ => rfl⟩
        simp only [at_heap, Sys.append]
        split
        · exact List.prefix_append _ _
        · exact List.prefix_refl _
      have := top _ _ [_] fs hs (no2 x _) (by simp [Frame.At]) m
      exact ⟨this.1, fun t' _ => this.2 t'⟩
    · rename_i sl rest xs fs hs
      have m : Moves s ((s.replace sl).at t (.setting rest xs :: fs)) t ([.setting rest xs] ++ fs) := by
        refine ⟨fun sl' => ?_, Nat.le_succ _, fun l hl => ?_, fun _ h => h, rfl, fun _ => rfl⟩
        · simp only [at_ptr, at_next, Sys.replace]
          have := h.ptr sl'
          split <;> omega
        · simp only [at_heap, Sys.replace]
          rw [if_neg (Nat.ne_of_lt hl)]
          exact List.prefix_refl _
      have := top _ _ [_] fs hs (no3 _ xs) (by simp [Frame.At]) m
      exact ⟨this.1, fun t' _ => this.2 t'⟩
    · rename_i x xs fs hs
      have := top _ _ [.addStart x, .setting [] xs] fs hs (no3 _ _) (by simp [Frame.At]) (moves_at h t _)
      exact ⟨this.1, fun t' _ => this.2 t'⟩
    · rename_i fs hs
      have := top _ _ [] fs hs (no3 _ _) (by simp) (moves_at h t fs)
      exact ⟨this.1, fun t' _ => this.2 t'⟩

theorem reached_run (t : Tid) (sched : List (Tid × Act)) (hn : NoRaise t sched) (s : Sys) (h : Live s) (hr : Reached t s) :
    Reached t (run has s sched) := by
  induction sched generalizing s with
  | nil => exact hr
  | cons p sched ih =>
    obtain ⟨t', a⟩ := p
    obtain ⟨h1, h2⟩ := live_step (has := has) h t' a
    refine ih (fun hm => hn (List.mem_cons_of_mem _ hm)) _ h1 (h2 t ?_ hr)
    rintro ⟨rfl, rfl⟩
    exact hn List.mem_cons_self

/-- C79: whatever other threads (or the sinks) do to the logger's sinks meanwhile, an event reaches every sink that had a hook
registered when it was published, by the time the publishing thread has left the logger — if the sinks did not raise in this
thread. -/
theorem C79_registered (sinks : List SinkId) (hooks : Kind → List SinkId) (sched : List (Tid × Act)) (t : Tid)
    (hn : NoRaise t sched) (hout : (run has (init sinks hooks) sched).stack t = []) (k : Kind) (e : Event) (snap : List SinkId)
    (hp : (t, k, e, snap) ∈ (run has (init sinks hooks) sched).pub) :
    ∀ x ∈ snap, (t, x, k, e) ∈ (run has (init sinks hooks) sched).trace := by
  rcases reached_run (has := has) t sched hn _ (live_init sinks hooks) (reached_init t sinks hooks) k e snap hp with h | ⟨f, hf, _⟩
  · exact h
  · rw [hout] at hf; cases hf

/-! ## Witnesses -/

/-- Every sink has every hook. -/
def allHooks : SinkId → Kind → Bool := fun _ _ => true
/-- Some events. -/
def ev (n : Nat) : Event := ⟨n, 0, 0, .end_, .success, 0, "", [], none⟩
/-- `n` steps of thread `t`. -/
def steps (t : Tid) (n : Nat) : List (Tid × Act) := List.replicate n (t, .go)

/-- Two threads publish two events each to a logger with two sinks, their steps mixed. -/
def mixed : List (Tid × Act) :=
  [(0, .publish .end_ (ev 1)), (1, .publish .end_ (ev 2)), (0, .go), (1, .go), (0, .go), (1, .go), (1, .go), (1, .go), (1, .go),
    (1, .publish .end_ (ev 3)), (0, .go), (0, .go), (0, .go), (0, .publish .end_ (ev 4))] ++ steps 0 5 ++ steps 1 5

theorem mixed_fixed : Fixed mixed := by
  intro t a h x xs
  simp only [mixed, steps, List.mem_append, List.mem_cons, Prod.mk.injEq, List.not_mem_nil, or_false, List.mem_replicate] at h
  constructor <;> rintro rfl <;> simp at h

/-- It meets the hypotheses of C78 and C79. -/
example : received 0 8 (run allHooks (init [7, 8] fun _ => [7, 8]) mixed).trace = [(.end_, ev 1), (.end_, ev 4)] ∧
    (received 0 8 (run allHooks (init [7, 8] fun _ => [7, 8]) mixed).trace ~
      wanted (fun _ => [7, 8]) 8 (published 0 (run allHooks (init [7, 8] fun _ => [7, 8]) mixed).pub)) ∧
    (received 0 8 (run allHooks (init [7, 8] fun _ => [7, 8]) mixed).trace <+:
      wanted (fun _ => [7, 8]) 8 (published 0 (run allHooks (init [7, 8] fun _ => [7, 8]) mixed).pub)) := by
  refine ⟨by decide +kernel, C78_exactly_once _ _ (by simp) _ mixed_fixed 0 (by unfold NoRaise; decide +kernel) (by decide +kernel) 8,
    C78_order _ _ (by simp) _ mixed_fixed 0 (by unfold NoRaise; decide +kernel) (by decide +kernel) 8⟩

/-- C78: the order needs sinks that do not publish: sink 7 publishes event 2 while it handles event 1, and sink 8 gets event 2
first. -/
theorem C78_nested_order :
    received 0 8 (run allHooks (init [7, 8] fun _ => [7, 8])
      ([(0, .publish .end_ (ev 1)), (0, .go), (0, .publish .end_ (ev 2))] ++ steps 0 20)).trace =
      [(.end_, ev 2), (.end_, ev 1)] := by decide +kernel

/-- Thread 1 replaces the sinks, and adds sink 9, while thread 0 delivers. -/
def busy : List (Tid × Act) :=
  [(0, .publish .end_ (ev 1)), (0, .go), (1, .setSinks [9])] ++ steps 1 30 ++ steps 0 5 ++ [(0, .publish .end_ (ev 2))] ++ steps 0 5

/-- It meets the hypotheses of C79. -/
example : (0, 8, .end_, ev 1) ∈ (run allHooks (init [7, 8] fun _ => [7, 8]) busy).trace ∧
    (0, 9, .end_, ev 2) ∈ (run allHooks (init [7, 8] fun _ => [7, 8]) busy).trace :=
  ⟨C79_registered _ _ _ 0 (by unfold NoRaise; decide +kernel) (by decide +kernel) .end_ (ev 1) [7, 8] (by decide +kernel) 8
      (by decide +kernel),
    C79_registered _ _ _ 0 (by unfold NoRaise; decide +kernel) (by decide +kernel) .end_ (ev 2) [9] (by decide +kernel) 9
      (by decide +kernel)⟩

/-! ## C80: what goes wrong when sinks change under way -/

/-- C80 fails: two threads add the same sink at the same time; it is registered twice, and gets every event twice. -/
theorem C80_added_twice_violated :
    received 0 7 (run allHooks (init [] fun _ => [])
      ([(0, .addSink 7), (1, .addSink 7), (0, .go), (1, .go)] ++ steps 0 7 ++ steps 1 7 ++ [(0, .publish .end_ (ev 1))] ++
        steps 0 5)).trace = [(.end_, ev 1), (.end_, ev 1)] := by decide +kernel

/-- C80 fails: sink 7 is among the sinks before and after `set_sinks`, but misses an event published meanwhile. -/
theorem C80_replaced_violated :
    let s := run allHooks (init [7] fun _ => [7])
      ([(0, .setSinks [7, 8])] ++ steps 0 6 ++ [(1, .publish .end_ (ev 1))] ++ steps 1 5 ++ steps 0 30)
    received 1 7 s.trace = [] ∧ published 1 s.pub = [(.end_, ev 1)] ∧ s.stack 0 = [] ∧ s.stack 1 = [] ∧
      s.heap (s.ptr .all) = [7, 8] ∧ s.heap (s.ptr (.hook .end_)) = [7, 8] := by decide +kernel

/-! What does hold when calls to `add_sink` and `set_sinks` do not overlap. -/

/-- A call of `add_sink` or `set_sinks`. -/
def Frame.upd : Frame → Bool
  | .addStart _ => true
  | .adding _ _ => true
  | .setting _ _ => true
  | _ => false

def Act.updates : Act → Bool
  | .addSink _ => true
  | .setSinks _ => true
  | _ => false

/-- No thread is inside `add_sink` or `set_sinks`. -/
def Calm (s : Sys) : Prop := ∀ t, ∀ f ∈ s.stack t, f.upd = false

/-- Along the schedule, `add_sink` and `set_sinks` are called only when no thread is inside one of them. -/
def Apart (has : SinkId → Kind → Bool) : Sys → List (Tid × Act) → Prop
  | _, [] => True
  | s, (t, a) :: rest => (a.updates = true → Calm s) ∧ Apart has (step has s t a) rest

/-- What is in a hook list is in `_all_sinks`. -/
def Sub (s : Sys) : Prop := ∀ k, ∀ x ∈ s.heap (s.ptr (.hook k)), x ∈ s.heap (s.ptr .all)

/-- The update under way, and where it is. -/
inductive Shape (s : Sys) : List Frame → Prop
  | start (x : SinkId) (tl : List Frame) : tl = [] ∨ (∃ xs, tl = [.setting [] xs]) → Sub s → Shape s (.addStart x :: tl)
  | adding (x : SinkId) (rest : List Slot) (tl : List Frame) : tl = [] ∨ (∃ xs, tl = [.setting [] xs]) →
      (rest = [] ∨ ∃ r, rest = r ++ [.all]) → rest.Nodup → (∀ sl ∈ rest, x ∉ s.heap (s.ptr sl)) →
      (∀ k, ∀ y ∈ s.heap (s.ptr (.hook k)), y ∈ s.heap (s.ptr .all) ∨ (y = x ∧ .all ∈ rest)) →
      Shape s (.adding x rest :: tl)
  | setting (rest : List Slot) (xs : List SinkId) : (∀ sl, sl ∉ rest → s.heap (s.ptr sl) = []) → Shape s [.setting rest xs]
  | filling (xs : List SinkId) : Sub s → Shape s [.setting [] xs]

/-- No list object holds a sink twice. -/
structure Solo (s : Sys) : Prop where
  inj : ∀ sl sl', s.ptr sl = s.ptr sl' → sl = sl'
  nodup : ∀ l, (s.heap l).Nodup
  phase : (Calm s ∧ Sub s) ∨ ∃ a us fs, s.stack a = us ++ fs ∧ (∀ f ∈ fs, f.upd = false) ∧
    (∀ t, t ≠ a → ∀ f ∈ s.stack t, f.upd = false) ∧ Shape s us

theorem solo_init (sinks : List SinkId) (hooks : Kind → List SinkId) (hd : sinks.Nodup) (hk : ∀ k, (hooks k).Nodup)
    (hsub : ∀ k, ∀ x ∈ hooks k, x ∈ sinks) : Solo (init sinks hooks) := by
  refine ⟨?_, ?_, .inl ⟨?_, ?_⟩⟩
  · intro a b h
    rcases a with _ | a <;> rcases b with _ | b <;> (try cases a) <;> (try cases b) <;> simp_all [init]
  · intro l
    simp only [init]
    split <;> first | exact hd | exact hk _ | exact List.nodup_nil
  · intro t f hf; simp [init] at hf
  · intro k x hx
    have := hsub k x
    cases k <;> exact this hx

theorem Shape.same {s s' : Sys} (hh : s'.heap = s.heap) (hp : s'.ptr = s.ptr) {us : List Frame} (h : Shape s us) : Shape s' us := by
  cases h with
  | start x tl a b => exact .start x tl a (by unfold Sub; rw [hh, hp]; exact b)
  | adding x rest tl a a' b c d => exact .adding x rest tl a a' b (by rw [hh, hp]; exact c) (by rw [hh, hp]; exact d)
  | setting rest xs a => exact .setting rest xs (by rw [hh, hp]; exact a)
  | filling xs a => exact .filling xs (by unfold Sub; rw [hh, hp]; exact a)

theorem Shape.top {s : Sys} {us : List Frame} (h : Shape s us) : ∃ f tl, us = f :: tl ∧ f.upd = true := by
  cases h with
  | start x tl a b => exact ⟨_, _, rfl, rfl⟩
  | adding x rest tl a a' b c d => exact ⟨_, _, rfl, rfl⟩
  | setting rest xs a => exact ⟨_, _, rfl, rfl⟩
  | filling xs a => exact ⟨_, _, rfl, rfl⟩

/-- A thread that is not updating the sinks changes its stack. -/
theorem Solo.idle {s s' : Sys} (h : Solo s) (hh : s'.heap = s.heap) (hp : s'.ptr = s.ptr) (t : Tid) (fs : List Frame)
    (hst : ∀ t', s'.stack t' = if t' = t then fs else s.stack t') (hfs : ∀ f ∈ fs, f.upd = true → f ∈ s.stack t)
    (htop : ∀ f gs, s.stack t = f :: gs → f.upd = false) : Solo s' := by
  refine ⟨by rw [hp]; exact h.inj, by rw [hh]; exact h.nodup, ?_⟩
  rcases h.phase with ⟨hc, hs⟩ | ⟨a, us, gs, h1, h2, h3, h4⟩
  · refine .inl ⟨?_, by unfold Sub; rw [hh, hp]; exact hs⟩
    intro t' f hf
    rw [hst] at hf
    split at hf
    · by_contra hne
      have hu : f.upd = true := by simpa using hne
      have := hc t f (hfs f hf hu)
      rw [hu] at this; cases this
    · exact hc t' f hf
  · have hta : t ≠ a := by
      rintro rfl
      obtain ⟨f, tl, rfl, hf⟩ := h4.top
      have := htop f _ h1
      rw [hf] at this; cases this
    refine .inr ⟨a, us, gs, by rw [hst, if_neg (fun h => hta h.symm)]; exact h1, h2, ?_, h4.same hh hp⟩
    intro t' ht' f hf
    rw [hst] at hf
    split at hf
    · by_contra hne
      have hu : f.upd = true := by simpa using hne
      have := h3 t hta f (hfs f hf hu)
      rw [hu] at this; cases this
    · exact h3 t' ht' f hf

/-- The thread that is updating the sinks makes a step. -/
theorem Solo.upd {s : Sys} (h : Solo s) {t : Tid} {f : Frame} {gs : List Frame} (hs : s.stack t = f :: gs) (hf : f.upd = true) :
    ∃ us fs, f :: gs = us ++ fs ∧ (∀ f ∈ fs, f.upd = false) ∧ (∀ t', t' ≠ t → ∀ f ∈ s.stack t', f.upd = false) ∧ Shape s us := by
  rcases h.phase with ⟨hc, _⟩ | ⟨a, us, fs, h1, h2, h3, h4⟩
  · have := hc t f (by rw [hs]; exact List.mem_cons_self)
    rw [hf] at this; cases this
  · have : t = a := by
      by_contra hne
      have := h3 t hne f (by rw [hs]; exact List.mem_cons_self)
      rw [hf] at this; cases this
    subst this
    exact ⟨us, fs, by rw [← hs, h1], h2, h3, h4⟩

/-- What the phase is after that. -/
theorem phase_after {s s' : Sys} {t : Tid} {us fs : List Frame} (hst : ∀ t', s'.stack t' = if t' = t then us ++ fs else s.stack t')
    (hfs : ∀ f ∈ fs, f.upd = false) (ho : ∀ t', t' ≠ t → ∀ f ∈ s.stack t', f.upd = false)
    (hsh : (us = [] ∧ Sub s') ∨ Shape s' us) : (Calm s' ∧ Sub s') ∨ ∃ a us fs, s'.stack a = us ++ fs ∧ (∀ f ∈ fs, f.upd = false) ∧
    (∀ t, t ≠ a → ∀ f ∈ s'.stack t, f.upd = false) ∧ Shape s' us := by
  rcases hsh with ⟨rfl, hs⟩ | hsh
  · refine .inl ⟨?_, hs⟩
    intro t' f hf
    rw [hst] at hf
    split at hf
    · exact hfs f hf
    · rename_i hne; exact ho t' hne f hf
  · refine .inr ⟨t, us, fs, by rw [hst, if_pos rfl], hfs, ?_, hsh⟩
    intro t' hne f hf
    rw [hst, if_neg hne] at hf
    exact ho t' hne f hf

theorem solo_step {s : Sys} (h : Solo s) (hl : Live s) (t : Tid) (a : Act) (ha : a.updates = true → Calm s) :
    Solo (step has s t a) := by
  have fr : ∀ gs, free (s.stack t) = true → ∀ f, s.stack t = f :: gs → f.upd = false := by
    intro gs hf f hs
    rw [hs] at hf
    cases f <;> first | rfl | cases hf
  cases a with
  | publish k e =>
    unfold step
    dsimp only
    split
    · rename_i hf
      refine h.idle rfl rfl t _ (fun _ => rfl) ?_ (fun f gs => fr gs hf f)
      intro f hf hu
      rcases List.mem_cons.1 hf with rfl | hf
      · cases hu
      · exact hf
    · exact h
  | raise =>
    unfold step
    dsimp only
    split
    · rename_i k e l n fs hs
      refine h.idle rfl rfl t _ (fun _ => rfl) (fun f hf _ => by rw [hs]; exact List.mem_cons_of_mem _ hf) ?_
      intro f gs h'
      rw [hs] at h'; cases h'; rfl
    · exact h
  | addSink x =>
    unfold step
    dsimp only
    split
    · rename_i hf
      have hc := ha rfl
      have hs : Sub s := by
        rcases h.phase with ⟨_, hs⟩ | ⟨a, us, fs, h1, _, _, h4⟩
        · exact hs
        · obtain ⟨f, tl, rfl, hu⟩ := h4.top
          have := hc a f (by rw [h1]; simp)
          rw [hu] at this; cases this
      exact ⟨h.inj, h.nodup, phase_after (us := [.addStart x]) (fs := s.stack t) (fun _ => rfl) (hc t) (fun t' _ => hc t')
        (.inr (.start x [] (.inl rfl) hs))⟩
    · exact h
  | setSinks xs =>
    unfold step
    dsimp only
    split
    · rename_i hf
      have hc := ha rfl
      refine ⟨h.inj, h.nodup, phase_after (us := [.setting slots xs]) (fs := s.stack t) (fun _ => rfl) (hc t) (fun t' _ => hc t')
        (.inr (.setting slots xs ?_))⟩
      intro sl hsl
      exact absurd (by rcases sl with _ | k <;> (try cases k) <;> simp [slots]) hsl
    · exact h
  | go =>
    unfold step
    dsimp only
    split
    · exact h
    · rename_i k e l n fs hs
      have htop : ∀ f gs, s.stack t = f :: gs → f.upd = false := by
        intro f gs h'; rw [hs] at h'; cases h'; rfl
      split
      · exact h.idle rfl rfl t _ (fun _ => rfl) (fun f hf _ => by rw [hs]; exact List.mem_cons_of_mem _ hf) htop
      · refine h.idle rfl rfl t _ (fun _ => rfl) ?_ htop
        intro f hf hu
        rcases List.mem_cons.1 hf with rfl | hf
        · cases hu
        · rw [hs]; exact List.mem_cons_of_mem _ hf
    · rename_i k e l n fs hs
      have htop : ∀ f gs, s.stack t = f :: gs → f.upd = false := by
        intro f gs h'; rw [hs] at h'; cases h'; rfl
      refine h.idle rfl rfl t _ (fun _ => rfl) ?_ htop
      intro f hf hu
      rcases List.mem_cons.1 hf with rfl | hf
      · cases hu
      · rw [hs]; exact List.mem_cons_of_mem _ hf
    · rename_i x gs hs
      obtain ⟨us, fs, h1, h2, h3, h4⟩ := h.upd hs rfl
      cases h4 with
      | start y tl htl hsub =>
        rw [List.cons_append] at h1
        cases h1
        split
        · refine ⟨h.inj, h.nodup, phase_after (us := tl) (fs := fs) (fun _ => rfl) h2 h3 ?_⟩
          rcases htl with rfl | ⟨xs, rfl⟩
          · exact .inl ⟨rfl, hsub⟩
          · exact .inr (.filling xs hsub)
        · rename_i hx
          refine ⟨h.inj, h.nodup, phase_after (us := .adding x ((kinds.filter (has x)).map .hook ++ [.all]) :: tl) (fs := fs)
            (fun _ => rfl) h2 h3 (.inr (.adding x _ tl htl (.inr ⟨_, rfl⟩) ?_ ?_ ?_))⟩
          · rw [List.nodup_append]
            refine ⟨List.Nodup.map (fun a b h => by cases h; rfl) (List.Nodup.filter _ (by decide)), by simp, ?_⟩
            intro a ha b hb
            simp only [List.mem_singleton] at hb
            subst hb
            rintro rfl
            simp at ha
          · intro sl hsl hm
            rcases sl with _ | k
            · exact hx hm
            · exact hx (hsub k x hm)
          · intro k y hy
            exact .inl (hsub k y hy)
      | adding y rest tl => cases h1
      | setting rest xs => cases h1
      | filling xs => cases h1
    · rename_i x gs hs
      obtain ⟨us, fs, h1, h2, h3, h4⟩ := h.upd hs rfl
      cases h4 with
      | start y tl => cases h1
      | adding y rest tl htl hend hnd hno hsub =>
        rw [List.cons_append] at h1
        cases h1
        have hsub' : Sub s := by
          intro k y hy
          rcases hsub k y hy with h | ⟨_, h⟩
          · exact h
          · cases h
        refine ⟨h.inj, h.nodup, phase_after (us := tl) (fs := fs) (fun _ => rfl) h2 h3 ?_⟩
        rcases htl with rfl | ⟨xs, rfl⟩
        · exact .inl ⟨rfl, hsub'⟩
        · exact .inr (.filling xs hsub')
      | setting rest xs => cases h1
      | filling xs => cases h1
    · rename_i x sl rest gs hs
      obtain ⟨us, fs, h1, h2, h3, h4⟩ := h.upd hs rfl
      cases h4 with
      | start y tl => cases h1
      | adding y rest' tl htl hend hnd hno hsub =>
        rw [List.cons_append] at h1
        cases h1
        have hh : ∀ sl', (s.append sl x).heap (s.ptr sl') = if sl' = sl then s.heap (s.ptr sl') ++ [x] else s.heap (s.ptr sl') := by
          intro sl'
          simp only [Sys.append]
          by_cases he : sl' = sl
          · rw [if_pos he, if_pos (by rw [he])]
          · rw [if_neg he, if_neg (fun h' => he (h.inj _ _ h'))]
        rw [List.nodup_cons] at hnd
        have hend' : (rest = [] ∧ sl = .all) ∨ ∃ r, rest = r ++ [.all] := by
          rcases hend with h | ⟨r, hr⟩
          · cases h
          · cases r with
            | nil => cases hr; exact .inl ⟨rfl, rfl⟩
            | cons a r => cases hr; exact .inr ⟨r, rfl⟩
        refine ⟨h.inj, ?_, phase_after (us := .adding x rest :: tl) (fs := fs) (fun _ => rfl) h2 h3 (.inr
          (.adding x rest tl htl (hend'.imp_left And.left) hnd.2 ?_ ?_))⟩
        · intro l
          simp only [at_heap, Sys.append]
          split
          · rename_i he
            subst he
            rw [List.nodup_append]
            refine ⟨h.nodup _, by simp, ?_⟩
            intro a ha b hb
            simp only [List.mem_singleton] at hb
            subst hb
            rintro rfl
            exact hno sl List.mem_cons_self ha
          · exact h.nodup l
        · intro sl' hsl'
          show x ∉ (s.append sl x).heap (s.ptr sl')
          rw [hh, if_neg (fun he => hnd.1 (by rw [← he]; exact hsl'))]
          exact hno sl' (List.mem_cons_of_mem _ hsl')
        · intro k y hy
          show y ∈ (s.append sl x).heap (s.ptr .all) ∨ _
          have hy' : y ∈ (s.append sl x).heap (s.ptr (.hook k)) := hy
          rw [hh] at hy' ⊢
          by_cases hall : Slot.all = sl
          · rw [if_pos hall]
            left
            rw [if_neg (by rw [← hall]; simp)] at hy'
            rcases hsub k y hy' with h | ⟨rfl, _⟩
            · exact List.mem_append_left _ h
            · simp
          · rw [if_neg hall]
            split at hy'
            · rcases List.mem_append.1 hy' with hy' | hy'
              · rcases hsub k y hy' with h | ⟨rfl, hm⟩
                · exact .inl h
                · exact .inr ⟨rfl, (List.mem_cons.1 hm).resolve_left hall⟩
              · rcases hend' with ⟨_, h⟩ | ⟨r, rfl⟩
                · exact absurd h.symm hall
                · exact .inr ⟨by simpa using hy', by simp⟩
            · rcases hsub k y hy' with h | ⟨rfl, hm⟩
              · exact .inl h
              · exact .inr ⟨rfl, (List.mem_cons.1 hm).resolve_left hall⟩
      | setting rest xs => cases h1
      | filling xs => cases h1
    · rename_i sl rest xs gs hs
      obtain ⟨us, fs, h1, h2, h3, h4⟩ := h.upd hs rfl
      cases h4 with
      | start y tl => cases h1
      | adding y rest' tl => cases h1
      | filling xs => cases h1
      | setting rest' xs' hem =>
        cases h1
        have hp : ∀ sl', (s.replace sl).ptr sl' = if sl' = sl then s.next else s.ptr sl' := fun _ => rfl
        refine ⟨?_, ?_, phase_after (us := [.setting rest xs]) (fs := fs) (fun _ => rfl) h2 h3 (.inr (.setting rest xs ?_))⟩
        · intro a b
          rw [at_ptr, hp, hp]
          have h1 := hl.ptr a
          have h2 := hl.ptr b
          split <;> split
          · intro _; simp_all
          · omega
          · omega
          · exact h.inj a b
        · intro l
          simp only [at_heap, Sys.replace]
          split
          · exact List.nodup_nil
          · exact h.nodup l
        · intro sl' hsl'
          simp only [at_heap, at_ptr, Sys.replace]
          by_cases he : sl' = sl
          · simp [he]
          · rw [if_neg he, if_neg (Nat.ne_of_lt (hl.ptr sl'))]
            exact hem sl' (by simp [he, hsl'])
    · rename_i x xs gs hs
      obtain ⟨us, fs, h1, h2, h3, h4⟩ := h.upd hs rfl
      have hsub : us = [.setting [] (x :: xs)] ∧ gs = fs ∧ Sub s := by
        cases h4 with
        | start y tl => cases h1
        | adding y rest' tl => cases h1
        | filling xs hsub => cases h1; exact ⟨rfl, rfl, hsub⟩
        | setting rest' xs' hem =>
          cases h1
          refine ⟨rfl, rfl, fun k y hy => ?_⟩
          rw [hem _ (by simp)] at hy; cases hy
      obtain ⟨rfl, rfl, hsub⟩ := hsub
      exact ⟨h.inj, h.nodup, phase_after (us := [.addStart x, .setting [] xs]) (fs := gs) (fun _ => rfl) h2 h3
        (.inr (.start x _ (.inr ⟨xs, rfl⟩) hsub))⟩
    · rename_i gs hs
      obtain ⟨us, fs, h1, h2, h3, h4⟩ := h.upd hs rfl
      have hsub : us = [.setting [] []] ∧ gs = fs ∧ Sub s := by
        cases h4 with
        | start y tl => cases h1
        | adding y rest' tl => cases h1
        | filling xs hsub => cases h1; exact ⟨rfl, rfl, hsub⟩
        | setting rest' xs' hem =>
          cases h1
          refine ⟨rfl, rfl, fun k y hy => ?_⟩
          rw [hem _ (by simp)] at hy; cases hy
      obtain ⟨rfl, rfl, hsub⟩ := hsub
      exact ⟨h.inj, h.nodup, phase_after (us := []) (fs := gs) (fun _ => rfl) h2 h3 (.inl ⟨rfl, hsub⟩)⟩

/-- A delivery that may still reach sink `i`. -/
def Frame.may (heap : Nat → List SinkId) (i : SinkId) : Frame → List (Kind × Event)
  | .iter k e l n => if i ∈ (heap l).take n then [] else [(k, e)]
  | .inHook k e l n => if i ∈ (heap l).take n then [] else [(k, e)]
  | _ => []

/-- Handed out, or may still be. -/
def most (t : Tid) (i : SinkId) (s : Sys) : List (Kind × Event) :=
  received t i s.trace ++ (s.stack t).flatMap (Frame.may s.heap i)

theorem may_grow {heap heap' : Nat → List SinkId} {next : Nat} (hg : ∀ l, l < next → heap l <+: heap' l) (i : SinkId) (fs : List Frame)
    (hfs : ∀ f ∈ fs, ∀ k e l n, f.At k e l n → l < next ∧ n ≤ (heap l).length) :
    fs.flatMap (Frame.may heap' i) = fs.flatMap (Frame.may heap i) := by
  induction fs with
  | nil => rfl
  | cons f fs ih =>
    rw [List.flatMap_cons, List.flatMap_cons, ih fun f hf => hfs f (List.mem_cons_of_mem _ hf)]
    congr 1
    cases f with
    | iter k e l n =>
      obtain ⟨h1, h2⟩ := hfs _ List.mem_cons_self k e l n (.inl rfl)
      simp only [Frame.may, take_prefix (hg l h1) h2]
    | inHook k e l n =>
      obtain ⟨h1, h2⟩ := hfs _ List.mem_cons_self k e l n (.inr rfl)
      simp only [Frame.may, take_prefix (hg l h1) h2]
    | addStart => rfl
    | adding => rfl
    | setting => rfl

theorem most_step {s : Sys} (h : Solo s) (hl : Live s) (t t' : Tid) (i : SinkId) (a : Act)
    (hm : most t i s <+~ published t s.pub) : most t i (step has s t' a) <+~ published t (step has s t' a).pub := by
  have grow : ∀ (s' : Sys) (fs : List Frame), (∀ l, l < s.next → s.heap l <+: s'.heap l) → s'.trace = s.trace → s'.pub = s.pub →
      (∀ u, s'.stack u = if u = t' then fs else s.stack u) →
      (t' = t → (∀ f ∈ fs, f ∈ s.stack t ∨ f.upd = true) ∧
        fs.flatMap (Frame.may s.heap i) <+ (s.stack t).flatMap (Frame.may s.heap i)) →
      most t i s' <+~ published t s'.pub := by
    intro s' fs hh ht hp hst hfs
    rw [hp]
    refine List.Subperm.trans ?_ hm
    unfold most
    rw [ht, hst]
    split
    · rename_i he
      obtain ⟨hin, hsub⟩ := hfs he.symm
      rw [may_grow hh i fs]
      · exact (hsub.append_left _).subperm
      · intro f hf k e l n hat
        rcases hin f hf with h' | h'
        · exact ⟨(hl.frame t f h' k e l n hat).1, (hl.frame t f h' k e l n hat).2.1⟩
        · rcases hat with rfl | rfl <;> cases h'
    · rw [may_grow hh i _]
      exact fun f hf k e l n hat => ⟨(hl.frame t f hf k e l n hat).1, (hl.frame t f hf k e l n hat).2.1⟩
  -- steps that leave the lists alone and put `gs` in the place of the top frame `f`
  have swap : ∀ (f : Frame) (gs fs : List Frame) (s' : Sys), s.stack t' = f :: fs →
      (∀ l, l < s.next → s.heap l <+: s'.heap l) → s'.trace = s.trace → s'.pub = s.pub →
      (∀ u, s'.stack u = if u = t' then gs ++ fs else s.stack u) → (∀ g ∈ gs, g.upd = true) →
      most t i s' <+~ published t s'.pub := by
    intro f gs fs s' hs hh ht hp hst hg
    refine grow s' (gs ++ fs) hh ht hp hst ?_
    rintro rfl
    have hnil : gs.flatMap (Frame.may s.heap i) = [] := by
      rw [List.flatMap_eq_nil_iff]
      intro g hg'
      have := hg g hg'
      cases g <;> first | rfl | cases this
    refine ⟨?_, ?_⟩
    · intro g hg'
      rcases List.mem_append.1 hg' with h' | h'
      · exact .inr (hg g h')
      · exact .inl (by rw [hs]; exact List.mem_cons_of_mem _ h')
    · rw [List.flatMap_append, hnil, List.nil_append, hs, List.flatMap_cons]
      exact List.sublist_append_right _ _
  have push : ∀ g : Frame, g.upd = true → most t i (s.at t' (g :: s.stack t')) <+~ published t s.pub := by
    intro g hg
    refine grow (s.at t' (g :: s.stack t')) _ (fun _ _ => List.prefix_refl _) rfl rfl (fun _ => rfl) ?_
    rintro rfl
    refine ⟨?_, ?_⟩
    · intro f hf
      rcases List.mem_cons.1 hf with rfl | hf
      · exact .inr hg
      · exact .inl hf
    · rw [List.flatMap_cons]
      have : Frame.may s.heap i g = [] := by cases g <;> first | rfl | cases hg
      rw [this]
      exact List.Sublist.refl _
  cases a with
  | publish k e =>
    unfold step
    dsimp only
    split
    · simp only [at_pub]
      rw [published_snoc]
      by_cases ht : t' = t
      · subst ht
        have : most t' i ({ s with pub := s.pub ++ [(t', k, e, s.heap (s.ptr (.hook k)))] }.at t'
            (.iter k e (s.ptr (.hook k)) 0 :: s.stack t')) ~ most t' i s ++ [(k, e)] := by
          simp only [most, at_trace, at_stack, if_true, at_heap, List.flatMap_cons, Frame.may, List.take_zero, List.not_mem_nil,
            if_false, List.append_assoc]
          exact List.Perm.append_left _ List.perm_append_comm
        rw [if_pos rfl]
        exact this.subperm.trans (hm.append (List.Subperm.refl _))
      · rw [if_neg ht, List.append_nil]
        have : most t i ({ s with pub := s.pub ++ [(t', k, e, s.heap (s.ptr (.hook k)))] }.at t'
            (.iter k e (s.ptr (.hook k)) 0 :: s.stack t')) = most t i s := by
          simp only [most, at_trace, at_stack, at_heap, if_neg (fun h => ht (Eq.symm h))]
        rw [this]; exact hm
    · exact hm
  | addSink x =>
    unfold step
    dsimp only
    split
    · exact push _ rfl
    · exact hm
  | setSinks xs =>
    unfold step
    dsimp only
    split
    · exact push _ rfl
    · exact hm
  | raise =>
    unfold step
    dsimp only
    split
    · rename_i k e l n fs hs
      exact swap _ [] fs _ hs (fun _ _ => List.prefix_refl _) rfl rfl (fun _ => rfl) (by simp)
    · exact hm
  | go =>
    unfold step
    dsimp only
    split
    · exact hm
    · rename_i k e l n fs hs
      split
      · exact swap _ [] fs _ hs (fun _ _ => List.prefix_refl _) rfl rfl (fun _ => rfl) (by simp)
      · rename_i x hx
        obtain ⟨hlt, hget⟩ := List.getElem?_eq_some_iff.1 hx
        simp only [at_pub]
        refine List.Subperm.trans ?_ hm
        by_cases ht : t' = t
        · subst ht
          simp only [most, at_trace, at_stack, if_true, at_heap, hs, List.flatMap_cons, Frame.may, received_snoc]
          rw [List.take_succ_eq_append_getElem hlt, hget]
          by_cases hxi : x = i
          · subst hxi
            have : x ∉ (s.heap l).take n := by
              intro hmem
              have hnd := h.nodup l
              rw [← List.take_append_drop n (s.heap l), List.nodup_append] at hnd
              refine hnd.2.2 x hmem x ?_ rfl
              rw [List.drop_eq_getElem_cons hlt, hget]
              exact List.mem_cons_self
            simp only [true_and, if_true, if_neg this, List.mem_append, List.mem_singleton, or_true, List.nil_append,
              List.append_assoc]
            exact List.Subperm.refl _
          · simp only [hxi, and_false, if_false, List.append_nil, List.mem_append, List.mem_singleton, Ne.symm hxi, or_false,
              eq_comm]
            exact List.Subperm.refl _
        · simp only [most, at_trace, at_stack, at_heap, if_neg (fun h => ht (Eq.symm h)), received_snoc, ht, false_and, if_false,
            List.append_nil]
          exact List.Subperm.refl _
    · rename_i k e l n fs hs
      simp only [at_pub]
      refine List.Subperm.trans ?_ hm
      by_cases ht : t' = t
      · subst ht
        simp only [most, at_trace, at_stack, if_true, at_heap, hs, List.flatMap_cons, Frame.may]
        exact List.Subperm.refl _
      · simp only [most, at_trace, at_stack, at_heap, if_neg (fun h => ht (Eq.symm h))]
        exact List.Subperm.refl _
    · rename_i x fs hs
      split
      · exact swap _ [] fs _ hs (fun _ _ => List.prefix_refl _) rfl rfl (fun _ => rfl) (by simp)
      · exact swap _ [.adding x ((kinds.filter (has x)).map .hook ++ [.all])] fs _ hs (fun _ _ => List.prefix_refl _) rfl rfl
          (fun _ => rfl) (by simp [Frame.upd])
    · rename_i x fs hs
      exact swap _ [] fs _ hs (fun _ _ => List.prefix_refl _) rfl rfl (fun _ => rfl) (by simp)
    · rename_i x sl rest fs hs
      refine swap _ [.adding x rest] fs _ hs (fun l _ => ?_) rfl rfl (fun _ => rfl) (by simp [Frame.upd])
      simp only [at_heap, Sys.append]
      split
      · exact List.prefix_append _ _
      · exact List.prefix_refl _
    · rename_i sl rest xs fs hs
      refine swap _ [.setting rest xs] fs _ hs (fun l hl => ?_) rfl rfl (fun _ => rfl) (by simp [Frame.upd])
      simp only [at_heap, Sys.replace]
      rw [if_neg (Nat.ne_of_lt hl)]
      exact List.prefix_refl _
    · rename_i x xs fs hs
      exact swap _ [.addStart x, .setting [] xs] fs _ hs (fun _ _ => List.prefix_refl _) rfl rfl (fun _ => rfl)
        (by simp [Frame.upd])
    · rename_i fs hs
      exact swap _ [] fs _ hs (fun _ _ => List.prefix_refl _) rfl rfl (fun _ => rfl) (by simp)

theorem most_run (t : Tid) (i : SinkId) (sched : List (Tid × Act)) (s : Sys) (ha : Apart has s sched) (h : Solo s) (hl : Live s)
    (hm : most t i s <+~ published t s.pub) : most t i (run has s sched) <+~ published t (run has s sched).pub := by
  induction sched generalizing s with
  | nil => exact hm
  | cons p sched ih =>
    obtain ⟨t', a⟩ := p
    exact ih _ ha.2 (solo_step h hl t' a ha.1) (live_step hl t' a).1 (most_step h hl t t' i a hm)

/-- C80, what holds: if calls of `add_sink` and `set_sinks` do not overlap, no sink is handed a publication twice, whoever
publishes meanwhile and wherever hooks raise. -/
theorem C80_once_partial (sinks : List SinkId) (hooks : Kind → List SinkId) (hd : sinks.Nodup) (hk : ∀ k, (hooks k).Nodup)
    (hsub : ∀ k, ∀ x ∈ hooks k, x ∈ sinks) (sched : List (Tid × Act)) (ha : Apart has (init sinks hooks) sched) (t : Tid)
    (i : SinkId) : received t i (run has (init sinks hooks) sched).trace <+~ published t (run has (init sinks hooks) sched).pub :=
  ((List.sublist_append_left _ _).subperm).trans
    (most_run t i sched _ ha (solo_init sinks hooks hd hk hsub) (live_init sinks hooks) (by simp [most, init, received]))

/-! A schedule with one update meets the hypotheses. -/

theorem calm_step {s : Sys} (h : Calm s) (t : Tid) (a : Act) (ha : a.updates = false) : Calm (step has s t a) := by
  have keep : ∀ (s' : Sys) (fs : List Frame), (∀ u, s'.stack u = if u = t then fs else s.stack u) →
      (∀ f ∈ fs, f ∈ s.stack t ∨ f.upd = false) → Calm s' := by
    intro s' fs hst hfs u f hf
    rw [hst] at hf
    split at hf
    · rcases hfs f hf with h' | h'
      · exact h t f h'
      · exact h'
    · exact h u f hf
  cases a with
  | publish k e =>
    unfold step
    dsimp only
    split
    · refine keep _ _ (fun _ => rfl) fun f hf => ?_
      rcases List.mem_cons.1 hf with rfl | hf
      · exact .inr rfl
      · exact .inl hf
    · exact h
  | addSink x => cases ha
  | setSinks xs => cases ha
  | raise =>
    unfold step
    dsimp only
    split
    · rename_i k e l n fs hs
      exact keep _ _ (fun _ => rfl) fun f hf => .inl (by rw [hs]; exact List.mem_cons_of_mem _ hf)
    · exact h
  | go =>
    have no : ∀ f fs, s.stack t = f :: fs → f.upd = true → False := by
      intro f fs hs hu
      have := h t f (by rw [hs]; exact List.mem_cons_self)
      rw [hu] at this; cases this
    unfold step
    dsimp only
    split
    · exact h
    · rename_i k e l n fs hs
      split
      · exact keep _ _ (fun _ => rfl) fun f hf => .inl (by rw [hs]; exact List.mem_cons_of_mem _ hf)
      · refine keep _ _ (fun _ => rfl) fun f hf => ?_
        rcases List.mem_cons.1 hf with rfl | hf
        · exact .inr rfl
        · exact .inl (by rw [hs]; exact List.mem_cons_of_mem _ hf)
    · rename_i k e l n fs hs
      refine keep _ _ (fun _ => rfl) fun f hf => ?_
      rcases List.mem_cons.1 hf with rfl | hf
      · exact .inr rfl
      · exact .inl (by rw [hs]; exact List.mem_cons_of_mem _ hf)
    all_goals (rename_i hs; exact (no _ _ hs rfl).elim)

theorem apart_none : ∀ (sched : List (Tid × Act)) (s : Sys), (∀ p ∈ sched, p.2.updates = false) → Apart has s sched
  | [], _, _ => trivial
  | (t, a) :: rest, s, h => ⟨(fun hu => by
      have := h _ List.mem_cons_self
      rw [hu] at this; cases this),
    apart_none rest _ fun p hp => h p (List.mem_cons_of_mem _ hp)⟩

theorem apart_one : ∀ (pre : List (Tid × Act)) (t : Tid) (a : Act) (post : List (Tid × Act)) (s : Sys), Calm s →
    (∀ p ∈ pre, p.2.updates = false) → (∀ p ∈ post, p.2.updates = false) → Apart has s (pre ++ (t, a) :: post)
  | [], _, _, post, _, hc, _, hp => ⟨fun _ => hc, apart_none post _ hp⟩
  | (t', a') :: pre, t, a, post, _, hc, h, hp => ⟨fun _ => hc,
    apart_one pre t a post _ (calm_step hc t' a' (h _ List.mem_cons_self)) (fun p hp => h p (List.mem_cons_of_mem _ hp)) hp⟩

/-- `busy` meets the hypotheses of C80: sink 9, set while thread 0 delivers, gets only what is published later, and once. -/
example : received 0 9 (run allHooks (init [7, 8] fun _ => [7, 8]) busy).trace = [(.end_, ev 2)] ∧
    (received 0 9 (run allHooks (init [7, 8] fun _ => [7, 8]) busy).trace <+~
      published 0 (run allHooks (init [7, 8] fun _ => [7, 8]) busy).pub) :=
  ⟨by decide +kernel, C80_once_partial _ _ (by decide) (fun _ => by decide) (by simp) busy
    (apart_one [(0, .publish .end_ (ev 1)), (0, .go)] 1 (.setSinks [9])
      (steps 1 30 ++ steps 0 5 ++ [(0, .publish .end_ (ev 2))] ++ steps 0 5) _
      (fun t f hf => by simp [init] at hf) (by decide +kernel) (by decide +kernel)) 0 9⟩

/-- Part of the schedule: thread 0 is still inside its first publication. -/
example := C78_at_most_once (has := allHooks) [7, 8] (fun _ => [7, 8]) (by simp) (mixed.take 5)
  (fun t a h => mixed_fixed t a (List.mem_of_mem_take h)) 0 8

end Verif.SyncConc
