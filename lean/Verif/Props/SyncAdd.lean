import Verif.Props.SyncConc
/-!
# C80 while sinks are added: the sinks already there get every event once
-/
namespace Verif.SyncConc
open scoped List

variable {has : SinkId → Kind → Bool}

/-- Nobody replaces the sinks. -/
def OnlyAdds (sched : List (Tid × Act)) : Prop := ∀ t xs, (t, Act.setSinks xs) ∉ sched

/-- What holds of a sink that was there from the start. -/
structure Grown (hooks : Kind → List SinkId) (i : SinkId) (s : Sys) : Prop where
  all : i ∈ s.heap (s.ptr .all)
  hook : ∀ k, (i ∈ s.heap (s.ptr (.hook k)) ↔ i ∈ hooks k) ∧ (s.heap (s.ptr (.hook k))).count i ≤ 1
  frames : ∀ t f, f ∈ s.stack t → (∃ k e n, f = .iter k e (s.ptr (.hook k)) n ∨ f = .inHook k e (s.ptr (.hook k)) n) ∨
    (∃ x, f = .addStart x) ∨ ∃ x rest, f = .adding x rest ∧ x ≠ i

theorem grown_init {sinks : List SinkId} {hooks : Kind → List SinkId} (hnd : ∀ k, (hooks k).Nodup) {i : SinkId} (hi : i ∈ sinks) :
    Grown hooks i (init sinks hooks) := by
  refine ⟨hi, fun k => ?_, fun t f h => by simp [init] at h⟩
  have : (init sinks hooks).heap ((init sinks hooks).ptr (.hook k)) = hooks k := by cases k <;> rfl
  rw [this]
  exact ⟨Iff.rfl, List.nodup_iff_count_le_one.1 (hnd k) i⟩

theorem grown_at {hooks : Kind → List SinkId} {i : SinkId} {s : Sys} (h : Grown hooks i s) (t : Tid) (fs : List Frame)
    (hfs : ∀ f ∈ fs, (∃ k e n, f = .iter k e (s.ptr (.hook k)) n ∨ f = .inHook k e (s.ptr (.hook k)) n) ∨
      (∃ x, f = .addStart x) ∨ ∃ x rest, f = .adding x rest ∧ x ≠ i) : Grown hooks i (s.at t fs) := by
  refine ⟨h.all, h.hook, fun t' f hf => ?_⟩
  rw [at_stack] at hf
  split at hf
  · exact hfs f hf
  · exact h.frames t' f hf

theorem grown_append {hooks : Kind → List SinkId} {i x : SinkId} {s : Sys} (h : Grown hooks i s) (hx : x ≠ i) (sl : Slot) :
    Grown hooks i (s.append sl x) := by
  refine ⟨?_, fun k => ?_, h.frames⟩
  · simp only [Sys.append]
    split
    · exact List.mem_append_left _ h.all
    · exact h.all
  · simp only [Sys.append]
    split
    · have := h.hook k
      rw [List.mem_append, List.mem_singleton, List.count_append, List.count_singleton]
      refine ⟨?_, ?_⟩
      · rw [this.1]
        exact ⟨fun h => h.resolve_right (Ne.symm hx), .inl⟩
      · rw [if_neg (by simpa using hx)]
        exact this.2
    · exact h.hook k

theorem mem_drop_append {i x : SinkId} (hx : x ≠ i) (a : List SinkId) (n : Nat) : i ∈ (a ++ [x]).drop n ↔ i ∈ a.drop n := by
  rw [List.drop_append, List.mem_append]
  refine ⟨fun h => h.resolve_right fun h => ?_, .inl⟩
  have := List.mem_of_mem_drop h
  rw [List.mem_singleton] at this
  exact hx this.symm

theorem owed_append {i x : SinkId} (hx : x ≠ i) (s : Sys) (sl : Slot) (f : Frame) :
    f.owed (s.append sl x).heap i = f.owed s.heap i := by
  have : ∀ l n, i ∈ ((s.append sl x).heap l).drop n ↔ i ∈ (s.heap l).drop n := by
    intro l n
    simp only [Sys.append]
    split
    · exact mem_drop_append hx _ _
    · exact Iff.rfl
  cases f <;> simp only [Frame.owed, this]

theorem account_append {i x : SinkId} (hx : x ≠ i) (s : Sys) (sl : Slot) (t : Tid) : account t i (s.append sl x) = account t i s := by
  have : Frame.owed (s.append sl x).heap i = Frame.owed s.heap i := funext fun f => owed_append hx s sl f
  simp only [account, this]
  rfl

/-- Every step but `set_sinks` keeps that. -/
theorem grown_step {hooks : Kind → List SinkId} {i : SinkId} {s : Sys} (h : Grown hooks i s) (t : Tid) (a : Act)
    (ha : ∀ xs, a ≠ .setSinks xs) : Grown hooks i (step has s t a) := by
  have hf := h.frames t
  cases a with
  | setSinks xs => exact absurd rfl (ha xs)
  | addSink x =>
    simp only [step]
    split
    · refine grown_at h t _ fun f hm => ?_
      rcases List.mem_cons.1 hm with rfl | hm
      · exact .inr (.inl ⟨x, rfl⟩)
      · exact hf f hm
    · exact h
  | publish k e =>
    simp only [step]
    split
    · refine grown_at (s := { s with pub := s.pub ++ [(t, k, e, s.heap (s.ptr (.hook k)))] }) ⟨h.all, h.hook, h.frames⟩ t _ ?_
      intro f hm
      rcases List.mem_cons.1 hm with rfl | hm
      · exact .inl ⟨k, e, 0, .inl rfl⟩
      · exact hf f hm
    · exact h
  | raise =>
    simp only [step]
    split
    · rename_i fs hs
      exact grown_at h t fs fun f hm => hf f (by rw [hs]; exact List.mem_cons_of_mem _ hm)
    · exact h
  | go =>
    simp only [step]
    split
    · exact h
    · rename_i k e l n fs hs
      have hfs := fun f (hm : f ∈ fs) => hf f (by rw [hs]; exact List.mem_cons_of_mem _ hm)
      split
      · exact grown_at h t fs hfs
      · rename_i x hx
        refine grown_at (s := { s with trace := s.trace ++ [(t, x, k, e)] }) ⟨h.all, h.hook, h.frames⟩ t _ ?_
        intro f hm
        rcases List.mem_cons.1 hm with rfl | hm
        · rcases hf (.iter k e l n) (by rw [hs]; exact List.mem_cons_self) with ⟨k', e', n', h' | h'⟩ | ⟨_, h'⟩ | ⟨_, _, h', _⟩
          · cases h'; exact .inl ⟨k, e, n + 1, .inr rfl⟩
          all_goals cases h'
        · exact hfs f hm
    · rename_i k e l n fs hs
      refine grown_at h t _ ?_
      intro f hm
      rcases List.mem_cons.1 hm with rfl | hm
      · rcases hf (.inHook k e l n) (by rw [hs]; exact List.mem_cons_self) with ⟨k', e', n', h' | h'⟩ | ⟨_, h'⟩ | ⟨_, _, h', _⟩
        · cases h'
        · cases h'; exact .inl ⟨k, e, n, .inl rfl⟩
        all_goals cases h'
      · exact hf f (by rw [hs]; exact List.mem_cons_of_mem _ hm)
    · rename_i x fs hs
      have hfs := fun f (hm : f ∈ fs) => hf f (by rw [hs]; exact List.mem_cons_of_mem _ hm)
      split
      · exact grown_at h t fs hfs
      · rename_i hx
        refine grown_at h t _ ?_
        intro f hm
        rcases List.mem_cons.1 hm with rfl | hm
        · exact .inr (.inr ⟨x, _, rfl, fun e => hx (e ▸ h.all)⟩)
        · exact hfs f hm
    · rename_i fs hs
      exact grown_at h t fs fun f hm => hf f (by rw [hs]; exact List.mem_cons_of_mem _ hm)
    · rename_i x sl rest fs hs
      have hx : x ≠ i := by
        rcases hf (.adding x (sl :: rest)) (by rw [hs]; exact List.mem_cons_self) with ⟨_, _, _, h' | h'⟩ | ⟨_, h'⟩ | ⟨_, _, h', hne⟩
        any_goals cases h'
        exact hne
      refine grown_at (grown_append h hx sl) t _ ?_
      intro f hm
      rcases List.mem_cons.1 hm with rfl | hm
      · exact .inr (.inr ⟨x, rest, rfl, hx⟩)
      · exact hf f (by rw [hs]; exact List.mem_cons_of_mem _ hm)
    all_goals
      rename_i hs
      rcases hf _ (by rw [hs]; exact List.mem_cons_self) with ⟨_, _, _, h' | h'⟩ | ⟨_, h'⟩ | ⟨_, _, h', _⟩ <;> cases h'

/-- What a step does to the account of one thread and sink while sinks are added at most. -/
theorem account_grows {hooks : Kind → List SinkId} {i : SinkId} {s : Sys} (h : Grown hooks i s) (t : Tid) (a : Act)
    (ha : ∀ xs, a ≠ .setSinks xs) (t' : Tid) :
    (∃ new, want hooks t' i (step has s t a) = want hooks t' i s ++ new ∧
      account t' i (step has s t a) = received t' i s.trace ++ (new ++ (s.stack t').flatMap (Frame.owed s.heap i)) ∧
      t = t' ∧ ∃ k e, a = .publish k e) ∨
    (want hooks t' i (step has s t a) = want hooks t' i s ∧ account t' i (step has s t a) = account t' i s) ∨
    (a = .raise ∧ t = t' ∧ want hooks t' i (step has s t a) = want hooks t' i s ∧
      account t' i (step has s t a) <+ account t' i s) := by
  have hf := h.frames t
  have idle : ∀ fs, t' ≠ t → account t' i (s.at t fs) = account t' i s := by
    intro fs hne
    simp [account, hne]
  have same : ∀ fs, (fs.flatMap (Frame.owed s.heap i) = (s.stack t).flatMap (Frame.owed s.heap i)) →
      account t' i (s.at t fs) = account t' i s := by
    intro fs hs
    by_cases ht : t' = t
    · subst ht
      simp only [account, at_trace, at_stack, if_true, at_heap, hs]
    · exact idle fs ht
  cases a with
  | setSinks xs => exact absurd rfl (ha xs)
  | addSink x =>
    right; left
    simp only [step]
    split
    · exact ⟨rfl, same _ (by simp [Frame.owed])⟩
    · exact ⟨rfl, rfl⟩
  | publish k e =>
    simp only [step]
    split
    · by_cases ht : t' = t
      · subst ht
        left
        refine ⟨if i ∈ hooks k then [(k, e)] else [], ?_, ?_, rfl, k, e, rfl⟩
        · simp only [want, at_pub, published_snoc, if_true, wanted, List.filter_append, List.filter_cons, List.filter_nil,
            decide_eq_true_eq]
        · simp only [account, at_trace, at_stack, if_true, at_heap, List.flatMap_cons, Frame.owed, List.drop_zero, (h.hook k).1]
      · right; left
        refine ⟨?_, ?_⟩
        · simp only [want, at_pub, published_snoc]
          rw [if_neg (fun h => ht h.symm), List.append_nil]
        · simp [account, ht]
    · exact .inr (.inl ⟨rfl, rfl⟩)
  | raise =>
    simp only [step]
    split
    · rename_i k e l n fs hs
      by_cases ht : t' = t
      · subst ht
        right; right
        refine ⟨trivial, rfl, rfl, ?_⟩
        simp only [account, at_trace, at_stack, if_true, at_heap, hs, List.flatMap_cons]
        exact (List.sublist_append_right _ _).append_left _
      · exact .inr (.inl ⟨rfl, idle fs ht⟩)
    · exact .inr (.inl ⟨rfl, rfl⟩)
  | go =>
    right; left
    simp only [step]
    split
    · exact ⟨rfl, rfl⟩
    · rename_i k e l n fs hs
      split
      · rename_i hx
        refine ⟨rfl, same fs ?_⟩
        simp only [hs, List.flatMap_cons, Frame.owed]
        rw [List.drop_eq_nil_of_le (List.getElem?_eq_none_iff.1 hx)]
        simp
      · rename_i x hx
        refine ⟨rfl, ?_⟩
        by_cases ht : t' = t
        · subst ht
          rcases hf (.iter k e l n) (by rw [hs]; exact List.mem_cons_self) with ⟨k', e', n', h' | h'⟩ | ⟨_, h'⟩ | ⟨_, _, h', _⟩
          · cases h'
            have hn : ((s.heap (s.ptr (.hook k))).drop n).count i ≤ 1 :=
              Nat.le_trans ((List.drop_sublist _ _).count_le i) (h.hook k).2
            obtain ⟨hlt, hget⟩ := List.getElem?_eq_some_iff.1 hx
            have hd := List.drop_eq_getElem_cons hlt
            rw [hget] at hd
            rw [hd] at hn
            simp only [account, at_trace, at_stack, if_true, at_heap, hs, List.flatMap_cons, Frame.owed, received_snoc, true_and,
              hd, List.mem_cons]
            by_cases hxi : x = i
            · subst hxi
              rw [List.count_cons_self] at hn
              have hno : x ∉ (s.heap (s.ptr (.hook k))).drop (n + 1) := List.count_eq_zero.1 (by omega)
              rw [if_pos rfl, if_neg hno, if_pos (.inl rfl)]
              simp
            · have : (i = x ∨ i ∈ (s.heap (s.ptr (.hook k))).drop (n + 1)) ↔ i ∈ (s.heap (s.ptr (.hook k))).drop (n + 1) :=
                ⟨fun h => h.resolve_left fun h => hxi h.symm, .inr⟩
              rw [if_neg hxi, List.append_nil]
              simp only [this]
          all_goals cases h'
        · simp only [account, at_trace, at_stack, ht, if_false, at_heap, received_snoc, Ne.symm ht, false_and, List.append_nil]
    · rename_i k e l n fs hs
      exact ⟨rfl, same _ (by simp only [hs, List.flatMap_cons, Frame.owed])⟩
    · rename_i x fs hs
      split
      · exact ⟨rfl, same _ (by simp only [hs, List.flatMap_cons, Frame.owed, List.nil_append])⟩
      · exact ⟨rfl, same _ (by simp only [hs, List.flatMap_cons, Frame.owed])⟩
    · rename_i fs hs
      exact ⟨rfl, same _ (by simp only [hs, List.flatMap_cons, Frame.owed, List.nil_append])⟩
    · rename_i x sl rest fs hs
      have hx : x ≠ i := by
        rcases hf (.adding x (sl :: rest)) (by rw [hs]; exact List.mem_cons_self) with ⟨_, _, _, h' | h'⟩ | ⟨_, h'⟩ | ⟨_, _, h', hne⟩
        any_goals cases h'
        exact hne
      refine ⟨rfl, ?_⟩
      rw [← account_append hx s sl t']
      by_cases ht : t' = t
      · subst ht
        have e1 : (s.append sl x).stack t' = .adding x (sl :: rest) :: fs := hs
        simp only [account, at_trace, at_stack, if_true, at_heap, e1, List.flatMap_cons, Frame.owed]
      · simp [account, ht]
    all_goals
      rename_i hs
      rcases hf _ (by rw [hs]; exact List.mem_cons_self) with ⟨_, _, _, h' | h'⟩ | ⟨_, h'⟩ | ⟨_, _, h', _⟩ <;> cases h'

theorem account_adds {hooks : Kind → List SinkId} {i : SinkId} (t : Tid) (sched : List (Tid × Act)) (hfix : OnlyAdds sched)
    (s : Sys) (h : Grown hooks i s) :
    (account t i s <+~ want hooks t i s → account t i (run has s sched) <+~ want hooks t i (run has s sched)) ∧
    (NoRaise t sched → account t i s ~ want hooks t i s → account t i (run has s sched) ~ want hooks t i (run has s sched)) ∧
    (NoRaise t sched → Straight has t s sched → account t i s = want hooks t i s →
      account t i (run has s sched) = want hooks t i (run has s sched)) := by
  induction sched generalizing s with
  | nil => exact ⟨id, fun _ => id, fun _ _ => id⟩
  | cons p sched ih =>
    obtain ⟨t', a⟩ := p
    have ha : ∀ xs, a ≠ .setSinks xs := fun xs e => hfix t' xs (by rw [e]; exact List.mem_cons_self)
    have hfix' : OnlyAdds sched := fun t xs hm => hfix t xs (List.mem_cons_of_mem _ hm)
    obtain ⟨i1, i2, i3⟩ := ih hfix' (step has s t' a) (grown_step h t' a ha)
    have hst := account_grows (has := has) h t' a ha t
    have nr : NoRaise t ((t', a) :: sched) → NoRaise t sched ∧ ¬ (a = .raise ∧ t' = t) := by
      intro hn
      refine ⟨fun hm => hn (List.mem_cons_of_mem _ hm), ?_⟩
      rintro ⟨rfl, rfl⟩
      exact hn List.mem_cons_self
    refine ⟨fun h1 => i1 ?_, fun hn h2 => i2 (nr hn).1 ?_, fun hn hs h3 => i3 (nr hn).1 hs.2 ?_⟩
    · rcases hst with ⟨new, e1, e2, _⟩ | ⟨e1, e2⟩ | ⟨_, _, e1, e2⟩
      · rw [e1, e2]
        have : received t i s.trace ++ (new ++ (s.stack t).flatMap (Frame.owed s.heap i)) ~ account t i s ++ new := by
          rw [account, List.append_assoc]
          exact List.Perm.append_left _ List.perm_append_comm
        exact this.subperm.trans ((List.subperm_append_right new).2 h1)
      · rw [e1, e2]; exact h1
      · rw [e1]; exact e2.subperm.trans h1
    · rcases hst with ⟨new, e1, e2, _⟩ | ⟨e1, e2⟩ | ⟨hr, ht, _⟩
      · rw [e1, e2]
        have : received t i s.trace ++ (new ++ (s.stack t).flatMap (Frame.owed s.heap i)) ~ account t i s ++ new := by
          rw [account, List.append_assoc]
          exact List.Perm.append_left _ List.perm_append_comm
        exact this.trans (h2.append_right new)
      · rw [e1, e2]; exact h2
      · exact absurd ⟨hr, ht⟩ (nr hn).2
    · rcases hst with ⟨new, e1, e2, ht, hpub⟩ | ⟨e1, e2⟩ | ⟨hr, ht, _⟩
      · have hempty := hs.1 ht (by obtain ⟨_, _, rfl⟩ := hpub; rfl)
        rw [e1, e2, ← h3, account, hempty]
        simp
      · rw [e1, e2]; exact h3
      · exact absurd ⟨hr, ht⟩ (nr hn).2

/-- **C80, adding.**  Threads publish and add sinks as they like, at the same time, even the same sinks.  A sink that was there before
gets no event more often than it was published; when a thread has left the logger, and no sink raised in it, it got each of the thread's
events that it has a hook for exactly once; and at every moment in the order of publication, if the thread's sinks do not publish
themselves. -/
theorem C80_adding_partial (sinks : List SinkId) (hooks : Kind → List SinkId) (hnd : ∀ k, (hooks k).Nodup)
    (sched : List (Tid × Act)) (hadds : OnlyAdds sched) (t : Tid) (i : SinkId) (hi : i ∈ sinks) :
    let s := run has (init sinks hooks) sched
    received t i s.trace <+~ wanted hooks i (published t s.pub) ∧
    (NoRaise t sched → s.stack t = [] → received t i s.trace ~ wanted hooks i (published t s.pub)) ∧
    (NoRaise t sched → Straight has t (init sinks hooks) sched → received t i s.trace <+: wanted hooks i (published t s.pub)) := by
  obtain ⟨h1, h2, h3⟩ := account_adds (has := has) t sched hadds _ (grown_init hnd hi)
  refine ⟨(List.sublist_append_left _ _).subperm.trans (h1 ?_), fun hn hout => ?_, fun hn hs => ⟨_, h3 hn hs ?_⟩⟩
  · simp [account, want, init, received, published, wanted]
  · have := h2 hn (by simp [account, want, init, received, published, wanted])
    rw [account, hout, List.flatMap_nil, List.append_nil] at this
    exact this
  · simp [account, want, init, received, published, wanted]

/-- Thread 0 publishes to sink 7 while threads 1 and 2 both add sink 8, and thread 1 adds sink 7 again: sink 8 is told twice, sink 7
once. -/
def crowded : List (Tid × Act) :=
  [(1, .addSink 8), (2, .addSink 8), (1, .go), (2, .go), (0, .publish .end_ (ev 1)), (0, .go)] ++ steps 1 7 ++ steps 2 7 ++
    [(1, .addSink 7)] ++ steps 1 3 ++ steps 0 8

example : OnlyAdds crowded ∧ received 0 7 (run allHooks (init [7] fun _ => [7]) crowded).trace = [(.end_, ev 1)] ∧
    received 0 8 (run allHooks (init [7] fun _ => [7]) crowded).trace = [(.end_, ev 1), (.end_, ev 1)] ∧
    (run allHooks (init [7] fun _ => [7]) crowded).stack 0 = [] := by
  refine ⟨?_, by decide +kernel, by decide +kernel, by decide +kernel⟩
  intro t xs h
  simp [crowded, steps] at h

end Verif.SyncConc
