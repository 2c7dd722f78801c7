import Verif.Model.Weak
/-!
# C101: queued events outlive what the application does with the logger
-/
namespace Verif.Weak

open scoped List

/-- A flush from its call to its return: the table is copied, then each logger in the copy is flushed; between, anything
but another flush may happen (the garbage collector, and other calls). -/
def FlushRun (s : Sys) (mid : List Op) : Prop := s.snap = [] ∧ Op.flush ∉ mid ∧ (run (step s .flush) mid).snap = []

/-- The full claim: every event published on a registered logger has been delivered after the next flush of the context. -/
def DeliveredFull : Prop :=
  ∀ (ops mid more : List Op) (l : LogId) (e : Ev),
    l ∈ (run {} ops).table → l ∈ (run {} ops).refs → (∀ o ∈ more, o ≠ .remove l) →
    FlushRun (run (run {} ops) (.publish l e :: more)) mid →
    e ∈ (run (run {} ops) (.publish l e :: more ++ .flush :: mid)).got l

/-- **C101** is false: an asynchronous logger that the application drops is collected together with its queue. -/
theorem C101_violated : ¬ DeliveredFull := by
  intro h
  have := h [.make 1] [] [.drop 1, .collect 1] 1 7 (by decide) (by decide) (by decide)
    ⟨by decide, by decide, by decide⟩
  revert this
  decide

theorem run_cons (s : Sys) (o : Op) (os : List Op) : run s (o :: os) = run (step s o) os := rfl
theorem run_append (s : Sys) (a b : List Op) : run s (a ++ b) = run (run s a) b := by simp [run]

theorem got_mono {s : Sys} {l : LogId} {e : Ev} (o : Op) (h : e ∈ s.got l) : e ∈ (step s o).got l := by
  cases o with
  | next =>
    simp only [step]
    split
    · exact h
    · dsimp only
      split
      · next h1 => subst h1; exact List.mem_append_left _ h
      · exact h
  | make m => simp only [step]; split <;> exact h
  | publish m e' => simp only [step]; split <;> exact h
  | collect m => simp only [step]; split <;> exact h
  | flush => simp only [step]; split <;> exact h
  | drop m => exact h
  | remove m => exact h

/-- While the logger is kept, its event stays queued, or is delivered. -/
theorem keep {s : Sys} {l : LogId} {e : Ev} (o : Op) (hr : l ∈ s.refs) (ht : l ∈ s.table)
    (hd : o ≠ .drop l) (hrm : o ≠ .remove l) (h : e ∈ s.queue l ∨ e ∈ s.got l) :
    l ∈ (step s o).refs ∧ l ∈ (step s o).table ∧ (e ∈ (step s o).queue l ∨ e ∈ (step s o).got l) := by
  cases o with
  | make m =>
    simp only [step]
    split
    · exact ⟨hr, ht, h⟩
    · next hn =>
      have hne : l ≠ m := by rintro rfl; exact hn (Or.inl ht)
      refine ⟨List.mem_cons_of_mem _ hr, List.mem_append_left _ ht, ?_⟩
      simpa [hne] using h
  | publish m e' =>
    simp only [step]
    split
    · refine ⟨hr, ht, h.imp (fun h => ?_) id⟩
      dsimp only
      split
      · next h1 => subst h1; exact List.mem_append_left _ h
      · exact h
    · exact ⟨hr, ht, h⟩
  | drop m =>
    have hne : l ≠ m := by rintro rfl; exact hd rfl
    exact ⟨by simp [step, hr, hne], ht, h⟩
  | collect m =>
    simp only [step]
    split
    · exact ⟨hr, ht, h⟩
    · next hn =>
      have hne : l ≠ m := by rintro rfl; exact hn (Or.inl hr)
      exact ⟨hr, by simp [ht, hne], by simpa [hne] using h⟩
  | remove m =>
    have hne : l ≠ m := by rintro rfl; exact hrm rfl
    exact ⟨hr, by simp [step, ht, hne], h⟩
  | flush => simp only [step]; split <;> exact ⟨hr, ht, h⟩
  | next =>
    simp only [step]
    split
    · exact ⟨hr, ht, h⟩
    · next m ls hs =>
      refine ⟨hr, ht, ?_⟩
      dsimp only
      by_cases hne : l = m
      · subst hne
        right
        simp only [if_true]
        exact List.mem_append.mpr h.symm
      · simpa [hne] using h

/-- While the flush under way has not got to the logger, its event stays queued; afterwards it has been delivered. -/
theorem flushing {s : Sys} {l : LogId} {e : Ev} (o : Op) (ho : o ≠ .flush)
    (h : (l ∈ s.snap ∧ e ∈ s.queue l) ∨ e ∈ s.got l) :
    (l ∈ (step s o).snap ∧ e ∈ (step s o).queue l) ∨ e ∈ (step s o).got l := by
  rcases h with ⟨h1, h2⟩ | h
  · cases o with
    | make m =>
      simp only [step]
      split
      · exact Or.inl ⟨h1, h2⟩
      · next hn =>
        have hne : l ≠ m := by rintro rfl; exact hn (Or.inr (Or.inr h1))
        exact Or.inl ⟨h1, by simpa [hne] using h2⟩
    | publish m e' =>
      simp only [step]
      split
      · refine Or.inl ⟨h1, ?_⟩
        dsimp only
        split
        · next h3 => subst h3; exact List.mem_append_left _ h2
        · exact h2
      · exact Or.inl ⟨h1, h2⟩
    | drop m => exact Or.inl ⟨h1, h2⟩
    | remove m => exact Or.inl ⟨h1, h2⟩
    | flush => exact absurd rfl ho
    | collect m =>
      simp only [step]
      split
      · exact Or.inl ⟨h1, h2⟩
      · next hn =>
        have hne : l ≠ m := by rintro rfl; exact hn (Or.inr h1)
        exact Or.inl ⟨h1, by simpa [hne] using h2⟩
    | next =>
      simp only [step]
      split
      · exact Or.inl ⟨h1, h2⟩
      · next m ls hs =>
        dsimp only
        by_cases hne : l = m
        · subst hne
          right
          simp only [if_true]
          exact List.mem_append_right _ h2
        · rw [hs] at h1
          rcases List.mem_cons.mp h1 with h3 | h3
          · exact absurd h3 hne
          · exact Or.inl ⟨h3, by simpa [hne] using h2⟩
  · exact Or.inr (got_mono o h)

/-- **C101**, the part that holds: if the application keeps the logger until the flush is called, every event published on
it has been delivered when the flush returns, even if the logger is dropped, removed from the context and the garbage
collector runs while the flush is under way. -/
theorem C101_kept_partial (s : Sys) (more mid : List Op) (l : LogId) (e : Ev)
    (ht : l ∈ s.table) (hr : l ∈ s.refs) (hm : ∀ o ∈ more, o ≠ .remove l ∧ o ≠ .drop l)
    (hf : FlushRun (run s (.publish l e :: more)) mid) :
    e ∈ (run s (.publish l e :: more ++ .flush :: mid)).got l := by
  obtain ⟨h1, h2, h3⟩ := hf
  rw [List.cons_append, run_cons, run_append, run_cons]
  rw [run_cons] at h1 h3
  have h4 : ∀ s1 : Sys, l ∈ s1.refs → l ∈ s1.table → (e ∈ s1.queue l ∨ e ∈ s1.got l) →
      l ∈ (run s1 more).refs ∧ l ∈ (run s1 more).table ∧ (e ∈ (run s1 more).queue l ∨ e ∈ (run s1 more).got l) := by
    clear h1 h3
    induction more with
    | nil => exact fun s1 a b c => ⟨a, b, c⟩
    | cons o more ih =>
      intro s1 a b c
      obtain ⟨a', b', c'⟩ := keep o a b (hm o List.mem_cons_self).2 (hm o List.mem_cons_self).1 c
      exact ih (fun o' ho' => hm o' (List.mem_cons_of_mem _ ho')) _ a' b' c'
  obtain ⟨_, h5, h6⟩ := h4 (step s (.publish l e)) (by simp [step, hr]) (by simp [step, hr, ht])
    (Or.inl (by simp [step, hr]))
  generalize run (step s (.publish l e)) more = s2 at *
  have h7 : ∀ s3 : Sys, (l ∈ s3.snap ∧ e ∈ s3.queue l) ∨ e ∈ s3.got l →
      (l ∈ (run s3 mid).snap ∧ e ∈ (run s3 mid).queue l) ∨ e ∈ (run s3 mid).got l := by
    clear h3
    induction mid with
    | nil => exact fun s3 h => h
    | cons o mid ih =>
      intro s3 h
      have hne : o ≠ .flush := by rintro rfl; exact h2 List.mem_cons_self
      exact ih (fun h' => h2 (List.mem_cons_of_mem _ h')) _ (flushing o hne h)
  have h8 : (step s2 .flush) = { s2 with snap := s2.table } := by simp [step, h1]
  rcases h7 (step s2 .flush) (by rw [h8]; exact h6.imp (fun h => ⟨h5, h⟩) id) with h | h
  · rw [h3] at h; exact absurd h.1 (by simp)
  · exact h

/-- The events the application published on a logger, in order. -/
def published (l : LogId) (ops : List Op) : List Ev :=
  ops.filterMap fun o => match o with
    | .publish m e => if m = l then some e else none
    | _ => none

/-- One step keeps what was delivered and what is queued, in order, apart from an event published. -/
theorem step_order (s : Sys) (o : Op) (l : LogId) :
    (step s o).got l ++ (step s o).queue l <+ s.got l ++ s.queue l ++ published l [o] := by
  have keep : s.got l ++ s.queue l <+ s.got l ++ s.queue l ++ published l [o] := List.sublist_append_left _ _
  have clear : s.got l ++ [] <+ s.got l ++ s.queue l ++ published l [o] := by
    rw [List.append_nil, List.append_assoc]; exact List.sublist_append_left _ _
  cases o with
  | make m =>
    simp only [step]
    split
    · exact keep
    · dsimp only
      split
      · exact clear
      · exact keep
  | publish m e =>
    simp only [step]
    split
    · dsimp only
      by_cases h : l = m
      · subst h; simp [published]
      · rw [if_neg h]; exact keep
    · exact keep
  | drop m => exact keep
  | remove m => exact keep
  | collect m =>
    simp only [step]
    split
    · exact keep
    · dsimp only
      split
      · exact clear
      · exact keep
  | flush => simp only [step]; split <;> exact keep
  | next =>
    simp only [step]
    split
    · exact keep
    · next m ls hs =>
      dsimp only
      by_cases h : l = m
      · subst h; simp [published]
      · rw [if_neg h, if_neg h]; exact keep

/-- **C101**, what holds of every history: a logger's sinks are handed the events published on it at most once each and in
the order of publication, and what is queued comes after; nothing else is ever handed to them. -/
theorem C101_once_partial (ops : List Op) (l : LogId) :
    (run {} ops).got l ++ (run {} ops).queue l <+ published l ops := by
  suffices h : ∀ s : Sys, (run s ops).got l ++ (run s ops).queue l <+ s.got l ++ s.queue l ++ published l ops by
    simpa using h {}
  induction ops with
  | nil => intro s; simp [run, published]
  | cons o ops ih =>
    intro s
    rw [run_cons]
    refine (ih _).trans ?_
    have : published l (o :: ops) = published l [o] ++ published l ops := by
      rw [published, published, published, ← List.filterMap_append]; rfl
    rw [this, ← List.append_assoc]
    exact (step_order s o l).append (List.Sublist.refl _)

/-- **C101**, nothing is lost while the application keeps the logger: what was delivered and what is queued is then all that was
published, in order, removed from the context or not. -/
theorem C101_nothing_lost (s : Sys) (ops : List Op) (l : LogId) (hr : l ∈ s.refs) (hd : Op.drop l ∉ ops) :
    (run s ops).got l ++ (run s ops).queue l = s.got l ++ s.queue l ++ published l ops := by
  induction ops generalizing s with
  | nil => simp [run, published]
  | cons o ops ih =>
    have hd' : Op.drop l ∉ ops := fun h => hd (List.mem_cons_of_mem _ h)
    have hp : published l (o :: ops) = published l [o] ++ published l ops := by
      rw [published, published, published, ← List.filterMap_append]; rfl
    rw [run_cons, hp, ← List.append_assoc]
    suffices h : l ∈ (step s o).refs ∧
        (step s o).got l ++ (step s o).queue l = s.got l ++ s.queue l ++ published l [o] by
      rw [ih _ h.1 hd', h.2]
    cases o with
    | make m =>
      simp only [step]
      split
      · exact ⟨hr, by simp [published]⟩
      · next hn =>
        have hne : l ≠ m := by rintro rfl; exact hn (Or.inr (Or.inl hr))
        exact ⟨List.mem_cons_of_mem _ hr, by simp [published, hne]⟩
    | publish m e =>
      simp only [step]
      split
      · refine ⟨hr, ?_⟩
        dsimp only
        by_cases h : l = m
        · subst h; simp [published]
        · simp [published, h, Ne.symm h]
      · next hn =>
        have hne : m ≠ l := by rintro rfl; exact hn hr
        exact ⟨hr, by simp [published, hne]⟩
    | drop m =>
      have hne : l ≠ m := by rintro rfl; exact hd List.mem_cons_self
      exact ⟨by simp [step, hr, hne], by simp [step, published]⟩
    | remove m => exact ⟨hr, by simp [step, published]⟩
    | collect m =>
      simp only [step]
      split
      · exact ⟨hr, by simp [published]⟩
      · next hn =>
        have hne : l ≠ m := by rintro rfl; exact hn (Or.inl hr)
        exact ⟨hr, by simp [published, hne]⟩
    | flush => simp only [step]; split <;> exact ⟨hr, by simp [published]⟩
    | next =>
      simp only [step]
      split
      · exact ⟨hr, by simp [published]⟩
      · next m ls hs =>
        refine ⟨hr, ?_⟩
        dsimp only
        by_cases h : l = m
        · subst h; simp [published]
        · simp [published, h]

/-- **C101**, why the logger must not be removed: the context delivers nothing for a logger that was removed from it when no flush
was under way, whatever happens after. -/
theorem C101_removed (s : Sys) (ops : List Op) (l : LogId) (hs : s.snap = []) (hm : Op.make l ∉ ops) :
    (run s (.remove l :: ops)).got l = s.got l := by
  rw [run_cons]
  suffices h : ∀ s1 : Sys, l ∉ s1.table → l ∉ s1.snap → (run s1 ops).got l = s1.got l from
    h _ (by simp [step]) (by simp [step, hs])
  clear hs
  induction ops with
  | nil => intro s1 _ _; rfl
  | cons o ops ih =>
    intro s1 ht hn
    have hm' : Op.make l ∉ ops := fun h => hm (List.mem_cons_of_mem _ h)
    rw [run_cons]
    suffices h : l ∉ (step s1 o).table ∧ l ∉ (step s1 o).snap ∧ (step s1 o).got l = s1.got l by
      rw [ih hm' _ h.1 h.2.1, h.2.2]
    cases o with
    | make m =>
      have hne : l ≠ m := by rintro rfl; exact hm List.mem_cons_self
      simp only [step]
      split
      · exact ⟨ht, hn, rfl⟩
      · exact ⟨by simp [ht, hne], hn, rfl⟩
    | publish m e => simp only [step]; split <;> exact ⟨ht, hn, rfl⟩
    | drop m => exact ⟨ht, hn, rfl⟩
    | remove m => exact ⟨fun h => ht ((List.mem_filter.1 h).1), hn, rfl⟩
    | collect m =>
      simp only [step]
      split
      · exact ⟨ht, hn, rfl⟩
      · exact ⟨fun h => ht ((List.mem_filter.1 h).1), hn, rfl⟩
    | flush =>
      simp only [step]
      split
      · exact ⟨ht, ht, rfl⟩
      · exact ⟨ht, hn, rfl⟩
    | next =>
      simp only [step]
      split
      · exact ⟨ht, hn, rfl⟩
      · next m ls hs =>
        rw [hs] at hn
        have hne : l ≠ m := by rintro rfl; exact hn List.mem_cons_self
        exact ⟨ht, fun h => hn (List.mem_cons_of_mem _ h), by simp [hne]⟩

/-- A removed logger that the application keeps: its events stay queued. -/
example : let s := run {} [.make 1, .make 2, .publish 1 7]
    (run s [.remove 1, .publish 1 8, .flush, .next]).got 1 = [] ∧
      (run s [.remove 1, .publish 1 8, .flush, .next]).queue 1 = [7, 8] := by decide

example := C101_nothing_lost (run {} [.make 1, .make 2]) [.publish 1 5, .flush, .next, .publish 1 6, .collect 1] 1
  (by decide) (by decide)
example := C101_removed (run {} [.make 1, .make 2, .publish 1 7]) [.publish 1 5, .flush, .next, .next] 1 (by decide) (by decide)

/-- Two flushes of one logger, with an event between: in order, and once each. -/
example : published 1 [.make 1, .publish 1 7, .publish 2 5, .flush, .next, .publish 1 8, .flush, .next] = [7, 8] ∧
    (run {} [.make 1, .publish 1 7, .publish 2 5, .flush, .next, .publish 1 8, .flush, .next]).got 1 = [7, 8] := by decide

/-- The hypotheses can be met, with the logger dropped, removed and up for collection during the flush. -/
example : let s := run {} [.make 1, .make 2]
    2 ∈ s.table ∧ 2 ∈ s.refs ∧ FlushRun (run s [.publish 2 9, .publish 1 5]) [.drop 2, .remove 2, .collect 2, .next, .next] ∧
    (run s [.publish 2 9, .publish 1 5, .flush, .drop 2, .remove 2, .collect 2, .next, .next]).got 2 = [9] := by
  refine ⟨by decide, by decide, ⟨by decide, by decide, by decide⟩, by decide⟩

/-- What is delivered was published: nothing comes from a logger made later under the same identity. -/
example : (run {} [.make 1, .publish 1 7, .drop 1, .collect 1, .make 1, .publish 1 8, .flush, .next]).got 1 = [8] := by
  decide

example := C101_kept_partial (run {} [.make 1, .make 2]) [.publish 1 5] [.drop 2, .remove 2, .collect 2, .next, .next] 2 9
  (by decide) (by decide) (by decide) ⟨by decide, by decide, by decide⟩

end Verif.Weak
