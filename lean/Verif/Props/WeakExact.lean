import Verif.Props.Weak
import Mathlib.Data.List.Induction
/-!
# C101: when exactly queued events are lost
-/
namespace Verif.Weak
open scoped List

/-- The garbage collector takes the logger while events are queued on it: nothing refers to it, and no flush under way holds it. -/
def TakenWithEvents (ops : List Op) (l : LogId) : Prop :=
  ∃ p q, ops = p ++ .collect l :: q ∧ l ∉ (run {} p).refs ∧ l ∉ (run {} p).snap ∧ (run {} p).queue l ≠ []

/-- A history as Python allows it: a logger is made once, and publishing on it takes a reference to it. -/
def Proper (ops : List Op) (l : LogId) : Prop :=
  (∀ p q, ops = p ++ .make l :: q → Op.make l ∉ p) ∧ ∀ p e q, ops = p ++ .publish l e :: q → l ∈ (run {} p).refs

/-- Before it is made, nothing is known of a logger. -/
theorem unmade {ops : List Op} {l : LogId} (h : Op.make l ∉ ops) :
    l ∉ (run {} ops).table ∧ l ∉ (run {} ops).refs ∧ l ∉ (run {} ops).snap ∧ (run {} ops).queue l = [] := by
  induction ops using List.reverseRecOn with
  | nil => simp [run]
  | append_singleton ops o ih =>
    have ⟨h1, h2, h3, h4⟩ := ih fun h' => h (List.mem_append_left _ h')
    rw [run_append, run_cons]
    show l ∉ (step (run {} ops) o).table ∧ l ∉ (step (run {} ops) o).refs ∧ l ∉ (step (run {} ops) o).snap ∧ (step (run {} ops) o).queue l = []
    cases o with
    | make m =>
      have hne : l ≠ m := by rintro rfl; exact h (by simp)
      simp only [step]
      split
      · exact ⟨h1, h2, h3, h4⟩
      · exact ⟨by simp [h1, hne], by simp [h2, hne], h3, by simp [h4]⟩
    | publish m e =>
      simp only [step]
      split
      · next hm =>
        have hne : l ≠ m := by rintro rfl; exact h2 hm
        exact ⟨h1, h2, h3, by simp [hne, h4]⟩
      · exact ⟨h1, h2, h3, h4⟩
    | drop m => exact ⟨h1, by simp [step, h2], h3, h4⟩
    | collect m =>
      simp only [step]
      split
      · exact ⟨h1, h2, h3, h4⟩
      · exact ⟨by simp [h1], h2, h3, by simp [h4]⟩
    | remove m => exact ⟨by simp [step, h1], h2, h3, h4⟩
    | flush => simp only [step]; split <;> exact ⟨h1, h2, by assumption, h4⟩
    | next =>
      simp only [step]
      split
      · exact ⟨h1, h2, h3, h4⟩
      · next m ls hs =>
        rw [hs] at h3
        exact ⟨h1, h2, fun h => h3 (List.mem_cons_of_mem _ h), by simp [h4]⟩

theorem published_append (l : LogId) (a b : List Op) : published l (a ++ b) = published l a ++ published l b := by
  simp [published]

theorem taken_append {ops : List Op} {o : Op} {l : LogId} : TakenWithEvents (ops ++ [o]) l ↔
    TakenWithEvents ops l ∨ o = .collect l ∧ l ∉ (run {} ops).refs ∧ l ∉ (run {} ops).snap ∧ (run {} ops).queue l ≠ [] := by
  constructor
  · rintro ⟨p, q, h, h1⟩
    rcases List.eq_nil_or_concat q with rfl | ⟨q', o', rfl⟩
    · obtain ⟨rfl, h2⟩ := List.append_inj' h rfl
      simp only [List.cons.injEq, and_true] at h2
      exact .inr ⟨h2, h1⟩
    · rw [List.concat_eq_append, ← List.cons_append, ← List.append_assoc] at h
      obtain ⟨rfl, -⟩ := List.append_inj' h rfl
      exact .inl ⟨p, q', rfl, h1⟩
  · rintro (⟨p, q, rfl, h1⟩ | ⟨rfl, h1⟩)
    · exact ⟨p, q ++ [o], by simp, h1⟩
    · exact ⟨ops, [], rfl, h1⟩

/-- **C101, exactly.**  What was delivered and what is still queued, together, is all that was published, in order, if and only if the
garbage collector never took the logger while events were queued on it. -/
theorem C101_lost_exact (ops : List Op) (l : LogId) (hp : Proper ops l) :
    (run {} ops).got l ++ (run {} ops).queue l = published l ops ↔ ¬ TakenWithEvents ops l := by
  induction ops using List.reverseRecOn with
  | nil =>
    refine iff_of_true (by simp [run, published]) ?_
    rintro ⟨p, q, h, -⟩; simp at h
  | append_singleton ops o ih =>
    have hp' : Proper ops l :=
      ⟨fun p q h => hp.1 p (q ++ [o]) (by simp [h]), fun p e q h => hp.2 p e (q ++ [o]) (by simp [h])⟩
    replace ih := ih hp'
    have hsub := C101_once_partial ops l
    rw [taken_append, published_append, run_append, not_or, ← ih]
    show (step (run {} ops) o).got l ++ (step (run {} ops) o).queue l = _ ↔ _
    -- steps that keep what there is
    have keep : ∀ {X : List Ev}, o ≠ .collect l → X = (run {} ops).got l ++ (run {} ops).queue l ++ published l [o] →
        (X = published l ops ++ published l [o] ↔ (run {} ops).got l ++ (run {} ops).queue l = published l ops ∧
          ¬ (o = .collect l ∧ l ∉ (run {} ops).refs ∧ l ∉ (run {} ops).snap ∧ (run {} ops).queue l ≠ [])) := by
      rintro X ho rfl
      rw [List.append_cancel_right_eq]
      exact ⟨fun h => ⟨h, fun h' => ho h'.1⟩, fun h => h.1⟩
    cases o with
    | make m =>
      refine keep (by simp) ?_
      simp only [step]
      split
      · simp [published]
      · by_cases hne : l = m
        · subst hne
          have := (unmade (hp.1 ops [] (by simp))).2.2.2
          simp [published, this]
        · simp [published, hne]
    | publish m e =>
      refine keep (by simp) ?_
      by_cases hne : l = m
      · subst hne
        have := hp.2 ops e [] (by simp)
        simp [step, this, published]
      · simp only [step]
        split <;> simp [published, hne, Ne.symm hne]
    | drop m => exact keep (by simp) (by simp [step, published])
    | remove m => exact keep (by simp) (by simp [step, published])
    | flush => exact keep (by simp) (by simp only [step]; split <;> simp [published])
    | next =>
      refine keep (by simp) ?_
      simp only [step]
      split
      · simp [published]
      · next m ls hs =>
        by_cases hne : l = m
        · subst hne; simp [published]
        · simp [published, hne]
    | collect m =>
      by_cases hne : l = m
      · subst hne
        simp only [step]
        split
        · next h =>
          refine ⟨fun h' => ⟨by simpa [published] using h', fun h' => ?_⟩, fun h' => by simpa [published] using h'.1⟩
          exact h.elim h'.2.1 h'.2.2.1
        · next h =>
          have h1 : l ∉ (run {} ops).refs := fun h' => h (.inl h')
          have h2 : l ∉ (run {} ops).snap := fun h' => h (.inr h')
          simp only [h1, h2, not_false_eq_true, true_and, if_true, List.append_nil]
          have hpn : published l [Op.collect l] = [] := rfl
          rw [hpn, List.append_nil]
          constructor
          · intro hg
            have hl := hsub.length_le
            rw [List.length_append, ← hg] at hl
            have hq : (run {} ops).queue l = [] := List.eq_nil_of_length_eq_zero (by omega)
            exact ⟨by rw [hq, List.append_nil]; exact hg, by simp [hq]⟩
          · rintro ⟨hg, hq⟩
            have hq' : (run {} ops).queue l = [] := by simpa using hq
            rw [hq', List.append_nil] at hg
            exact hg
      · refine keep (by simpa using Ne.symm hne) ?_
        simp only [step]
        split <;> simp [published, hne]

/-- **C101, exactly, of a flush.**  What was queued on a logger when `context.flush()` was called has been delivered, after what was
delivered before and in order, when it returns, if the logger was registered then; if not, this flush delivers nothing to it.  The
garbage collector, the application and other calls may do anything meanwhile. -/
theorem C101_flush_exact (s : Sys) (mid : List Op) (l : LogId) (hf : FlushRun s mid) (hm : Op.make l ∉ mid) :
    if l ∈ s.table then s.got l ++ s.queue l <+: (run s (.flush :: mid)).got l
    else (run s (.flush :: mid)).got l = s.got l := by
  obtain ⟨h1, h2, h3⟩ := hf
  rw [run_cons]
  have h8 : step s .flush = { s with snap := s.table } := by simp [step, h1]
  split
  · next ht =>
    suffices H : ∀ s1 : Sys, (l ∈ s1.snap ∧ s.got l ++ s.queue l <+: s1.got l ++ s1.queue l ∨ s.got l ++ s.queue l <+: s1.got l) →
        (run s1 mid).snap = [] → s.got l ++ s.queue l <+: (run s1 mid).got l by
      exact H _ (by rw [h8]; exact .inl ⟨ht, List.prefix_refl _⟩) h3
    clear h3 h8
    induction mid with
    | nil =>
      rintro s1 (⟨a, -⟩ | b) hn
      · rw [show (run s1 []).snap = s1.snap from rfl] at hn
        rw [hn] at a; exact absurd a (by simp)
      · exact b
    | cons o mid ih =>
      intro s1 h hn
      rw [run_cons] at hn ⊢
      refine ih (fun h' => hm (List.mem_cons_of_mem _ h')) (fun h' => h2 (List.mem_cons_of_mem _ h')) _ ?_ hn
      rcases h with ⟨a, b⟩ | b
      · cases o with
        | make m =>
          have hne : l ≠ m := by rintro rfl; exact hm List.mem_cons_self
          simp only [step]
          split
          · exact .inl ⟨a, b⟩
          · exact .inl ⟨a, by simpa [hne] using b⟩
        | publish m e =>
          simp only [step]
          split
          · refine .inl ⟨a, ?_⟩
            by_cases hne : l = m
            · subst hne
              simp only [if_true]
              rw [← List.append_assoc]
              exact b.trans (List.prefix_append _ _)
            · simpa [hne] using b
          · exact .inl ⟨a, b⟩
        | drop m => exact .inl ⟨a, b⟩
        | remove m => exact .inl ⟨a, b⟩
        | flush => exact absurd List.mem_cons_self h2
        | collect m =>
          simp only [step]
          split
          · exact .inl ⟨a, b⟩
          · next hn' =>
            have hne : l ≠ m := by rintro rfl; exact hn' (.inr a)
            exact .inl ⟨a, by simpa [hne] using b⟩
        | next =>
          simp only [step]
          split
          · exact .inl ⟨a, b⟩
          · next m ls hs =>
            by_cases hne : l = m
            · subst hne; exact .inr (by simpa using b)
            · rw [hs] at a
              refine .inl ⟨(List.mem_cons.1 a).resolve_left hne, ?_⟩
              simpa [hne] using b
      · right
        cases o with
        | next =>
          simp only [step]
          split
          · exact b
          · dsimp only
            split
            · next h' => subst h'; exact b.trans (List.prefix_append _ _)
            · exact b
        | make m => simp only [step]; split <;> exact b
        | publish m e => simp only [step]; split <;> exact b
        | collect m => simp only [step]; split <;> exact b
        | flush => simp only [step]; split <;> exact b
        | drop m => exact b
        | remove m => exact b
  · next ht =>
    suffices H : ∀ s1 : Sys, l ∉ s1.snap → (run s1 mid).got l = s1.got l by
      rw [H _ (by rw [h8]; exact ht), h8]
    clear h3 h8
    induction mid with
    | nil => intro s1 _; rfl
    | cons o mid ih =>
      intro s1 hn
      rw [run_cons]
      suffices h : l ∉ (step s1 o).snap ∧ (step s1 o).got l = s1.got l by
        rw [ih (fun h' => hm (List.mem_cons_of_mem _ h')) (fun h' => h2 (List.mem_cons_of_mem _ h')) _ h.1, h.2]
      cases o with
      | make m => simp only [step]; split <;> exact ⟨hn, rfl⟩
      | publish m e => simp only [step]; split <;> exact ⟨hn, rfl⟩
      | drop m => exact ⟨hn, rfl⟩
      | remove m => exact ⟨hn, rfl⟩
      | collect m => simp only [step]; split <;> exact ⟨hn, rfl⟩
      | flush => exact absurd List.mem_cons_self h2
      | next =>
        simp only [step]
        split
        · exact ⟨hn, rfl⟩
        · next m ls hs =>
          rw [hs] at hn
          have hne : l ≠ m := by rintro rfl; exact hn List.mem_cons_self
          exact ⟨fun h => hn (List.mem_cons_of_mem _ h), by simp [hne]⟩

/-- A history in which the collector takes a logger with an event, and one in which it comes too late. -/
example : TakenWithEvents [.make 1, .publish 1 7, .drop 1, .collect 1, .flush] 1 :=
  ⟨[.make 1, .publish 1 7, .drop 1], [.flush], rfl, by decide, by decide, by decide⟩

example : (run {} [.make 1, .publish 1 7, .drop 1, .flush, .collect 1, .next, .collect 1]).got 1 = [7] ∧
    (run {} [.make 1, .publish 1 7, .drop 1, .flush, .collect 1, .next, .collect 1]).table = [] := by decide

/-- The hypotheses can be met: the logger is taken with an event, and what was published is neither delivered nor queued. -/
example : Proper [.make 1, .publish 1 7, .drop 1, .collect 1] 1 ∧
    ¬ ((run {} [.make 1, .publish 1 7, .drop 1, .collect 1]).got 1 ++ (run {} [.make 1, .publish 1 7, .drop 1, .collect 1]).queue 1 =
      published 1 [.make 1, .publish 1 7, .drop 1, .collect 1]) := by
  have hp : Proper [.make 1, .publish 1 7, .drop 1, .collect 1] 1 := by
    constructor
    · intro p q h
      rcases p with _ | ⟨_, _ | ⟨_, _ | ⟨_, _ | ⟨_, p⟩⟩⟩⟩ <;> simp_all
    · intro p e q h
      rcases p with _ | ⟨_, _ | ⟨_, _ | ⟨_, _ | ⟨_, p⟩⟩⟩⟩ <;> simp_all
      obtain ⟨rfl, -⟩ := h
      decide
  exact ⟨hp, fun h => (C101_lost_exact _ 1 hp).1 h ⟨[.make 1, .publish 1 7, .drop 1], [], rfl, by decide, by decide, by decide⟩⟩

example := C101_flush_exact (run {} [.make 1, .publish 1 7]) [.drop 1, .collect 1, .next] 1 ⟨by decide, by decide, by decide⟩ (by decide)

end Verif.Weak
