import Verif.Props.Interrupt
/-!
# C106: which interruptions leave which action active
-/
namespace Verif.Interrupt

/-- What interrupted steps of `__exit__` leave active: what was active before them. -/
theorem exit_hit_active (a : ActId) (parent : Option ActId) (st : Status) (s : S) (n : Option Nat)
    (h : (steps (some a) (exitSteps a parent st) s n).2.2.1 = true) :
    (steps (some a) (exitSteps a parent st) s n).1.active = s.active := by
  cases n with
  | none => simp [exitSteps, steps] at h
  | some n => rcases n with _ | _ | _ | _ | _ | n <;> simp [exitSteps, steps] at h ⊢

/-- What interrupted steps of `__enter__` leave active. -/
theorem enter_hit_active (a : ActId) (s : S) (n : Option Nat) (h : (steps (some a) (enterSteps a) s n).2.2.1 = true) :
    (steps (some a) (enterSteps a) s n).1.active = if n = some 0 ∨ n = some 1 then s.active else some a := by
  cases n with
  | none => simp [enterSteps, steps] at h
  | some n =>
    rcases n with _ | _ | n
    · simp [enterSteps, steps]
    · simp [enterSteps, steps]
    · rcases n with _ | _ | _ | n <;> simp [enterSteps, steps] at h ⊢

/-- **C106, exactly, of a block.**  After a with block the active action is what it was before it, wherever inside it the exception
came, if and only if it did not come in the block's own `__enter__` after the action had been made active, or in its own `__exit__`;
otherwise the block's action is the active one. -/
theorem C106_block_exact (w : Bool) (p : Prog) (s : S) (en : Option Status) (n : Option Nat) :
    (exec (.block w p) s en n).s.active =
      if (exec (.block w p) s en n).hit = some s.next ∧ n ≠ some 1 ∧ n ≠ some 2 then some s.next else s.active := by
  rcases Classical.em ((exec (.block w p) s en n).hit = some s.next) with hh | hh
  case inr => rw [if_neg fun h => hh h.1]; exact C106_repaired_partial w p s en n hh
  simp only [hh, true_and]
  simp only [exec] at hh ⊢
  cases n with
  | none =>
    exfalso
    have := (exec_fuel (.block w p) s en).2
    simp only [exec] at this
    rw [this] at hh; cases hh
  | some n =>
  cases n with
  | zero => simp [steps] at hh
  | succ n =>
    have e1 : steps none [fun s : S => { s with next := s.next + 1 }] s (some (n + 1)) =
        ({ s with next := s.next + 1 }, some n, false, none) := by simp [steps_cons, steps]
    rw [e1] at hh ⊢
    simp only [Bool.false_eq_true, if_false] at hh ⊢
    generalize h2 : steps (some s.next) (enterSteps s.next) { s with next := s.next + 1 } (some n) = q2 at hh ⊢
    obtain ⟨s2, n2, raised2, hit2⟩ := q2
    cases raised2 with
    | true =>
      have := enter_hit_active s.next { s with next := s.next + 1 } (some n) (by rw [h2])
      rw [h2] at this
      simp only [if_true] at hh ⊢
      rw [this]
      by_cases h : n = 0 ∨ n = 1
      · rw [if_pos (by simpa using h), if_neg (by simp; omega)]
      · rw [if_neg (by simpa using h), if_pos (by simp; omega)]
    | false =>
      simp only [Bool.false_eq_true, if_false] at hh ⊢
      have hs2 := (steps_done (some s.next) _ { s with next := s.next + 1 } (some n) (by rw [h2])).1
      rw [h2] at hs2
      dsimp only at hs2
      have hact : s2.active = some s.next := by rw [hs2]; rfl
      have hnext : s.next < s2.next := by rw [hs2]; exact Nat.lt_succ_self _
      have hn : ¬ (n = 0 ∨ n = 1) := by
        rintro (rfl | rfl) <;> simp [enterSteps, steps] at h2
      rw [show (if some (n + 1) ≠ some 1 ∧ some (n + 1) ≠ some 2 then some s.next else s.active) = some s.next from
        if_pos ⟨by simp; omega, by simp; omega⟩]
      have hb := exec_rel p s2 none n2
      generalize exec p s2 none n2 = r at hb hh ⊢
      generalize (if r.raised = true then Status.exception else r.ended.getD .success) = st at hh ⊢
      generalize h4 : steps (some s.next) (exitSteps s.next s.active st) r.s r.fuel = q4 at hh ⊢
      obtain ⟨s4, n4, raised4, hit4⟩ := q4
      have hrn : r.hit = none := by
        cases hr : r.hit with
        | none => rfl
        | some b =>
          simp only [hr, Option.some_or, Option.some.injEq] at hh
          have := (hb.hitNew b hr).1
          rw [hh] at this
          omega
      cases raised4 with
      | true =>
        have := exit_hit_active s.next s.active st r.s r.fuel (by rw [h4])
        rw [h4] at this
        dsimp only at this ⊢
        rw [this, hb.active hrn, hact]
      | false =>
        have := (steps_done (some s.next) _ r.s r.fuel (by rw [h4])).2
        rw [h4] at this
        dsimp only at this
        simp [hrn, this] at hh

/-- **C106, exactly, of a program.**  Wherever the exception came, afterwards the active action is what it was before, or the action
whose `__enter__` or `__exit__` was interrupted. -/
theorem C106_active_either (p : Prog) (s : S) (en : Option Status) (n : Option Nat) :
    (exec p s en n).s.active = s.active ∨ (exec p s en n).hit ≠ none ∧ (exec p s en n).s.active = (exec p s en n).hit := by
  -- what runs after a piece of program that was interrupted or not
  have after : ∀ (q : Prog) (r : Res) (s : S), Rel s r → (r.s.active = s.active ∨ r.hit ≠ none ∧ r.s.active = r.hit) →
      (∀ s en n, (exec q s en n).s.active = s.active ∨ (exec q s en n).hit ≠ none ∧ (exec q s en n).s.active = (exec q s en n).hit) →
      ((exec q r.s r.ended r.fuel).s.active = s.active ∨
        r.hit.or (exec q r.s r.ended r.fuel).hit ≠ none ∧ (exec q r.s r.ended r.fuel).s.active = r.hit.or (exec q r.s r.ended r.fuel).hit) := by
    intro q r s hrel h1 hq
    cases hr : r.hit with
    | none =>
      have ha := hrel.active hr
      rw [Option.none_or, ← ha]
      exact hq _ _ _
    | some b =>
      have hf : r.fuel = none := hrel.hitRaised.resolve_left (by simp [hr])
      rw [hf, C106_active_partial q _ _ _ (exec_fuel ..).2, Option.some_or]
      rw [hr] at h1
      exact h1
  induction p generalizing s en n with
  | skip => exact .inl rfl
  | raise => exact .inl rfl
  | mark st =>
    left
    simp only [exec, steps_cons, steps]
    split <;> rfl
  | seq p q ihp ihq =>
    simp only [exec]
    split
    · exact ihp s en n
    · exact after q _ s (exec_rel p s en n) (ihp s en n) ihq
  | try_ p q ihp ihq =>
    simp only [exec]
    split
    · exact after q _ s (exec_rel p s en n) (ihp s en n) ihq
    · exact ihp s en n
  | block w p _ =>
    have h := C106_block_exact w p s en n
    by_cases hc : (exec (.block w p) s en n).hit = some s.next ∧ n ≠ some 1 ∧ n ≠ some 2
    · rw [if_pos hc] at h
      exact .inr ⟨by rw [hc.1]; simp, by rw [h, hc.1]⟩
    · rw [if_neg hc] at h
      exact .inl h

/-- Interrupted in the inner block's `__enter__` before and after the action is made active, and in the outer block's `__exit__`. -/
example : (exec (.block false .skip) {} none (some 2)).s.active = none ∧ (exec (.block false .skip) {} none (some 2)).hit = some 0 ∧
    (exec (.block false .skip) {} none (some 3)).s.active = some 0 ∧
    (exec two {} none (some 20)).s.active = some 0 := by decide

end Verif.Interrupt
