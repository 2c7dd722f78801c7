import Verif.Props.Frames
/-!
# C94: exactly which module a new logger gets
-/
namespace Verif.Frames

theorem back_iff (n : Nat) : ∀ (fs : List Frame) (m : String),
    back n fs = .module m ↔ ∃ f, fs[n]? = some f ∧ m = f.module.getD "<module>" := by
  induction n with
  | zero =>
    intro fs m
    cases fs with
    | nil => simp [back]
    | cons f fs => simp [back, eq_comm]
  | succ n ih =>
    intro fs m
    cases fs with
    | nil => simp [back]
    | cons f fs => simp [back, ih]

theorem search_iff (offset : Nat) : ∀ (fs : List Frame) (i : Nat) (m : String),
    search offset i fs = .module m ↔ ∃ k, i + k < 10000 ∧ (∀ j < k, ∀ g, fs[j]? = some g → g.self ≠ .other) ∧
      (∃ g, fs[k]? = some g ∧ g.self = .other) ∧ ∃ f, fs[k + offset]? = some f ∧ m = f.module.getD "<module>" := by
  intro fs
  induction fs with
  | nil => intro i m; simp [search]
  | cons f fs ih =>
    intro i m
    rw [search]
    split
    · rename_i hi
      refine ⟨fun h => by simp at h, fun ⟨k, hk, _⟩ => by omega⟩
    · rename_i hi
      split
      · rename_i hs
        have hne : f.self ≠ .other := by rcases hs with h | h <;> rw [h] <;> simp
        rw [ih]
        constructor
        · rintro ⟨k, h1, h2, h3, h4⟩
          refine ⟨k + 1, by omega, ?_, by simpa using h3, ?_⟩
          · intro j hj g hg
            cases j with
            | zero => simp at hg; rw [← hg]; exact hne
            | succ j => exact h2 j (by omega) g (by simpa using hg)
          · rw [show k + 1 + offset = k + offset + 1 by omega, List.getElem?_cons_succ]; exact h4
        · rintro ⟨k, h1, h2, ⟨g, h3, h3'⟩, h4⟩
          cases k with
          | zero => simp at h3; rw [← h3] at h3'; exact absurd h3' hne
          | succ k =>
            refine ⟨k, by omega, ?_, ⟨g, by simpa using h3, h3'⟩, ?_⟩
            · intro j hj g hg
              exact h2 (j + 1) (by omega) g (by simpa using hg)
            · rw [show k + 1 + offset = k + offset + 1 by omega, List.getElem?_cons_succ] at h4; exact h4
      · rename_i hs
        have ho : f.self = .other := by
          cases hf : f.self with
          | other => rfl
          | logger => exact absurd (Or.inl hf) hs
          | loggerClass => exact absurd (Or.inr hf) hs
        rw [back_iff]
        constructor
        · rintro ⟨g, h1, h2⟩
          exact ⟨0, by omega, by intro j hj; omega, ⟨f, rfl, ho⟩, g, by rw [Nat.zero_add]; exact h1, h2⟩
        · rintro ⟨k, h1, h2, h3, h4⟩
          cases k with
          | zero => rw [Nat.zero_add] at h4; exact h4
          | succ k => exact absurd ho (h2 0 (by omega) f rfl)

/-- **C94**, exactly, for every stack: a logger made without naming a module gets the module of the frame that is `offset` calls
outside of the first frame, among the ten thousand innermost ones, whose variable `self` is no logger; and there is no module, but an
exception, exactly if there is no such frame. -/
theorem C94_exact (offset : Nat) (stack : List Frame) (m : String) :
    moduleOf none offset stack = .module m ↔ ∃ k < 10000, (∀ j < k, ∀ g, stack[j]? = some g → g.self ≠ .other) ∧
      (∃ g, stack[k]? = some g ∧ g.self = .other) ∧ ∃ f, stack[k + offset]? = some f ∧ m = f.module.getD "<module>" := by
  have := search_iff offset stack 0 m
  simpa [moduleOf] using this

example : moduleOf none 1 [⟨.logger, some "lithoxyl.logger"⟩, ⟨.other, some "factory"⟩, ⟨.logger, some "app"⟩] = .module "app" :=
  (C94_exact _ _ _).2 ⟨1, by omega, by intro j hj g hg; obtain rfl : j = 0 := by omega
                                       simp at hg; rw [← hg]; decide, ⟨_, rfl, rfl⟩, _, rfl, rfl⟩

end Verif.Frames
