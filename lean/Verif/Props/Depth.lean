import Verif.Model.Depth
import Verif.Spec.Depth
import Verif.Spec.Samples
/-!
# C06: `parent_depth`
-/
namespace Verif

theorem Climbs.mono {par : ActId → Option ActId} {n m : Nat} {a : ActId} (h : Climbs par n a) (hm : m ≤ n) :
    Climbs par m a := by
  induction h generalizing m with
  | zero => obtain rfl : m = 0 := by omega
            exact .zero _
  | succ hp _ ih =>
    cases m with
    | zero => exact .zero _
    | succ m => exact .succ hp (ih (by omega))

theorem depthLoop_spec (par : ActId → Option ActId) (k : Nat) : ∀ (a : ActId) (i : Nat), i ≤ 500 → 500 - i = k →
    i ≤ depthLoop par a i ∧ depthLoop par a i ≤ 500 ∧
      ∀ n, i + n ≤ 500 → (i + n ≤ depthLoop par a i ↔ Climbs par n a) := by
  induction k with
  | zero =>
    intro a i hi hk
    have : i = 500 := by omega
    subst this
    have h : depthLoop par a 500 = 500 := by
      unfold depthLoop
      split <;> simp
    rw [h]
    refine ⟨Nat.le_refl _, Nat.le_refl _, ?_⟩
    intro n hn
    obtain rfl : n = 0 := by omega
    exact ⟨fun _ => .zero _, fun _ => Nat.le_refl _⟩
  | succ k ih =>
    intro a i hi hk
    unfold depthLoop
    cases hp : par a with
    | none =>
      refine ⟨Nat.le_refl _, hi, ?_⟩
      intro n _
      constructor
      · intro h
        obtain rfl : n = 0 := by dsimp only at h; omega
        exact .zero _
      · intro h
        cases h with
        | zero => exact Nat.le_refl _
        | succ h _ => rw [hp] at h; cases h
    | some p =>
      have hlt : i < 500 := by omega
      simp only [hlt, if_true]
      obtain ⟨h1, h2, h3⟩ := ih p (i + 1) (by omega) (by omega)
      refine ⟨by omega, h2, ?_⟩
      intro n hn
      cases n with
      | zero => exact ⟨fun _ => .zero _, fun _ => by omega⟩
      | succ n =>
        have := h3 n (by omega)
        rw [show i + (n + 1) = i + 1 + n by omega, this]
        constructor
        · exact fun h => .succ hp h
        · intro h
          cases h with
          | succ h' h'' => rw [hp] at h'; cases h'; exact h''

/-- **C06.**  For every parent graph, cyclic or not, `parent_depth` (a total function: it terminates) is at
most 500, and below that bound it counts exactly the steps that can be taken along the parent links. -/
theorem parent_depth_counts (par : ActId → Option ActId) (a : ActId) :
    parentDepth par a ≤ 500 ∧ ∀ n, n ≤ 500 → (n ≤ parentDepth par a ↔ Climbs par n a) := by
  obtain ⟨_, h2, h3⟩ := depthLoop_spec par 500 a 0 (by omega) rfl
  exact ⟨h2, fun n hn => by simpa [parentDepth] using h3 n (by omega)⟩

/-- **C06**, as an equation: if exactly `n` steps can be taken, the depth is `min 500 n`. -/
theorem parent_depth_eq (par : ActId → Option ActId) (a : ActId) (n : Nat) (h : Climbs par n a)
    (hmax : ¬ Climbs par (n + 1) a) : parentDepth par a = min 500 n := by
  obtain ⟨h1, h2⟩ := parent_depth_counts par a
  by_cases hn : n < 500
  · have a1 := (h2 n (by omega)).2 h
    have a2 : ¬ n + 1 ≤ parentDepth par a := fun h' => hmax ((h2 (n + 1) (by omega)).1 h')
    omega
  · have := (h2 500 (by omega)).2 (h.mono (by omega))
    omega

/-- **C06**, cycles: if one can climb for ever, the depth is 500. -/
theorem parent_depth_cyclic (par : ActId → Option ActId) (a : ActId) (h : ∀ n, Climbs par n a) :
    parentDepth par a = 500 := by
  obtain ⟨h1, h2⟩ := parent_depth_counts par a
  have := (h2 500 (by omega)).2 (h 500)
  omega

/-- A chain of three. -/
example : Climbs (fun a => if a = 3 then some 2 else if a = 2 then some 1 else none) 2 3 ∧
    ¬ Climbs (fun a => if a = 3 then some 2 else if a = 2 then some 1 else none) 3 3 := by
  refine ⟨.succ (p := 2) rfl (.succ (p := 1) rfl (.zero _)), ?_⟩
  intro h
  cases h with
  | succ h1 h2 =>
    cases h1
    cases h2 with
    | succ h1 h2 => cases h1; cases h2; contradiction

/-- A self-parented action. -/
example : ∀ n, Climbs (fun a => some a) n 0 := by
  intro n
  induction n with
  | zero => exact .zero _
  | succ n ih => exact .succ rfl ih

/-- The depth of an action made inside two nested blocks. -/
example :
    let w := run Sample.quiet World.init (Sample.setup ++
      [Sample.mk "a", .enter 0, Sample.mk "b", .enter 2, Sample.mk "c"])
    w.par 4 = some 2 ∧ w.par 2 = some 0 ∧ w.par 0 = none := by decide

end Verif
