import Verif.Props.Level
import Verif.Props.Guid
import Verif.Props.Actor
import Mathlib.Tactic.ByContra
/-!
# C11, C26, C32: exactly when the claims fail
-/

namespace Verif.Lvl

/-- C32, exactly: the comparisons of a collection of levels agree with each other and with the hashes if and only if the same name
means the same value and the other way round.  (`h` is injective: no two names have the same hash.) -/
theorem C32_exact {S : Set Level} {h : String → Nat} (hh : Function.Injective h) :
    (∀ a ∈ S, ∀ b ∈ S, (eq a b = true → hash h a = hash h b) ∧ ¬ (eq a b = true ∧ lt a b = true)) ↔ Consistent S := by
  constructor
  · intro H a ha b hb
    constructor
    · intro hn
      have e1 : eq a b = true := by simp only [eq]; split <;> simp [hn]
      have e2 : eq b a = true := by simp only [eq]; split <;> simp [hn]
      have h1 : ¬ a.value < b.value := fun hl => (H a ha b hb).2 ⟨e1, (lt_iff a b).2 hl⟩
      have h2 : ¬ b.value < a.value := fun hl => (H b hb a ha).2 ⟨e2, (lt_iff b a).2 hl⟩
      omega
    · intro hv
      have e1 : eq a b = true := by simp only [eq]; split <;> simp [hv]
      exact hh ((H a ha b hb).1 e1)
  · intro hS a ha b hb
    obtain ⟨-, h2, h3, h4, -⟩ := C32_consistent_partial hS h ha hb hb
    refine ⟨h2, fun ⟨h5, h6⟩ => ?_⟩
    rw [h3] at h5
    rw [h4] at h6
    omega

/-- The levels out of the box are consistent, a second level of one name is not. -/
example {h : String → Nat} (hh : Function.Injective h) :
    ¬ ∀ a ∈ ({⟨10, "audit", 30⟩, ⟨11, "audit", 40⟩} : Set Level), ∀ b ∈ ({⟨10, "audit", 30⟩, ⟨11, "audit", 40⟩} : Set Level),
      (eq a b = true → hash h a = hash h b) ∧ ¬ (eq a b = true ∧ lt a b = true) := by
  rw [C32_exact hh]
  intro H
  have := (H ⟨10, "audit", 30⟩ (by simp) ⟨11, "audit", 40⟩ (by simp)).1 rfl
  simp at this

end Verif.Lvl

namespace Verif.Guid

theorem hex_one_digit {n : Nat} (h : n < 16) : (hex n).length = 1 := by
  rw [hex_small h]; rfl

theorem same_length {n : Nat} (h : ∀ k, n + 1 ≠ 16 ^ (k + 1)) : (hex n).length = (hex (n + 1)).length := by
  rcases Nat.eq_zero_or_pos n with rfl | hn
  · rw [hex_one_digit (by omega), hex_one_digit (by omega)]
  · obtain ⟨k, hk⟩ : ∃ k, (hex n).length = k + 1 := ⟨(hex n).length - 1, by
      have := List.length_pos_iff.2 (hex_ne_nil n); omega⟩
    have hk' := (hex_length_iff k n hn).1 hk
    have hne := h k
    rw [hk, (hex_length_iff k (n + 1) (by omega)).2 ⟨by omega, by omega⟩]

/-- C11, exactly: the guid of an action sorts before that of the next one unless the number behind the latter is a power of 16 (from
16 on), that is, unless the guids grow by a digit there. -/
theorem C11_order_exact (s : Seed) (i : Nat) :
    hex (s.start + i) < hex (s.start + (i + 1)) ↔ ∀ k, s.start + (i + 1) ≠ 16 ^ (k + 1) := by
  constructor
  · intro hlt k hk
    have hp : 0 < 16 ^ (k + 1) := Nat.pow_pos (by omega)
    have e : s.start + i = 16 ^ (k + 1) - 1 := by omega
    rw [hk, e, hex_last] at hlt
    obtain ⟨t, ht⟩ := hex_first k
    rw [ht, List.replicate_succ, List.cons_lt_cons_iff] at hlt
    rcases hlt with h | h
    · omega
    · exact absurd h.1 (by decide)
  · intro h
    exact (C11_order_partial s i (i + 1) (same_length (n := s.start + i) h)).2 (by omega)

example : hex 160 < hex 161 := (C11_order_exact ⟨1, 160⟩ 0).2 (by
  intro k hk
  have hk' : 161 = 16 ^ (k + 1) := hk
  rw [Nat.pow_succ] at hk'
  omega)

example : ¬ hex 255 < hex 256 := fun h => (C11_order_exact ⟨1, 255⟩ 0).1 h 1 (by decide)

end Verif.Guid

namespace Verif.Actor

variable {K : Type} [Field K] [LinearOrder K]

/-- C26, with `max_interval` below `interval`: after any number of calls of the task that all return the wait is longer by an eighth of
the difference for each of them. -/
theorem C26_reversed_exact [IsStrictOrderedRing K] (cf : Conf K) (hm : cf.max ≤ cf.orig) (ls : List Lab) (k : Nat)
    (h : (run cf (init cf) ls).outs = List.replicate k .ok) :
    (run cf (init cf) ls).interval = cf.orig + k * ((cf.orig - cf.max) / 8) := by
  rw [interval_outs, h]
  clear h
  have hd : 0 ≤ (cf.orig - cf.max) / 8 := div_nonneg (by linarith) (by norm_num)
  induction k with
  | zero => simp
  | succ k ih =>
    rw [List.replicate_succ, List.foldr_cons, next_ok, ih]
    have hk : 0 ≤ (k : K) * ((cf.orig - cf.max) / 8) := mul_nonneg (Nat.cast_nonneg k) hd
    have e : (cf.max - cf.orig) / 8 = -((cf.orig - cf.max) / 8) := by ring
    rw [e, max_eq_left (by linarith)]
    push_cast
    ring

/-- C26, exactly: the wait stays between `interval` and `max_interval` in every history if and only if `interval` is not above
`max_interval` (neither negative). -/
theorem C26_exact [IsStrictOrderedRing K] (cf : Conf K) (h0 : 0 ≤ cf.orig) :
    (∀ ls : List Lab, cf.orig ≤ (run cf (init cf) ls).interval ∧ (run cf (init cf) ls).interval ≤ cf.max) ↔ cf.orig ≤ cf.max :=
  ⟨fun h => (h []).1.trans (h []).2, fun hm ls => C26_bounds_partial cf h0 hm ls⟩

example : (run sample (init sample) eight).outs = List.replicate 8 .ok := by
  simp [eight, callAlone, List.replicate, run, step, thrStep, ctlStep, init, sample, Conf.make, St.setCtl, St.setThr, St.phase, St.alive, lethal]

/-- The same schedule with a maximum of half the interval. -/
example : (run (K := ℚ) ⟨16, 8, true⟩ (init ⟨16, 8, true⟩) eight).interval = 24 := by
  rw [C26_reversed_exact (K := ℚ) ⟨16, 8, true⟩ (by norm_num) eight 8 (by
    simp [eight, callAlone, List.replicate, run, step, thrStep, ctlStep, init, Conf.make, St.setCtl, St.setThr, St.phase, St.alive, lethal])]
  norm_num

end Verif.Actor
