import Verif.Props.Iso
/-!
# C96: exactly which local timestamps are ambiguous
-/
namespace Verif.Iso

open Verif.Spec.Iso

/-- Whether summer time is in force at the moment `t` by the clock without summer time, which is what `LocalTZ` asks. -/
def Summer (z : LocalTz) (t : Nat) : Prop := z.isDst ((t : Int) + z.std * 1000000) = true

theorem fromUtc_range (z : LocalTz) (h1 : Usual z.std) (h2 : Usual z.dst) {t : Nat}
    (ht : 86400000000 ≤ t ∧ t + 86400000000 < year10000) : 0 ≤ z.fromUtc t ∧ (z.fromUtc t).toNat < year10000 := by
  unfold Usual at h1 h2
  unfold LocalTz.fromUtc
  unfold year10000 at ht ⊢
  dsimp only
  split <;> omega

/-- **C96**, exactly, of the local timestamps with fractions: two times are shown alike, with or without the offset, if and only if
they are the same or summer time ends between them and they are as far apart as the clock is then set back. -/
theorem C96_exact (z : LocalTz) (h1 : Usual z.std) (h2 : Usual z.dst) {t u : Nat}
    (ht : 86400000000 ≤ t ∧ t + 86400000000 < year10000) (hu : 86400000000 ≤ u ∧ u + 86400000000 < year10000) :
    (localTz z t = localTz z u ↔ localNotz z t = localNotz z u) ∧
    (localNotz z t = localNotz z u ↔ t = u ∨
      Summer z t ∧ ¬ Summer z u ∧ (u : Int) = t + (z.dst - z.std) * 1000000 ∨
      Summer z u ∧ ¬ Summer z t ∧ (t : Int) = u + (z.dst - z.std) * 1000000) := by
  have rt := fromUtc_range z h1 h2 ht
  have ru := fromUtc_range z h1 h2 hu
  have hn : localNotz z t = localNotz z u ↔ z.fromUtc t = z.fromUtc u := by
    constructor
    · intro h
      have := textMicro_inj rt.2 ru.2 h
      omega
    · intro h; unfold localNotz; rw [h]
  refine ⟨⟨fun h => ?_, fun h => ?_⟩, ?_⟩
  · exact (List.append_inj h (by simp [textMicro_length])).1
  · rw [hn] at h
    unfold localTz
    rw [h]
  · rw [hn]
    by_cases htu : t = u
    · subst htu; simp
    unfold LocalTz.fromUtc Summer
    dsimp only
    by_cases a : z.isDst ((t : Int) + z.std * 1000000) = true <;> by_cases b : z.isDst ((u : Int) + z.std * 1000000) = true <;>
      simp only [a, b, if_true, if_false, Bool.false_eq_true, not_true_eq_false, not_false_eq_true, true_and, false_and,
        and_false, or_false, false_or] <;> omega

/-- The offset shown is the one the time is shown with if and only if the time is not in the hour that is skipped or repeated. -/
theorem C96_offset_exact (z : LocalTz) (hz : z.dst ≠ z.std) (t : Nat) :
    z.fromUtc t - z.offset (z.fromUtc t) * 1000000 = t ↔ (z.isDst (z.fromUtc t) = true ↔ Summer z t) := by
  unfold Summer LocalTz.offset LocalTz.fromUtc
  dsimp only
  by_cases a : z.isDst ((t : Int) + z.std * 1000000) = true
  · rw [if_pos a]
    by_cases b : z.isDst ((t : Int) + z.std * 1000000 + (z.dst - z.std) * 1000000) = true
    · rw [if_pos b]; simp only [a, b, iff_self, iff_true]; omega
    · rw [if_neg b]; simp only [a, b, Bool.false_eq_true, false_iff, not_true_eq_false, iff_false]; omega
  · rw [if_neg a, if_neg a]
    simp only [iff_self, iff_true]; omega

example : localTz eastern 1793511000000000 = localTz eastern 1793514600000000 := by
  obtain ⟨h1, h2⟩ := C96_exact eastern (by decide) (by decide) (t := 1793511000000000) (u := 1793514600000000)
    (by decide) (by decide)
  rw [h1, h2]
  right; left
  unfold Summer
  decide
example : localNotz eastern 1793500000000000 ≠ localNotz eastern 1793520000000000 := by
  intro h
  have := (C96_exact eastern (by decide) (by decide) (t := 1793500000000000) (u := 1793520000000000)
    (by decide) (by decide)).2.1 h
  revert this
  unfold Summer
  decide

end Verif.Iso
