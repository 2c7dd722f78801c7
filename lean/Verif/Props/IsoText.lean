import Verif.Props.Iso
/-!
# What timestamps say (C95, C96)
-/
namespace Verif.Iso

open Verif.Spec.Iso

theorem pad_digits (k : Nat) : ∀ n, ∀ c ∈ pad k n, '0'.toNat ≤ c ∧ c ≤ '9'.toNat := by
  induction k with
  | zero => intro n c h; simp [pad] at h
  | succ k ih =>
    intro n c h
    simp only [pad, List.mem_append, List.mem_singleton] at h
    rcases h with h | h
    · exact ih _ c h
    · subst h
      have e0 : '0'.toNat = 48 := rfl
      have e9 : '9'.toNat = 57 := rfl
      rw [e0, e9]; omega

theorem pad_value (k : Nat) : ∀ n, (pad k n).foldl (fun v c => 10 * v + (c - '0'.toNat)) 0 = n % 10 ^ k := by
  induction k with
  | zero => intro n; simp [pad, Nat.mod_one]
  | succ k ih =>
    intro n
    have e0 : '0'.toNat = 48 := rfl
    rw [pad, List.foldl_append, ih]
    simp only [List.foldl_cons, List.foldl_nil, e0]
    rw [Nat.pow_succ, Nat.mul_comm (10 ^ k) 10, Nat.mod_mul]
    omega

theorem pad_number {k n : Nat} (h : n < 10 ^ k) : Number (pad k n) n :=
  ⟨pad_digits k n, by rw [pad_value, Nat.mod_eq_of_lt h]⟩

theorem textSec_moment {s : Nat} (h : s < 253402300800) :
    Moment (textSec s) (day (s / 86400)) (s % 86400 / 3600) (s % 3600 / 60) (s % 60) := by
  have hr := civil_range (s / 86400)
  have hy := civil_year (d := s / 86400) (by omega)
  have hd : daysIn (civil (s / 86400)).1 (civil (s / 86400)).2.1 ≤ 31 := by
    unfold daysIn
    split
    all_goals first | omega | (split <;> omega)
  rw [← C95_calendar]
  exact ⟨pad 4 (civil (s / 86400)).1, pad 2 (civil (s / 86400)).2.1, pad 2 (civil (s / 86400)).2.2, pad 2 (s % 86400 / 3600),
    pad 2 (s % 3600 / 60), pad 2 (s % 60), rfl, pad_length _ _, pad_length _ _, pad_length _ _, pad_length _ _, pad_length _ _,
    pad_length _ _, pad_number (by omega), pad_number (by omega), pad_number (by omega), pad_number (by omega), pad_number (by omega),
    pad_number (by omega)⟩

theorem textSec_says {s : Nat} (h : s < 253402300800) : SaysSec (textSec s) s :=
  ⟨s / 86400, s % 86400 / 3600, s % 3600 / 60, s % 60, textSec_moment h, by omega, by omega, by omega, by omega⟩

theorem textMicro_says {t : Nat} (h : t < year10000) : Says (textMicro t) t := by
  unfold year10000 at h
  exact ⟨textSec (t / 1000000), pad 6 (t % 1000000), t / 1000000 / 86400, t / 1000000 % 86400 / 3600, t / 1000000 % 3600 / 60,
    t / 1000000 % 60, t % 1000000, rfl, textSec_moment (by omega), pad_length _ _, pad_number (by omega), by omega, by omega,
    by omega, by omega, by omega⟩

theorem zone_says {o : Int} (h : Usual o) : Zone (zone o) o := by
  unfold Usual at h
  refine ⟨if o < 0 then 45 else 43, pad 2 (o.natAbs / 3600), pad 2 (o.natAbs % 3600 / 60), o.natAbs / 3600, o.natAbs % 3600 / 60,
    rfl, pad_length _ _, pad_length _ _, pad_number (by omega), pad_number (by omega), by omega, ?_⟩
  by_cases ho : o < 0
  · rw [if_pos ho]; right; exact ⟨rfl, by omega⟩
  · rw [if_neg ho]; left; exact ⟨rfl, by omega⟩

/-- **C95**: what a UTC timestamp says, read as a date of the calendar and a time of day, is the time, to the microsecond; with
time zone it goes on with `+0000`. -/
theorem C95_text {t : Nat} (ht : t < year10000) :
    Says (utcNotz t) t ∧ ∃ z, utcTz t = utcNotz t ++ z ∧ z = "+0000".toList.map Char.toNat :=
  ⟨textMicro_says ht, zone 0, rfl, by decide⟩

/-- **C96**: local timestamps to the second are a date, a time of day and an offset from UTC, which together are the time. -/
theorem C96_noms_text (off : Nat → Int) (ho : ∀ s, Usual (off s)) {t : Nat}
    (ht : 86400000000 ≤ t ∧ t + 86400000000 < year10000) :
    ∃ (w : Nat) (o : Int) (z : List Nat), SaysSec (localNomsNotz off t) w ∧ localNoms off t = localNomsNotz off t ++ z ∧ Zone z o ∧
      (w : Int) - o = (t / 1000000 : Nat) := by
  have h := ho (t / 1000000)
  have hu := h
  unfold Usual at hu
  unfold year10000 at ht
  exact ⟨_, _, _, textSec_says (by omega), rfl, zone_says h, by omega⟩

/-- **C96**, as far as it holds of the local timestamps with fractions: away from the end of summer time they are a date, a time of
day and an offset from UTC, which together are the time. -/
theorem C96_text_partial (z : LocalTz) (h1 : Usual z.std) (h2 : Usual z.dst) {t : Nat}
    (ht : 86400000000 ≤ t ∧ t + 86400000000 < year10000) (st : Settled z t) :
    ∃ (w : Nat) (o : Int) (tz : List Nat), Says (localNotz z t) w ∧ localTz z t = localNotz z t ++ tz ∧ Zone tz o ∧
      (w : Int) - o * 1000000 = t := by
  have key := (C96_local_partial z h1 h2 ht ht st st).1
  have ho : Usual (z.offset (z.fromUtc t)) := by unfold LocalTz.offset; split <;> assumption
  have hu := ho
  unfold Usual at hu
  have hy := ht
  unfold year10000 at hy
  exact ⟨_, _, _, textMicro_says (by unfold year10000; omega), rfl, zone_says ho, by omega⟩

example : Says ("2026-11-01T03:00:00.000123".toList.map Char.toNat) 1793502000000123 := by
  have : utcNotz 1793502000000123 = "2026-11-01T03:00:00.000123".toList.map Char.toNat := by decide +kernel
  rw [← this]
  exact (C95_text (by decide)).1
/-- The sign counts: a comma is no sign, and the same digits with the other sign are another offset. -/
example : Zone ("-0500".toList.map Char.toNat) (-18000) ∧ ¬Zone ("-0500".toList.map Char.toNat) 18000 := by
  refine ⟨(by decide : zone (-18000) = "-0500".toList.map Char.toNat) ▸ zone_says (o := -18000) (by decide), ?_⟩
  rintro ⟨sign, th, tm, h, m, e, -, -, -, -, -, ⟨rfl, -⟩ | ⟨rfl, e2⟩⟩
  · exact absurd (List.cons.inj e).1 (by decide)
  · omega
example := C96_noms_text (fun _ => -18000) (fun _ => by decide) (t := 1793520000000000) (by decide)
example := C96_text_partial eastern (by decide) (by decide) (t := 1793500000000000) (by decide) (by unfold Settled; decide)

end Verif.Iso
