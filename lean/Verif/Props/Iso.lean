import Verif.Model.Iso
import Verif.Spec.Iso
import Mathlib.Data.List.Lex
import Mathlib.Order.Monotone.Defs
/-!
# C95: UTC timestamps show the right date and sort like times
-/
namespace Verif.Iso

open Verif.Spec.Iso

/-! ## The calendar -/

theorem daysIn_eq (y m : Nat) : daysIn y m = monthDays y m := by
  unfold daysIn monthDays leap
  split
  · simp
  · simp
  · simp
  · simp
  · have d1 : y % 100 = 0 → y % 4 = 0 := by omega
    have d2 : y % 400 = 0 → y % 100 = 0 := by omega
    by_cases e4 : y % 4 = 0 <;> by_cases e100 : y % 100 = 0 <;> by_cases e400 : y % 400 = 0 <;> simp_all
  · rename_i h1 h2 h3 h4 h5
    rw [if_neg h5, if_neg]
    rintro (h | h | h | h)
    · exact h1 h
    · exact h2 h
    · exact h3 h
    · exact h4 h

/-- Days from month `m` on, with `n` more months after it. -/
def rem (y : Nat) : Nat → Nat → Nat
  | 0, m => monthDays y m
  | n + 1, m => monthDays y m + rem y n (m + 1)

theorem rem_year (y : Nat) : rem y 11 1 = yearDays y := by
  simp only [rem, monthDays, yearDays]
  cases leap y <;> rfl

theorem monthDays_pos (y m : Nat) : 0 < monthDays y m := by unfold monthDays; split <;> (try split) <;> omega

theorem splitYear_succ : ∀ (d y : Nat),
    splitYear y (d + 1) = if (splitYear y d).2 + 1 < yearDays (splitYear y d).1 then ((splitYear y d).1, (splitYear y d).2 + 1)
      else ((splitYear y d).1 + 1, 0) := by
  intro d
  induction d using Nat.strongRecOn with
  | ind d ih =>
    intro y
    have hp := yearDays_pos y
    by_cases h : d < yearDays y
    · have e : splitYear y d = (y, d) := by rw [splitYear, if_pos h]
      rw [e]; dsimp only
      by_cases h2 : d + 1 < yearDays y
      · rw [splitYear, if_pos h2, if_pos h2]
      · rw [splitYear, if_neg h2, if_neg h2, show d + 1 - yearDays y = 0 by omega, splitYear, if_pos (yearDays_pos _)]
    · have e : splitYear y d = splitYear (y + 1) (d - yearDays y) := by rw [splitYear, if_neg h]
      rw [e, ← ih (d - yearDays y) (by omega) (y + 1), splitYear, if_neg (by omega)]
      congr 1; omega

theorem splitYear_lt : ∀ (d y : Nat), (splitYear y d).2 < yearDays (splitYear y d).1 := by
  intro d
  induction d using Nat.strongRecOn with
  | ind d ih =>
    intro y
    have hp := yearDays_pos y
    by_cases h : d < yearDays y
    · rw [splitYear, if_pos h]; exact h
    · rw [splitYear, if_neg h]; exact ih _ (by omega) _

theorem splitMonth_succ (y : Nat) : ∀ (n m d : Nat), d + 1 < rem y n m →
    splitMonth y n m (d + 1) = if (splitMonth y n m d).2 < monthDays y (splitMonth y n m d).1
      then ((splitMonth y n m d).1, (splitMonth y n m d).2 + 1) else ((splitMonth y n m d).1 + 1, 1) := by
  intro n
  induction n with
  | zero => intro m d h; simp only [rem] at h; simp [splitMonth, h]
  | succ n ih =>
    intro m d h
    simp only [rem] at h
    have hp := monthDays_pos y m
    by_cases h1 : d < monthDays y m
    · have e : splitMonth y (n + 1) m d = (m, d + 1) := by rw [splitMonth, if_pos h1]
      rw [e]; dsimp only
      by_cases h2 : d + 1 < monthDays y m
      · rw [splitMonth, if_pos h2, if_pos h2]
      · rw [splitMonth, if_neg h2, if_neg h2, show d + 1 - monthDays y m = 0 by omega]
        cases n <;> simp [splitMonth, monthDays_pos]
    · have e : splitMonth y (n + 1) m d = splitMonth y n (m + 1) (d - monthDays y m) := by rw [splitMonth, if_neg h1]
      rw [e, ← ih (m + 1) (d - monthDays y m) (by omega), splitMonth, if_neg (by omega)]
      congr 1; omega

theorem splitMonth_last (y : Nat) : ∀ (n m d : Nat), d + 1 = rem y n m →
    splitMonth y n m d = (m + n, monthDays y (m + n)) := by
  intro n
  induction n with
  | zero => intro m d h; simp only [rem] at h; simp [splitMonth, h]
  | succ n ih =>
    intro m d h
    simp only [rem] at h
    have hp : 0 < rem y n (m + 1) := by have := monthDays_pos y (m + 1); cases n <;> simp only [rem] <;> omega
    rw [splitMonth, if_neg (by omega), ih (m + 1) _ (by omega)]
    rw [show m + 1 + n = m + (n + 1) by omega]

theorem splitMonth_range (y : Nat) : ∀ (n m d : Nat), d < rem y n m →
    m ≤ (splitMonth y n m d).1 ∧ (splitMonth y n m d).1 ≤ m + n ∧ 1 ≤ (splitMonth y n m d).2 ∧
      (splitMonth y n m d).2 ≤ monthDays y (splitMonth y n m d).1 := by
  intro n
  induction n with
  | zero => intro m d h; simp only [rem] at h; simp [splitMonth]; omega
  | succ n ih =>
    intro m d h
    simp only [rem] at h
    rw [splitMonth]
    split
    · dsimp only; omega
    · obtain ⟨h1, h2, h3, h4⟩ := ih (m + 1) (d - monthDays y m) (by omega)
      exact ⟨by omega, by omega, h3, h4⟩

theorem civil_zero : civil 0 = (1970, 1, 1) := by
  have : splitYear 1970 0 = (1970, 0) := by rw [splitYear, if_pos (yearDays_pos _)]
  simp only [civil, this]; rfl

theorem civil_eq (d : Nat) : civil d = ((splitYear 1970 d).1, splitMonth (splitYear 1970 d).1 11 1 (splitYear 1970 d).2) := rfl

theorem civil_range (d : Nat) : 1 ≤ (civil d).2.1 ∧ (civil d).2.1 ≤ 12 ∧ 1 ≤ (civil d).2.2 ∧
    (civil d).2.2 ≤ daysIn (civil d).1 (civil d).2.1 := by
  have h := splitMonth_range (splitYear 1970 d).1 11 1 (splitYear 1970 d).2 (by rw [rem_year]; exact splitYear_lt _ _)
  rw [civil_eq, daysIn_eq]
  exact ⟨h.1, Nat.le_trans h.2.1 (by omega), h.2.2⟩

theorem civil_succ (d : Nat) : civil (d + 1) = nextDay (civil d) := by
  have hl := splitYear_lt d 1970
  rw [civil_eq, civil_eq, splitYear_succ]
  generalize splitYear 1970 d = p at *
  obtain ⟨y, n⟩ := p
  dsimp only at *
  by_cases h : n + 1 < yearDays y
  · rw [if_pos h]
    dsimp only
    have hs := splitMonth_succ y 11 1 n (by rw [rem_year]; exact h)
    have hr := splitMonth_range y 11 1 n (by rw [rem_year]; exact hl)
    have hr' := splitMonth_range y 11 1 (n + 1) (by rw [rem_year]; exact h)
    generalize splitMonth y 11 1 (n + 1) = b at *
    generalize splitMonth y 11 1 n = a at *
    obtain ⟨m, k⟩ := a
    simp only [nextDay, daysIn_eq]
    dsimp only at *
    rw [hs] at hr' ⊢
    split at hr' <;> rename_i h2
    · simp [h2]
    · dsimp only at hr'
      rw [if_neg h2, if_neg h2, if_pos (by omega)]
  · rw [if_neg h]
    have := splitMonth_last y 11 1 n (by rw [rem_year]; omega)
    rw [this]
    simp [nextDay, daysIn_eq, splitMonth, monthDays_pos]

/-- **C95.**  The date shown is that of the calendar: the days after 1970-01-01 follow one another. -/
theorem C95_calendar (d : Nat) : civil d = day d := by
  induction d with
  | zero => exact civil_zero
  | succ d ih => rw [civil_succ, ih, day]

/-! ## The order of texts -/

theorem lt_append : ∀ {x x' y y' : List Nat}, x.length = x'.length →
    (x ++ y < x' ++ y' ↔ x < x' ∨ x = x' ∧ y < y') := by
  intro x
  induction x with
  | nil => intro x' y y' h; cases x' <;> simp_all
  | cons a x ih =>
    intro x' y y' h
    cases x' with
    | nil => simp at h
    | cons b x' =>
      simp only [List.length_cons, Nat.add_right_cancel_iff] at h
      simp only [List.cons_append, List.cons_lt_cons_iff, ih h, List.cons.injEq]
      tauto

theorem pad_length (k : Nat) : ∀ n, (pad k n).length = k := by
  induction k with
  | zero => intro n; rfl
  | succ k ih => intro n; simp [pad, ih]

theorem pad_lt (k : Nat) : ∀ {a b : Nat}, b < 10 ^ k → a < b → pad k a < pad k b := by
  induction k with
  | zero => intro a b hb h; simp at hb; omega
  | succ k ih =>
    intro a b hb h
    rw [Nat.pow_succ] at hb
    simp only [pad]
    rw [lt_append (by simp [pad_length])]
    by_cases h1 : a / 10 < b / 10
    · exact Or.inl (ih (by omega) h1)
    · refine Or.inr ⟨by rw [show a / 10 = b / 10 by omega], ?_⟩
      rw [List.cons_lt_cons_iff]
      left; omega

/-- Texts of one length that begin alike compare as what follows; otherwise as their beginnings. -/
theorem sep_lt {k a b c : Nat} {x y : List Nat} (ha : b < 10 ^ k) (h : a < b ∨ a = b ∧ x < y) :
    pad k a ++ c :: x < pad k b ++ c :: y := by
  rw [lt_append (by simp [pad_length])]
  rcases h with h | ⟨rfl, h⟩
  · exact Or.inl (pad_lt k ha h)
  · exact Or.inr ⟨rfl, by rw [List.cons_lt_cons_iff]; exact Or.inr ⟨rfl, h⟩⟩

/-- Days before the first of year `y`, counted from year 0. -/
def dby (y : Nat) : Nat := 365 * y + (y + 3) / 4 - (y + 99) / 100 + (y + 399) / 400

theorem dby_succ (y : Nat) : dby (y + 1) = dby y + yearDays y := by
  have h4 : (y + 1 + 3) / 4 = (y + 3) / 4 + if y % 4 = 0 then 1 else 0 := by split <;> omega
  have h100 : (y + 1 + 99) / 100 = (y + 99) / 100 + if y % 100 = 0 then 1 else 0 := by split <;> omega
  have h400 : (y + 1 + 399) / 400 = (y + 399) / 400 + if y % 400 = 0 then 1 else 0 := by split <;> omega
  have hl : (y + 99) / 100 ≤ 365 * y := by omega
  have d1 : y % 100 = 0 → y % 4 = 0 := by omega
  have d2 : y % 400 = 0 → y % 100 = 0 := by omega
  unfold dby yearDays leap
  rw [h4, h100, h400]
  simp only [Bool.and_eq_true, decide_eq_true_eq, Bool.or_eq_true, ne_eq, decide_not, Bool.not_eq_true', decide_eq_false_iff_not]
  generalize (y + 3) / 4 = a at *
  generalize (y + 99) / 100 = b at *
  generalize (y + 399) / 400 = c at *
  by_cases e4 : y % 4 = 0 <;> by_cases e100 : y % 100 = 0 <;> by_cases e400 : y % 400 = 0 <;>
    simp only [e4, e100, e400, if_true, if_false, true_and, false_and, not_true_eq_false, not_false_eq_true, or_true, or_false] <;> omega

theorem dby_mono {a b : Nat} (h : a ≤ b) : dby a ≤ dby b := by
  induction h with
  | refl => exact Nat.le_refl _
  | step _ ih => rw [dby_succ]; omega

theorem splitYear_dby : ∀ (d y : Nat), dby (splitYear y d).1 + (splitYear y d).2 = dby y + d := by
  intro d
  induction d using Nat.strongRecOn with
  | ind d ih =>
    intro y
    have hp := yearDays_pos y
    by_cases h : d < yearDays y
    · rw [splitYear, if_pos h]
    · rw [splitYear, if_neg h, ih _ (by omega), dby_succ]; omega

theorem civil_year {d : Nat} (h : d < 2932897) : (civil d).1 < 10000 := by
  rw [civil_eq]
  dsimp only
  by_contra hc
  have h1 := splitYear_dby d 1970
  have h2 := dby_mono (Nat.le_of_not_lt hc)
  simp only [dby] at h2 h1
  omega

/-- One day of the calendar is before another. -/
def Before (a b : Nat × Nat × Nat) : Prop := a.1 < b.1 ∨ a.1 = b.1 ∧ (a.2.1 < b.2.1 ∨ a.2.1 = b.2.1 ∧ a.2.2 < b.2.2)

theorem civil_before {a b : Nat} (h : a < b) : Before (civil a) (civil b) := by
  induction h with
  | refl =>
    rw [civil_succ]
    simp only [nextDay, Before]
    split
    · simp
    · split <;> simp
  | step _ ih =>
    rename_i m _
    have : Before (civil m) (civil (m + 1)) := by
      rw [civil_succ]
      simp only [nextDay, Before]
      split
      · simp
      · split <;> simp
    unfold Before at *
    generalize civil a = x at *
    rw [show m.succ = m + 1 from rfl] at *
    generalize civil (m + 1) = z at *
    generalize civil m = y at *
    omega

theorem textSec_length (s : Nat) : (textSec s).length = 19 := by simp [textSec, pad_length]

theorem textSec_lt {s u : Nat} (hu : u < 253402300800) (h : s < u) : textSec s < textSec u := by
  have hy := civil_year (d := u / 86400) (by omega)
  have hr := civil_range (u / 86400)
  have hd : daysIn (civil (u / 86400)).1 (civil (u / 86400)).2.1 < 100 := by
    rw [daysIn_eq]; unfold monthDays; split <;> (try split) <;> omega
  have hb : Before (civil (s / 86400)) (civil (u / 86400)) ∨ s / 86400 = u / 86400 := by
    rcases Nat.lt_or_ge (s / 86400) (u / 86400) with h1 | h1
    · exact Or.inl (civil_before h1)
    · exact Or.inr (by omega)
  have key : (civil (s / 86400)).1 < (civil (u / 86400)).1 ∨ (civil (s / 86400)).1 = (civil (u / 86400)).1 ∧
      ((civil (s / 86400)).2.1 < (civil (u / 86400)).2.1 ∨ (civil (s / 86400)).2.1 = (civil (u / 86400)).2.1 ∧
      ((civil (s / 86400)).2.2 < (civil (u / 86400)).2.2 ∨ (civil (s / 86400)).2.2 = (civil (u / 86400)).2.2 ∧
      (s % 86400 / 3600 < u % 86400 / 3600 ∨ s % 86400 / 3600 = u % 86400 / 3600 ∧
      (s % 3600 / 60 < u % 3600 / 60 ∨ s % 3600 / 60 = u % 3600 / 60 ∧ s % 60 < u % 60)))) := by
    rcases hb with hb | hb
    · unfold Before at hb; tauto
    · rw [hb]; simp only [Nat.lt_irrefl, false_or, true_and]; omega
  simp only [textSec]
  generalize civil (s / 86400) = p at *
  generalize civil (u / 86400) = q at *
  obtain ⟨y, m, d⟩ := p
  obtain ⟨y', m', d'⟩ := q
  dsimp only at *
  exact sep_lt (by omega) (key.imp id fun ⟨e, k⟩ => ⟨e, sep_lt (by omega) (k.imp id fun ⟨e, k⟩ => ⟨e, sep_lt (by omega)
    (k.imp id fun ⟨e, k⟩ => ⟨e, sep_lt (by omega) (k.imp id fun ⟨e, k⟩ => ⟨e, sep_lt (by omega)
    (k.imp id fun ⟨e, k⟩ => ⟨e, pad_lt 2 (by omega) k⟩)⟩)⟩)⟩)⟩)

theorem textMicro_lt {t u : Nat} (hu : u < year10000) (h : t < u) : textMicro t < textMicro u := by
  unfold year10000 at hu
  unfold textMicro
  rw [lt_append (by simp [textSec_length])]
  by_cases h1 : t / 1000000 < u / 1000000
  · exact Or.inl (textSec_lt (by omega) h1)
  · refine Or.inr ⟨by rw [show t / 1000000 = u / 1000000 by omega], ?_⟩
    rw [List.cons_lt_cons_iff]
    exact Or.inr ⟨rfl, pad_lt 6 (by omega) (by omega)⟩

theorem textMicro_length (t : Nat) : (textMicro t).length = 26 := by simp [textMicro, textSec_length, pad_length]

theorem lt_iff_of_strict {f : Nat → List Nat} {b : Nat} (h : ∀ t u, u < b → t < u → f t < f u) {t u : Nat} (ht : t < b)
    (hu : u < b) : f t < f u ↔ t < u := by
  constructor
  · intro hl
    rcases Nat.lt_trichotomy t u with h1 | h1 | h1
    · exact h1
    · subst h1; exact absurd hl (lt_irrefl _)
    · exact absurd (lt_trans hl (h u t ht h1)) (lt_irrefl _)
  · exact h t u hu

/-- **C95.**  Up to the year 9999, timestamps in UTC compare as texts exactly as the times they show, with or without the
time zone; so that different times are shown differently. -/
theorem C95_order {t u : Nat} (ht : t < year10000) (hu : u < year10000) :
    (utcTz t < utcTz u ↔ t < u) ∧ (utcNotz t < utcNotz u ↔ t < u) ∧ (utcTz t = utcTz u ↔ t = u) ∧
      (utcNotz t = utcNotz u ↔ t = u) := by
  have h1 : ∀ t u, u < year10000 → t < u → utcTz t < utcTz u := by
    intro t u hu h
    unfold utcTz
    rw [lt_append (by simp [textMicro_length])]
    exact Or.inl (textMicro_lt hu h)
  have h2 : ∀ t u, u < year10000 → t < u → utcNotz t < utcNotz u := fun t u => textMicro_lt
  have a := @lt_iff_of_strict _ _ h1
  have b := @lt_iff_of_strict _ _ h2
  refine ⟨a ht hu, b ht hu, ⟨fun e => ?_, fun e => by rw [e]⟩, ⟨fun e => ?_, fun e => by rw [e]⟩⟩
  · have := a ht hu; have := a hu ht; rw [e] at *; simp only [lt_irrefl, false_iff] at *; omega
  · have := b ht hu; have := b hu ht; rw [e] at *; simp only [lt_irrefl, false_iff] at *; omega

/-- C95: so it is for times that are rounded to microseconds in whatever way that keeps their order. -/
theorem C95_rounded {K : Type*} [LinearOrder K] (r : K → Nat) (hr : Monotone r) {t u : K} (ht : r t < year10000)
    (hu : r u < year10000) : (t ≤ u → utcTz (r t) ≤ utcTz (r u)) ∧ (utcTz (r t) < utcTz (r u) → t < u) := by
  refine ⟨fun h => ?_, fun h => ?_⟩
  · rcases Nat.lt_or_ge (r t) (r u) with h1 | h1
    · exact le_of_lt ((C95_order ht hu).1.2 h1)
    · rw [le_antisymm (hr h) h1]
  · by_contra hc
    exact absurd (hr (not_lt.1 hc)) (not_le.2 ((C95_order ht hu).1.1 h))

/-- C95: all timestamps have the same length, and neither blanks nor line breaks: no need to quote them. -/
theorem C95_shape (t : Nat) : (utcTz t).length = 31 ∧ (utcNotz t).length = 26 ∧ ∀ c ∈ utcTz t, 32 < c ∧ c ≠ 34 ∧ c ≠ 92 := by
  refine ⟨by simp [utcTz, textMicro_length, zone, pad_length], textMicro_length t, ?_⟩
  have hp : ∀ k n, ∀ c ∈ pad k n, 32 < c ∧ c ≠ 34 ∧ c ≠ 92 := by
    intro k
    induction k with
    | zero => intro n c h; simp [pad] at h
    | succ k ih =>
      intro n c h
      simp only [pad, List.mem_append, List.mem_singleton] at h
      rcases h with h | rfl
      · exact ih _ _ h
      · omega
  intro c h
  simp only [utcTz, textMicro, textSec, zone, List.mem_append, List.mem_cons] at h
  rcases h with ((h | rfl | h | rfl | h | rfl | h | rfl | h | rfl | h) | rfl | h) | h | h | h
  all_goals first | exact hp _ _ _ h | (exact ⟨by decide, by decide, by decide⟩) | skip
  subst h; decide

example : utcTz 951827696000001 = "2000-02-29T12:34:56.000001+0000".toList.map Char.toNat := by
  decide +kernel
example : utcNotz 0 = "1970-01-01T00:00:00.000000".toList.map Char.toNat := by decide +kernel

/-! ## Local time -/

theorem pad_inj {k a b : Nat} (ha : a < 10 ^ k) (hb : b < 10 ^ k) (h : pad k a = pad k b) : a = b := by
  rcases Nat.lt_trichotomy a b with h1 | h1 | h1
  · exact absurd (h ▸ pad_lt k hb h1) (lt_irrefl _)
  · exact h1
  · exact absurd (h ▸ pad_lt k ha h1) (lt_irrefl _)

/-- An offset from UTC as they are in use: whole minutes, less than a day. -/
def Usual (o : Int) : Prop := o % 60 = 0 ∧ -86400 < o ∧ o < 86400

instance (o : Int) : Decidable (Usual o) := inferInstanceAs (Decidable (_ ∧ _ ∧ _))

theorem zone_inj {a b : Int} (ha : Usual a) (hb : Usual b) (h : zone a = zone b) : a = b := by
  unfold Usual at ha hb
  simp only [zone, List.cons.injEq] at h
  obtain ⟨hs, h⟩ := h
  obtain ⟨h1, h2⟩ := List.append_inj h (by simp [pad_length])
  have h1 := pad_inj (by omega) (by omega) h1
  have h2 := pad_inj (by omega) (by omega) h2
  split at hs <;> split at hs <;> omega

theorem textMicro_inj {t u : Nat} (ht : t < year10000) (hu : u < year10000) (h : textMicro t = textMicro u) : t = u :=
  ((C95_order ht hu).2.2.2).1 h

theorem textSec_inj {t u : Nat} (ht : t < 253402300800) (hu : u < 253402300800) (h : textSec t = textSec u) : t = u := by
  rcases Nat.lt_trichotomy t u with h1 | h1 | h1
  · exact absurd (h ▸ textSec_lt hu h1) (lt_irrefl _)
  · exact h1
  · exact absurd (h ▸ textSec_lt ht h1) (lt_irrefl _)

/-- **C96.**  The local timestamps without fractions of a second tell the time to the second: two times shown alike are in
the same second, however the offset of the zone changes. -/
theorem C96_noms (off : Nat → Int) (ho : ∀ s, Usual (off s)) {t u : Nat} (ht : 86400000000 ≤ t ∧ t + 86400000000 < year10000)
    (hu : 86400000000 ≤ u ∧ u + 86400000000 < year10000) (h : localNoms off t = localNoms off u) :
    t / 1000000 = u / 1000000 := by
  unfold localNoms at h
  obtain ⟨h1, h2⟩ := List.append_inj h (by simp [textSec_length])
  have a := ho (t / 1000000)
  have b := ho (u / 1000000)
  have h2 := zone_inj a b h2
  rw [h2] at h1
  rw [h2] at a
  generalize off (u / 1000000) = o at *
  unfold Usual at a
  unfold year10000 at ht hu
  have h1 := textSec_inj (by omega) (by omega) h1
  omega

/-- **C96, wall clock.**  The local fields show the wall clock time as the UTC fields would show it, to the second or in full, and those
with a time zone the offset after it. -/
theorem C96_wall (off : Nat → Int) (z : LocalTz) (t : Nat) :
    let s := ((t / 1000000 : Nat) : Int) + off (t / 1000000)
    localNomsNotz off t = (utcNotz (s.toNat * 1000000)).take 19 ∧ localNoms off t = localNomsNotz off t ++ zone (off (t / 1000000)) ∧
    localNotz z t = utcNotz (z.fromUtc t).toNat ∧ localTz z t = localNotz z t ++ zone (z.offset (z.fromUtc t)) := by
  refine ⟨?_, rfl, rfl, rfl⟩
  unfold utcNotz textMicro localNomsNotz
  rw [Nat.mul_div_cancel _ (by decide), List.take_left' (textSec_length _)]

/-- Summer time is in force at the wall clock time `LocalTZ` finds for `t` if it is in force in the same moment by the
clock without summer time. -/
def Settled (z : LocalTz) (t : Nat) : Prop := z.isDst (z.fromUtc t) = z.isDst (t + z.std * 1000000)

/-- C96, as far as it holds of the other local timestamps: what they show, taken together with the offset they show, is the
time, and two times shown alike are the same, away from the end of summer time. -/
theorem C96_local_partial (z : LocalTz) (h1 : Usual z.std) (h2 : Usual z.dst) {t u : Nat}
    (ht : 86400000000 ≤ t ∧ t + 86400000000 < year10000) (hu : 86400000000 ≤ u ∧ u + 86400000000 < year10000)
    (st : Settled z t) (su : Settled z u) :
    z.fromUtc t - z.offset (z.fromUtc t) * 1000000 = t ∧ (localTz z t = localTz z u → t = u) := by
  have key : ∀ t, Settled z t → z.fromUtc t - z.offset (z.fromUtc t) * 1000000 = t := by
    intro t st
    unfold Settled at st
    unfold LocalTz.offset
    rw [st]
    unfold LocalTz.fromUtc
    dsimp only
    split <;> omega
  refine ⟨key t st, fun h => ?_⟩
  have kt := key t st
  have ku := key u su
  unfold localTz at h
  obtain ⟨e1, e2⟩ := List.append_inj h (by simp [textMicro_length])
  have a : ∀ w, Usual (z.offset w) := by intro w; unfold LocalTz.offset; split <;> assumption
  have a1 := a (z.fromUtc t)
  have a2 := a (z.fromUtc u)
  have e2 := zone_inj a1 a2 e2
  unfold Usual at a1 a2
  unfold year10000 at ht hu
  have e1 := textMicro_inj (by unfold year10000; omega) (by unfold year10000; omega) e1
  omega

/-- The full claim. -/
def C96_full (z : LocalTz) : Prop := ∀ t u : Nat, 86400000000 ≤ t → 86400000000 ≤ u → localTz z t = localTz z u → t = u

/-- C96 fails in every zone with summer time: whenever summer time ends, that is, it was in force an hour before by the wall
clock and is not any more, two times an hour apart are shown alike, with the same offset. -/
theorem C96_violated (z : LocalTz) (hd : z.dst - z.std = 3600) (h1 : Usual z.std) (h2 : Usual z.dst) (w : Int)
    (hw : 180000000000 ≤ w) (hb : z.isDst (w - 3600000000) = true) (ha : z.isDst w = false) : ¬C96_full z := by
  intro h
  unfold Usual at h1 h2
  have := h (w - z.dst * 1000000).toNat (w - z.std * 1000000).toNat (by omega) (by omega) (by
    have a : z.fromUtc ((w - z.dst * 1000000).toNat : Nat) = w := by
      unfold LocalTz.fromUtc
      dsimp only
      rw [if_pos]
      · omega
      · rw [show (((w - z.dst * 1000000).toNat : Nat) : Int) + z.std * 1000000 = w - 3600000000 by omega, hb]
    have b : z.fromUtc ((w - z.std * 1000000).toNat : Nat) = w := by
      unfold LocalTz.fromUtc
      dsimp only
      have e : (((w - z.std * 1000000).toNat : Nat) : Int) + z.std * 1000000 = w := by omega
      rw [e, if_neg (by simp [ha])]
    unfold localTz
    rw [a, b])
  omega

/-- Eastern time of North America around the end of summer time in 2026 (1 November, 6:00 UTC). -/
def eastern : LocalTz := ⟨-18000, -14400, fun w => w < 1793494800000000⟩

/-- C96 fails without the zone: a time two minutes later is shown as an earlier one. -/
theorem C96_notz_violated :
    localNotz eastern 1793512740000000 = "2026-11-01T01:59:00.000000".toList.map Char.toNat ∧
    localNotz eastern 1793512860000000 = "2026-11-01T01:01:00.000000".toList.map Char.toNat := by decide +kernel

example : localNomsNotz (fun _ => -18000) 1793520000000000 = "2026-11-01T03:00:00".toList.map Char.toNat := by decide +kernel
example : ¬C96_full eastern :=
  C96_violated eastern (by decide) (by decide) (by decide) 1793496600000000 (by decide) (by decide) (by decide)
example : localTz eastern 1793511000000000 = "2026-11-01T01:30:00.000000-0500".toList.map Char.toNat ∧
    localTz eastern 1793514600000000 = "2026-11-01T01:30:00.000000-0500".toList.map Char.toNat := by decide +kernel
example : Settled eastern 1793500000000000 ∧ Settled eastern 1793520000000000 ∧ ¬Settled eastern 1793511000000000 := by
  unfold Settled; decide
example : localTz eastern 1793500000000000 = "2026-10-31T22:26:40.000000-0400".toList.map Char.toNat := by decide +kernel
example : localNoms (fun s => if s < 1793512800 then -14400 else -18000) 1793511000000000 =
    "2026-11-01T01:30:00-0400".toList.map Char.toNat := by decide +kernel

example : utcTz 951827696000001 < utcTz 951827696000002 := (C95_order (by decide) (by decide)).1.2 (by decide)
/-- Times kept in quarters of a microsecond. -/
example := C95_rounded (fun x : Nat => (x + 2) / 4) (fun a b h => Nat.div_le_div_right (Nat.add_le_add_right h 2)) (t := 7)
  (u := 20) (by decide) (by decide)
example := C96_noms (fun s => if s < 1793512800 then -14400 else -18000) (fun s => by split <;> decide)
  (t := 1793511000000000) (u := 1793511000500000) (by decide) (by decide) (by decide +kernel)
example := C96_local_partial eastern (by decide) (by decide) (t := 1793500000000000) (u := 1793520000000000) (by decide)
  (by decide) (by unfold Settled; decide) (by unfold Settled; decide)

end Verif.Iso
