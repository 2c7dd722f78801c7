import Mathlib.Data.List.Basic
/-!
# The calendar and the order of texts, for C95 and C96
-/
namespace Verif.Spec.Iso

/-- How many days a month has: thirty days hath September, April, June and November ... -/
def daysIn (y m : Nat) : Nat :=
  match m with
  | 4 | 6 | 9 | 11 => 30
  | 2 => if y % 400 = 0 ∨ y % 4 = 0 ∧ y % 100 ≠ 0 then 29 else 28
  | _ => 31

/-- The day after a day of the calendar. -/
def nextDay : Nat × Nat × Nat → Nat × Nat × Nat
  | (y, m, d) =>
    if d < daysIn y m then (y, m, d + 1)
    else if m < 12 then (y, m + 1, 1)
    else (y + 1, 1, 1)

/-- The day `n` days after the first of January 1970. -/
def day : Nat → Nat × Nat × Nat
  | 0 => (1970, 1, 1)
  | n + 1 => nextDay (day n)

/-- The first microsecond of the year 10000. -/
def year10000 : Nat := 253402300800000000

/-- The number that a text of decimal digits stands for. -/
def Number (text : List Nat) (n : Nat) : Prop :=
  (∀ c ∈ text, '0'.toNat ≤ c ∧ c ≤ '9'.toNat) ∧ text.foldl (fun v c => 10 * v + (c - '0'.toNat)) 0 = n

/-- The text is a date and a time of day, `2026-11-01T01:59:00`. -/
def Moment (text : List Nat) (date : Nat × Nat × Nat) (h m s : Nat) : Prop :=
  ∃ ty tm td th ti ts : List Nat,
    text = ty ++ '-'.toNat :: (tm ++ '-'.toNat :: (td ++ 'T'.toNat :: (th ++ ':'.toNat :: (ti ++ ':'.toNat :: ts)))) ∧
    ty.length = 4 ∧ tm.length = 2 ∧ td.length = 2 ∧ th.length = 2 ∧ ti.length = 2 ∧ ts.length = 2 ∧
    Number ty date.1 ∧ Number tm date.2.1 ∧ Number td date.2.2 ∧ Number th h ∧ Number ti m ∧ Number ts s

/-- The text is the distance of a clock from UTC in seconds, `+0130` or `-0500`. -/
def Zone (text : List Nat) (o : Int) : Prop :=
  ∃ (sign : Nat) (th tm : List Nat) (h m : Nat), text = sign :: (th ++ tm) ∧ th.length = 2 ∧ tm.length = 2 ∧ Number th h ∧ Number tm m ∧
    m < 60 ∧ (sign = '+'.toNat ∧ o = h * 3600 + m * 60 ∨ sign = '-'.toNat ∧ o = -(h * 3600 + m * 60 : Int))

/-- Read as a date of the calendar and a time of day with six digits after the point, the text says so many microseconds since the
first of January 1970. -/
def Says (text : List Nat) (micros : Nat) : Prop :=
  ∃ (a b : List Nat) (d h m s us : Nat), text = a ++ '.'.toNat :: b ∧ Moment a (day d) h m s ∧ b.length = 6 ∧ Number b us ∧
    h < 24 ∧ m < 60 ∧ s < 60 ∧ us < 1000000 ∧ ((d * 24 + h) * 60 + m) * 60 * 1000000 + s * 1000000 + us = micros

/-- The same, to the second. -/
def SaysSec (text : List Nat) (secs : Nat) : Prop :=
  ∃ (d h m s : Nat), Moment text (day d) h m s ∧ h < 24 ∧ m < 60 ∧ s < 60 ∧ ((d * 24 + h) * 60 + m) * 60 + s = secs

end Verif.Spec.Iso
