import Mathlib.Data.List.Basic
/-!
# ISO 8601 timestamps (lithoxyl/sensible.py:367-398, 472-506)

Times are whole microseconds since the beginning of 1970 in UTC: `datetime.fromtimestamp` rounds to them.  Times before 1970
are left out.  Text is a list of code points.  What `gmtime` and `strftime` of the interpreter do is modelled from their documentation.
-/
namespace Verif.Iso

/-- The Gregorian rule for leap years. -/
def leap (y : Nat) : Bool := y % 4 = 0 && (y % 100 ≠ 0 || y % 400 = 0)

def yearDays (y : Nat) : Nat := if leap y then 366 else 365

def monthDays (y m : Nat) : Nat :=
  if m = 2 then (if leap y then 29 else 28)
  else if m = 4 ∨ m = 6 ∨ m = 9 ∨ m = 11 then 30
  else 31

theorem yearDays_pos (y : Nat) : 0 < yearDays y := by unfold yearDays; split <;> omega

/-- The year of the day `d` days after the first of year `y`, and how many days of that year have passed. -/
def splitYear (y d : Nat) : Nat × Nat :=
  if d < yearDays y then (y, d) else splitYear (y + 1) (d - yearDays y)
termination_by d
decreasing_by have := yearDays_pos y; omega

/-- The month of the day `d` days after the first of month `m`, and the day of the month; there are `n` more months in the
year. -/
def splitMonth (y : Nat) : Nat → Nat → Nat → Nat × Nat
  | 0, m, d => (m, d + 1)
  | n + 1, m, d => if d < monthDays y m then (m, d + 1) else splitMonth y n (m + 1) (d - monthDays y m)

/-- Year, month and day of the day `d` days after 1970-01-01 (`gmtime`; `datetime.fromtimestamp`, sensible.py:381, 395-397). -/
def civil (d : Nat) : Nat × Nat × Nat :=
  let (y, n) := splitYear 1970 d
  let (m, k) := splitMonth y 11 1 n
  (y, m, k)

/-- `n` written with `k` decimal digits (the lowest ones), as `strftime` does for `%Y`, `%m`, `%d`, `%H`, `%M`, `%S`, `%f`.
Four digits for the year are right from year 1000 to 9999. -/
def pad : Nat → Nat → List Nat
  | 0, _ => []
  | k + 1, n => pad k (n / 10) ++ [48 + n % 10]

/-- `%Y-%m-%dT%H:%M:%S` for a number of seconds. -/
def textSec (s : Nat) : List Nat :=
  let (y, m, d) := civil (s / 86400)
  pad 4 y ++ 45 :: (pad 2 m ++ 45 :: (pad 2 d ++ 84 ::
    (pad 2 (s % 86400 / 3600) ++ 58 :: (pad 2 (s % 3600 / 60) ++ 58 :: pad 2 (s % 60)))))

/-- `%Y-%m-%dT%H:%M:%S.%f` for a number of microseconds. -/
def textMicro (t : Nat) : List Nat := textSec (t / 1000000) ++ 46 :: pad 6 (t % 1000000)

/-- `%z` for an offset of `o` seconds from UTC, in whole minutes, less than a hundred hours. -/
def zone (o : Int) : List Nat :=
  (if o < 0 then 45 else 43) :: (pad 2 (o.natAbs / 3600) ++ pad 2 (o.natAbs % 3600 / 60))

/-- `timestamp2iso8601(t, with_tz=...)` (sensible.py:388-398): the fields `iso_begin`, `iso_end` and their `notz` variants. -/
def utcTz (t : Nat) : List Nat := textMicro t ++ zone 0
def utcNotz (t : Nat) : List Nat := textMicro t

/-- boltons' `LocalTZ`, from its documentation: two offsets from UTC in seconds, and whether summer time is in force as a
function of the wall clock time (in microseconds) alone. -/
structure LocalTz where
  std : Int
  dst : Int
  isDst : Int → Bool

/-- `LocalTZ.utcoffset`, in seconds, for a wall clock time. -/
def LocalTz.offset (z : LocalTz) (w : Int) : Int := if z.isDst w then z.dst else z.std

/-- `tzinfo.fromutc`, which `datetime.fromtimestamp(t, tz=LocalTZ)` uses (sensible.py:395): the wall clock time at `t`. -/
def LocalTz.fromUtc (z : LocalTz) (t : Int) : Int :=
  let w := t + z.std * 1000000
  if z.isDst w then w + (z.dst - z.std) * 1000000 else w

/-- `timestamp2iso8601(t, local=True, with_tz=...)` (sensible.py:388-398): `iso_begin_local`, `iso_end_local` and their
`notz` variants. -/
def localTz (z : LocalTz) (t : Nat) : List Nat :=
  textMicro (z.fromUtc t).toNat ++ zone (z.offset (z.fromUtc t))
def localNotz (z : LocalTz) (t : Nat) : List Nat := textMicro (z.fromUtc t).toNat

/-- `timestamp2iso8601_noms(t, local=True, with_tz=...)` (sensible.py:367-385): `time.localtime` knows the offset `off s` in
force at the second `s`.  (`iso_begin_local_noms`, `iso_end_local_noms` and their `notz` variants.) -/
def localNoms (off : Nat → Int) (t : Nat) : List Nat :=
  textSec (((t / 1000000 : Nat) : Int) + off (t / 1000000)).toNat ++ zone (off (t / 1000000))
def localNomsNotz (off : Nat → Int) (t : Nat) : List Nat :=
  textSec (((t / 1000000 : Nat) : Int) + off (t / 1000000)).toNat

end Verif.Iso
