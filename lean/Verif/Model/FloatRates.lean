import Verif.Model.Float
import Verif.Model.Sinks
/-!
# `RateAccumulator.get_rate` and `RateSink.get_rates` in floating point

`Verif/Model/Sinks.lean` divides and adds exactly.  Here every operation is rounded, and the running sums are added up in the
order of the loops.
-/
namespace Verif.FRate

open Verif.Dct Verif.Flt Verif.Sinks

variable {K : Type} [Field K] [LinearOrder K]

/-- `get_rate` (sinks.py:99-129): comparisons are exact, the difference and the quotient are rounded, and so is the count, which
is an int, when it is divided by a float.  `none` is ZeroDivisionError. -/
def getRate (R : Rounding K) (a : RateAcc K) (start stop : Option K) (now : K) : Option K :=
  match a.times.head?, a.times.getLast? with
  | some first, some last =>
    let stop := orElse stop now
    let start := orElse start a.creation
    let (count, start, stop) :=
      if start ≤ a.creation then (a.total, start, stop)
      else
        let idx := Bis.left (fun y => decide (start ≤ y)) a.times
        let count := a.times.length - idx
        if count = 0 then (a.times.length, first, last)
        else if idx = 0 then (count, first, stop)
        else (count, start, stop)
    let span := R.rnd (stop - start)
    if span = 0 then none else some (R.rnd (R.rnd (count : K) / span))
  | _, _ => some 0

section Loops

variable {A L : Type} (R : Rounding K) (rate : A → K)

/-- The loop over the statuses (sinks.py:193-199), from the three running sums: the dictionary, and `cur_name_rate`,
`cur_logger_rate`, `all_loggers_rate`. -/
def loop3 (d : Dict String A) (logger all : K) : Dict String K × K × K × K :=
  d.foldl (fun st p =>
    let r := rate p.2
    (set st.1 p.1 r, R.rnd (st.2.1 + r), R.rnd (st.2.2.1 + r), R.rnd (st.2.2.2 + r))) ([], 0, logger, all)

/-- The loop over the names (sinks.py:190-199). -/
def loop2 (d : Dict String (Dict String A)) (all : K) : Dict String (K ⊕ Dict String K) × K × K :=
  d.foldl (fun st p =>
    let z := loop3 R rate p.2 st.2.1 st.2.2
    (set st.1 p.1 (.inr (set z.1 ALL z.2.1)), z.2.2.1, z.2.2.2)) ([], 0, all)

/-- The loop over the loggers (sinks.py:187-200). -/
def loop1 (lname : L → String) (m : Map3 L A) : Dict String (K ⊕ Dict String (K ⊕ Dict String K)) × K :=
  m.foldl (fun st p =>
    let z := loop2 R rate p.2 st.2
    (set st.1 (lname p.1) (.inr (set z.1 ALL (.inl z.2.1))), z.2.2)) ([], 0)

end Loops

/-- `RateSink.get_rates` (sinks.py:170-202) for a start and an end (with `max_time`, the start is `end_time - max_time`); `none`
is the ZeroDivisionError of an accumulator. -/
def getRates {L : Type} (R : Rounding K) (lname : L → String) (m : Map3 L (RateAcc K)) (start stop now : K) :
    Option (Dict String (K ⊕ Dict String (K ⊕ Dict String K))) :=
  if (accs m).all (fun a => (getRate R a (some start) (some stop) now).isSome) then
    let z := loop1 R (fun a => (getRate R a (some start) (some stop) now).getD 0) lname m
    some (set z.1 ALL (.inl z.2))
  else none

end Verif.FRate
