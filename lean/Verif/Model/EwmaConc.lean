import Verif.Model.Ewma
/-!
# An EWMA accumulator shared by threads

`EWMAAccumulator.add` and `get_rates` (ewma.py:25-52) in single steps, any number of threads.  Nothing serialises the calls: a
synchronous logger calls `EWMASink.on_end` from whatever thread publishes, and the application reads rates when it likes.

The atomic steps are those of CPython: reading or writing an attribute or a value of a dict, reading the clock, copying a dict.
Simplified: the clock and the attribute it is compared with (ewma.py:47) are read in one step; periods are not zero.  Numbers are
reals, as in `Model/Ewma.lean`.
-/
namespace Verif.EwmaConc

open Classical

noncomputable section

abbrev Tid := Nat

/-- Where a thread is.  `i` counts the rounds of the loop in `_update`, `cur` is its `cur_time`, `iv` its `interval`, `new` its
`new_rate`. -/
inductive PC
  | idle
  /-- `add`: read `self._uncounted` (ewma.py:27) -/
  | load (v : ℝ)
  /-- and write the sum (27) -/
  | save (v : ℝ) (u : ℝ)
  /-- `get_rates`: `time.time() - self._last_update >= self._interval` (47) -/
  | test
  /-- `self._force_next_update` (49) -/
  | forced
  /-- `self._force_next_update = False` (50) -/
  | clear
  /-- `_update`: `cur_time = time.time()` (32) -/
  | clock
  /-- `interval = cur_time - self._last_update` (33) -/
  | since (cur : ℝ)
  /-- the next round, `self._uncounted / interval` (35-36) -/
  | amount (cur iv : ℝ) (i : Nat)
  /-- `rate_map[period] is None` (37) -/
  | known (cur iv : ℝ) (i : Nat) (new : ℝ)
  /-- `rate_map[period] = new_rate` (38) -/
  | first (cur iv : ℝ) (i : Nat) (new : ℝ)
  /-- `rate_map[period] += alpha * (new_rate - rate_map[period])` (41): read the left hand side -/
  | left (cur iv : ℝ) (i : Nat) (new : ℝ)
  /-- read the right hand side (41) -/
  | right (cur iv : ℝ) (i : Nat) (new l : ℝ)
  /-- write (41) -/
  | put (cur iv : ℝ) (i : Nat) (x : ℝ)
  /-- `self._uncounted = 0` (42) -/
  | reset (cur : ℝ)
  /-- `self._last_update = cur_time` (43) -/
  | stamp (cur : ℝ)
  /-- `dict(self._rate_map)` (52); then `get_rates` returns -/
  | copy

/-- The accumulator, the clock and the threads.  History: `calls` are the values `add` was called with, `taken` the amounts that
went into the rate of a period, `reads` what `get_rates` returned (`none`: ZeroDivisionError). -/
structure Sys where
  acc : Ewma.Ewma
  now : ℝ
  pcs : List PC
  calls : List ℝ
  taken : List (ℝ × ℝ)
  reads : List (Option (List (ℝ × Option ℝ)))

inductive Act
  /-- a sink calls `acc.add(v)` -/
  | add (v : ℝ)
  /-- the application calls `acc.get_rates()` -/
  | read
  | go
  /-- time passes -/
  | pass (d : ℝ)

def Sys.to (s : Sys) (t : Tid) (p : PC) : Sys := { s with pcs := s.pcs.set t p }

/-- The rate of the `i`th period. -/
def rateAt (e : Ewma.Ewma) (i : Nat) : Option ℝ := (e.rates[i]?).bind (·.2)

/-- `rate_map[period] = x` for the `i`th period. -/
def setRate (e : Ewma.Ewma) (i : Nat) (x : ℝ) : Ewma.Ewma :=
  { e with rates := e.rates.modify i fun r => (r.1, some x) }

/-- The next step of a thread (the lines are given with `PC`). -/
def go (s : Sys) (t : Tid) : PC → Sys
  | .idle => s
  | .load v => s.to t (.save v s.acc.uncounted)
  | .save v u => { s.to t .idle with acc := { s.acc with uncounted := u + v } }
  | .test => s.to t (if s.now - s.acc.last ≥ s.acc.interval then .clock else .forced)
  | .forced => s.to t (if s.acc.force then .clear else .copy)
  | .clear => { s.to t .clock with acc := { s.acc with force := false } }
  | .clock => s.to t (.since s.now)
  | .since cur => s.to t (.amount cur (cur - s.acc.last) 0)
  | .amount cur iv i =>
    match s.acc.rates[i]? with
    | none => s.to t (.reset cur)
    | some r =>
      if iv = 0 then { s.to t .idle with reads := s.reads ++ [none] }
      else { s.to t (.known cur iv i (s.acc.uncounted / iv)) with taken := s.taken ++ [(r.1, s.acc.uncounted)] }
  | .known cur iv i new => s.to t (if rateAt s.acc i = none then .first cur iv i new else .left cur iv i new)
  | .first cur iv i new => { s.to t (.amount cur iv (i + 1)) with acc := setRate s.acc i new }
  | .left cur iv i new => s.to t (.right cur iv i new ((rateAt s.acc i).getD 0))
  | .right cur iv i new l =>
    let period := ((s.acc.rates[i]?).map (·.1)).getD 1
    let alpha := 1 - Real.exp (-iv / period)
    s.to t (.put cur iv i (l + alpha * (new - (rateAt s.acc i).getD 0)))
  | .put cur iv i x => { s.to t (.amount cur iv (i + 1)) with acc := setRate s.acc i x }
  | .reset cur => { s.to t (.stamp cur) with acc := { s.acc with uncounted := 0 } }
  | .stamp cur => { s.to t .copy with acc := { s.acc with last := cur } }
  | .copy => { s.to t .idle with reads := s.reads ++ [some s.acc.rates] }

/-- A thread that is in a call can go on, one that is not can make a call; the clock goes on by itself. -/
def step (s : Sys) (t : Tid) (a : Act) : Sys :=
  match a with
  | .pass d => { s with now := s.now + d }
  | .go => match s.pcs[t]? with
    | some p => go s t p
    | none => s
  | .add v => match s.pcs[t]? with
    | some .idle => { s.to t (.load v) with calls := s.calls ++ [v] }
    | _ => s
  | .read => match s.pcs[t]? with
    | some .idle => s.to t .test
    | _ => s

/-- An accumulator that was just made at the clock reading `now`, and `n` threads. -/
def init (e : Ewma.Ewma) (n : Nat) : Sys := ⟨e, e.last, List.replicate n .idle, [], [], []⟩

/-- Any schedule. -/
def run (s : Sys) (sched : List (Tid × Act)) : Sys := sched.foldl (fun s x => step s x.1 x.2) s

end

end Verif.EwmaConc
