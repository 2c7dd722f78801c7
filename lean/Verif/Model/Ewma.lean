import Mathlib.Analysis.Complex.Exponential
/-!
# `lithoxyl/ewma.py`

Numbers are reals (no rounding, no NaN).  Clock readings are given with each call.
-/
namespace Verif.Ewma

open Classical

noncomputable section

/-- An `EWMAAccumulator` (ewma.py:12-23): `_interval`, `_rate_map` (each period once), `_uncounted`, `_last_update`,
`_force_next_update`. -/
structure Ewma where
  interval : ℝ
  rates : List (ℝ × Option ℝ)
  uncounted : ℝ
  last : ℝ
  force : Bool

/-- `EWMAAccumulator(periods, interval)` at the clock reading `now` (ewma.py:12-23); `none` is ValueError.  An interval of 0
or no periods stand for the defaults. -/
def make (periods : List ℝ) (interval : ℝ) (now : ℝ) : Option Ewma :=
  let i := if interval = 0 then 5 else interval
  if ¬ (i > 0) then none
  else
    let ps := if periods = [] then [60, 300, 900] else periods
    some ⟨i, ps.dedup.map fun p => (p, none), 0, now, true⟩

/-- `add` (ewma.py:25-27). -/
def add (e : Ewma) (value : ℝ) : Ewma := { e with uncounted := e.uncounted + value }

/-- One round of the loop in `_update` (ewma.py:35-41), for an interval that is not zero and a period that is not zero. -/
def newRate (uncounted interval period : ℝ) (old : Option ℝ) : ℝ :=
  let new := uncounted / interval
  match old with
  | none => new
  | some r =>
    let alpha := 1 - Real.exp (-interval / period)
    r + alpha * (new - r)

/-- `_update` at the clock reading `now` (ewma.py:29-43); `none` is the ZeroDivisionError of the first round, with nothing
changed.  (A period of zero would raise in a later round; periods are assumed positive in the theorems.) -/
def update (e : Ewma) (now : ℝ) : Option Ewma :=
  let interval := now - e.last
  if interval = 0 ∧ e.rates ≠ [] then none
  else some { e with
    rates := e.rates.map fun (p, old) => (p, some (newRate e.uncounted interval p old))
    uncounted := 0, last := now }

/-- `get_rates` with the clock readings of the test and of `_update` (ewma.py:45-52): the rates, or `none` for
ZeroDivisionError, and the accumulator left behind. -/
def getRates (e : Ewma) (t1 t2 : ℝ) : Option (List (ℝ × Option ℝ)) × Ewma :=
  if t1 - e.last ≥ e.interval then
    match update e t2 with
    | none => (none, e)
    | some e' => (some e'.rates, e')
  else if e.force then
    let e1 := { e with force := false }
    match update e1 t2 with
    | none => (none, e1)
    | some e' => (some e'.rates, e')
  else (some e.rates, e)

/-- Using an accumulator. -/
inductive Op where
  | add (value : ℝ)
  | read (t1 t2 : ℝ)

/-- One use. -/
def step (e : Ewma) : Op → Ewma
  | .add v => add e v
  | .read t1 t2 => (getRates e t1 t2).2

/-- Any sequence of uses. -/
def run (e : Ewma) (ops : List Op) : Ewma := ops.foldl step e

/-- Whether a read updates. -/
def Updates (e : Ewma) (t1 t2 : ℝ) : Prop := (t1 - e.last ≥ e.interval ∨ e.force = true) ∧ ¬ (t2 - e.last = 0 ∧ e.rates ≠ [])

end

end Verif.Ewma
