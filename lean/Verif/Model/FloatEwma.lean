import Verif.Model.Float
/-!
# `lithoxyl/ewma.py` in floating point

As `Verif.Model.Ewma`, but every operation on floats is rounded (`Verif.Model.Float`).  `math.exp` is a parameter: the C library
does not promise the nearest float.
-/
namespace Verif.FltEwma

open Verif.Flt

variable {K : Type} [Field K] [LinearOrder K]

/-- An `EWMAAccumulator` (ewma.py:12-23): `_interval`, `_rate_map` (each period once), `_uncounted`, `_last_update`,
`_force_next_update`. -/
structure Acc (K : Type) where
  interval : K
  rates : List (K × Option K)
  uncounted : K
  last : K
  force : Bool

/-- `add` (ewma.py:25-27). -/
def add (R : Rounding K) (e : Acc K) (value : K) : Acc K := { e with uncounted := R.rnd (e.uncounted + value) }

/-- `rate_map[period] += alpha * (new_rate - rate_map[period])` (ewma.py:41). -/
def moved (R : Rounding K) (alpha new old : K) : K := R.rnd (old + R.rnd (alpha * R.rnd (new - old)))

/-- `alpha = 1 - math.exp(-interval / period)` (ewma.py:40). -/
def weight (R : Rounding K) (exp : K → K) (interval period : K) : K := R.rnd (1 - exp (R.rnd (-interval / period)))

/-- One round of the loop in `_update` (ewma.py:35-41), for an interval that is not zero and a period that is not zero. -/
def newRate (R : Rounding K) (exp : K → K) (uncounted interval period : K) : Option K → K
  | none => R.rnd (uncounted / interval)
  | some r => moved R (weight R exp interval period) (R.rnd (uncounted / interval)) r

/-- `_update` at the clock reading `now` (ewma.py:29-43); `none` is the ZeroDivisionError of the first round, with nothing
changed. -/
def update (R : Rounding K) (exp : K → K) (e : Acc K) (now : K) : Option (Acc K) :=
  let interval := R.rnd (now - e.last)
  if interval = 0 ∧ e.rates ≠ [] then none
  else some { e with
    rates := e.rates.map fun (p, old) => (p, some (newRate R exp e.uncounted interval p old))
    uncounted := 0, last := now }

/-- `get_rates` with the clock readings of the test and of `_update` (ewma.py:45-52): the rates, or `none` for
ZeroDivisionError, and the accumulator left behind. -/
def getRates (R : Rounding K) (exp : K → K) (e : Acc K) (t1 t2 : K) : Option (List (K × Option K)) × Acc K :=
  if R.rnd (t1 - e.last) ≥ e.interval then
    match update R exp e t2 with
    | none => (none, e)
    | some e' => (some e'.rates, e')
  else if e.force then
    let e1 := { e with force := false }
    match update R exp e1 t2 with
    | none => (none, e1)
    | some e' => (some e'.rates, e')
  else (some e.rates, e)

/-- Using an accumulator. -/
inductive Op (K : Type) where
  | add (value : K)
  | read (t1 t2 : K)

/-- One use. -/
def step (R : Rounding K) (exp : K → K) (e : Acc K) : Op K → Acc K
  | .add v => add R e v
  | .read t1 t2 => (getRates R exp e t1 t2).2

/-- Any sequence of uses. -/
def run (R : Rounding K) (exp : K → K) (e : Acc K) (ops : List (Op K)) : Acc K := ops.foldl (step R exp) e

/-- Whether a read updates. -/
def Updates (R : Rounding K) (e : Acc K) (t1 t2 : K) : Prop :=
  (R.rnd (t1 - e.last) ≥ e.interval ∨ e.force = true) ∧ ¬ (R.rnd (t2 - e.last) = 0 ∧ e.rates ≠ [])

instance (R : Rounding K) (e : Acc K) (t1 t2 : K) : Decidable (Updates R e t1 t2) := by unfold Updates; infer_instance

end Verif.FltEwma
