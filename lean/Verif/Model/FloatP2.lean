import Verif.Model.Float
import Verif.Model.P2
/-!
# `lithoxyl/p_squared.py` in floating point

As `Verif.Model.P2`, but every operation on floats is rounded (`Verif.Model.Float`).  Positions are whole numbers; as floats
they are exact up to 2 ** 53 observations, more are left out.
-/
namespace Verif.FltP2

open Verif.Flt Verif.P2

variable {K : Type} [Field K] [LinearOrder K]

/-- The new height and position of a marker that moves by `d` (p_squared.py:79-87). -/
def move (F : Rounding K) (d : Int) (l c r : Marker K) : Option (Marker K) := do
  let f := F.rnd
  let a ← (pdiv (d : K) ((r.pos - l.pos : Int) : K)).map f
  let b ← (pdiv (f (((c.pos - l.pos + d : Int) : K) * f (r.height - c.height))) ((r.pos - c.pos : Int) : K)).map f
  let e ← (pdiv (f (((r.pos - c.pos - d : Int) : K) * f (c.height - l.height))) ((c.pos - l.pos : Int) : K)).map f
  let nq := f (c.height + f (a * f (b + e)))
  if l.height < nq ∧ nq < r.height then some { c with pos := c.pos + d, height := nq }
  else if d = 1 then do
    let x ← (pdiv (f (r.height - c.height)) ((r.pos - c.pos : Int) : K)).map f
    some { c with pos := c.pos + d, height := f (c.height + x) }
  else do
    let x ← (pdiv (f (l.height - c.height)) ((l.pos - c.pos : Int) : K)).map f
    some { c with pos := c.pos + d, height := f (c.height - x) }

/-- The body of the loop over `_quads` (p_squared.py:71-87). -/
def adjust [IsStrictOrderedRing K] [FloorRing K] (F : Rounding K) (prev : Int) (l c r : Marker K) : Option (Marker K) :=
  let f := F.rnd
  let d := trunc (f (f (f ((prev : K) * c.q) + 1) - (c.pos : K)))
  if d = 0 then some c
  else
    let d : Int := if d > 0 then 1 else -1
    if ¬ (l.pos < c.pos + d ∧ c.pos + d < r.pos) then some c
    else move F d l c r

/-- What a marker becomes, given the count before, its neighbours and itself. -/
abbrev Adjust (K : Type) := Int → Marker K → Marker K → Marker K → Option (Marker K)

/-- The loop over `_quads` (p_squared.py:32, 71-87). -/
def quadPass (adj : Adjust K) (prev : Int) (l : Marker K) : List (Marker K) → Option (List (Marker K))
  | [] => some []
  | [m] => some [m]
  | c :: r :: ms => do
    let c' ← adj prev l c r
    let rest ← quadPass adj prev c' (r :: ms)
    some (c' :: rest)

/-- `P2Estimator.add` (p_squared.py:54-87). -/
def add (adj : Adjust K) (ms : List (Marker K)) (val : K) : Option (List (Marker K)) :=
  match ms.getLast? with
  | none => some []
  | some l =>
    let prev := l.pos
    match extremes val (bumpLast ms) with
    | [] => some []
    | m :: rest => do
      let rest' ← quadPass adj prev m (backPass val rest)
      some (m :: rest')

/-- A sequence of `add`s. -/
def addAll (adj : Adjust K) (ms : List (Marker K)) : List K → Option (List (Marker K))
  | [] => some ms
  | v :: vs => do
    let ms' ← add adj ms v
    addAll adj ms' vs

/-- `P2Estimator(q_points, data)` (p_squared.py:17-37). -/
def make (adj : Adjust K) (points data : List K) : Option (List (Marker K)) :=
  let qps := 0 :: points ++ [1]
  if data.length < qps.length then none
  else addAll adj (initial qps data) (data.drop qps.length)

end Verif.FltP2
