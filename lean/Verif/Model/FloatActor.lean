import Verif.Model.Actor
import Verif.Model.Float
/-!
# The interval of an actor, computed in floating point (`actors.py`)

`Model/Actor.lean` computes intervals exactly.  Here every operation rounds.  What the interval is depends on how the task calls
so far ended and on nothing else (`interval_outs`), so that the rest of the actor is not repeated.
-/
namespace Verif.FltActor

open Verif.Actor Verif.Flt

variable {K : Type} [Field K] [LinearOrder K]

/-- `interval * 8` where no maximum is given (actors.py:36); both settings go through `float`. -/
def conf (R : Rounding K) (interval : K) (maxInterval : Option K) (daemon : Bool) : Conf K :=
  { orig := R.rnd interval
    max := match maxInterval with
      | none => R.rnd (interval * 8)
      | some m => if m = 0 then R.rnd (interval * 8) else R.rnd m
    daemon := daemon }

/-- The interval after a task call (actors.py:111-118). -/
def next (R : Rounding K) (cf : Conf K) (i : K) : Outcome → K
  | .ok => Max.max (R.rnd (i - R.rnd (R.rnd (cf.max - cf.orig) / 8))) cf.orig
  | .exc false => Min.min (R.rnd (i * 2)) cf.max
  | .exc true => i
  | .exit => i
  | .base => i

/-- The interval after task calls that ended as `outs` says, the latest first. -/
def interval (R : Rounding K) (cf : Conf K) (outs : List Outcome) : K := outs.foldr (fun o i => next R cf i o) cf.orig

end Verif.FltActor
