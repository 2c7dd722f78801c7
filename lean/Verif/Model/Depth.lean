import Verif.Model.Core
/-!
# `Action.parent_depth`
-/
namespace Verif

/-- The loop of `Action.parent_depth` (action.py:132-138): `par` is `parent_action`.  Actions are truthy
(no `__len__`, no `__bool__`). -/
def depthLoop (par : ActId → Option ActId) (self : ActId) (i : Nat) : Nat :=
  match par self with
  | none => i
  | some p => if i < 500 then depthLoop par p (i + 1) else i
termination_by 500 - i

/-- `Action.parent_depth` (action.py:132-138). -/
def parentDepth (par : ActId → Option ActId) (a : ActId) : Nat := depthLoop par a 0

/-- The `parent_action` attribute in a state. -/
def World.par (w : World) (a : ActId) : Option ActId := (w.acts a).bind (·.parent)

end Verif
