import Verif.Model.Step
/-!
# `Action.get_elapsed_time`
-/
namespace Verif

/-- `Action.get_elapsed_time` (action.py:279-286): the state after the call, and what it returns.  An event is
always true (no `__len__` or `__bool__` in `Event`, action.py:298-327), so the test of line 284 asks whether there
is one.  The only trace the call leaves is that the clock was read once more.  Simplification: times are whole
numbers of clock units, not floats. -/
def getElapsedTime (env : Env) (w : World) (a : ActId) : World × Int :=
  match (w.acts a).bind (·.beginEv) with
  | some b => (w.tick, w.now env - b.etime)
  | none => (w, 0)

end Verif
