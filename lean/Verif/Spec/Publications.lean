import Verif.Model.Core
/-!
# Vocabulary: events of an action, publications of an action
-/
namespace Verif

/-- The event is attached to the action (`begin_event`, `end_event`, `warn_events`, `exc_events`). -/
def Act.Has (x : Act) (e : Event) : Prop :=
  x.beginEv = some e ∨ x.endEv = some e ∨ e ∈ x.warnEvs ∨ e ∈ x.excEvs

/-- The event exists: it was published, or it is attached to an action. -/
def World.HasEvent (w : World) (e : Event) : Prop :=
  (∃ k, (k, e) ∈ w.pub) ∨ ∃ a x, w.acts a = some x ∧ x.Has e

/-- The publications of kind `k` for action `a`, oldest first. -/
def pubsOf (pub : List (Kind × Event)) (k : Kind) (a : ActId) : List Event :=
  (pub.filter (fun p => p.1 = k ∧ p.2.act = a)).map (·.2)

end Verif
