import Verif.Model.Step
/-!
# Vocabulary for what actions are created with and what sinks are told
-/
namespace Verif

/-- The parent asked for: the `parent_action` keyword if it is an action, else the one given. -/
def parentAsked (kw : Dict) (active : Option ActId) : Option ActId :=
  match kw.get? "parent_action" with
  | some (.act p) => some p
  | _ => active

/-- The statuses an event handed to `on_<kind>` can have. -/
def Kind.statuses : Kind → List Status
  | .begin => [.begin]
  | .warn => [.warning]
  | .end_ => [.success, .failure, .exception]
  | .exception => [.exception]
  | .comment => [.comment]

/-- The calls of `on_exception` hooks in a trace. -/
def onException (tr : List Obs) : List (SinkId × Event) :=
  tr.filterMap fun
    | .hook s .exception e => some (s, e)
    | _ => none

end Verif
