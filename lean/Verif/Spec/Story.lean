import Verif.Model.Line
import Verif.Spec.Script
import Verif.Spec.Entry
/-!
# What the log file of a program should tell
-/
namespace Verif.Story

open Verif.Tmpl (Part Reading points spaced write)

/-- The word for a status. -/
def word : Status → String
  | .begin => "begin"
  | .success => "success"
  | .failure => "failure"
  | .exception => "exception"
  | .warning => "warning"
  | .comment => "comment"

/-- The fields of the template `{status_str} {action_name} {event_message}`. -/
def parts : List Part :=
  [.name "status_str".toList none [], .name "action_name".toList none [], .name "event_message".toList none []]

def template : List Char := write (spaced parts)

example : String.ofList template = "{status_str} {action_name} {event_message}" := by decide +kernel

/-- What is read from a line of the file tells a line of the transcript: its status, the name of the action, and its message as it
is if it has no fields of its own, otherwise as it comes out (`shown`) if its fields can be shown; if reading it raises, the
field as it is written in the template. -/
def Told (x : Line × Sens.Res String) (read : Option (List Reading)) : Prop :=
  ∃ m, read = some [.plain (points (word x.1.status)), .text (points x.1.name), m] ∧
    ('{' ∉ x.1.msg.toList → m = .text (points x.1.msg)) ∧ (∀ text, x.2 = .ok text → m = .text (points text)) ∧
    (x.2 = .exc → m = .plain (points "{event_message}"))

/-- The word for a kind of event in a sink's `on`. -/
def hookWord : Kind → String
  | .begin => "begin"
  | .warn => "warn"
  | .end_ => "end"
  | .comment => "comment"
  | .exception => "exception"

/-- A line is selected: its kind is listed, and every filter returns true for its event. -/
def Selected (on : List String) (filters : List (Kind × Event → Option Bool)) (x : Line × (Kind × Event)) : Bool :=
  decide (hookWord x.1.kind ∈ on) && filters.all fun f => decide (f x.2 = some true)

/-- The foreign parts of rendering do what Python's do: `'{:s}'.format(text)` is the text, a message without fields is itself,
nothing raises anything but an Exception. -/
structure Sound (r : LineOf.Render) : Prop where
  text : ∀ s, r.fmt [] none ['s'] [] (.text s) = .ok s
  fmt : ∀ p cv s o v, r.fmt p cv s o v ≠ .base
  message : ∀ w e, r.message w e ≠ .base
  plain : ∀ w e, '{' ∉ e.msg.toList → r.message w e = .ok e.msg

/-- The states events are rendered in: after the event was published, and not later than the end `f`. -/
def Rendered (env : Env) (f : World) (at_ : Kind × Event → World) (evs : List (Kind × Event)) : Prop :=
  ∀ q ∈ evs, Reachable env (at_ q) ∧ q ∈ (at_ q).pub ∧ ∃ its, f = run env (at_ q) its

/-- No action has data under the names of the template's fields. -/
def NoClash (at_ : Kind × Event → World) (evs : List (Kind × Event)) : Prop :=
  ∀ q ∈ evs, ∀ k ∈ ["status_str", "action_name", "event_message"], (at_ q).dataOf q.2.act k = none

end Verif.Story
