import Verif.Model.Objects
import Verif.Spec.Publications
/-!
# Vocabulary: objects and what calls with them leave alone
-/
namespace Verif.Objects

/-- A string. -/
def text (s : String) : Obj where
  truth := .ok (s ≠ "")
  text := .ok s
  repr := .ok ("'" ++ s ++ "'")
  plus t := .ok (.ok (s ++ t))

/-- None: false, shown as `None`, and nothing can be added to it. -/
def nothing (typeError : Exc) : Obj where
  truth := .ok false
  text := .ok "None"
  repr := .ok "None"
  plus _ := .error typeError

/-- What a call shows for a message: its text; for one that is false, the default message. -/
def Obj.given (m : Obj) (default : Except Exc String) : Except Exc String :=
  match m.truth with
  | .error e => .error e
  | .ok true => m.text
  | .ok false => default

/-- Nothing but counters is different: the next id, and how often the clock was read. -/
def Same (w w' : World) : Prop := w' = { w with nextId := w'.nextId, ticks := w'.ticks }

/-- The action with some more data. -/
def withData (w : World) (a : ActId) (kw : Dict) : World :=
  { w with acts := fun b => if b = a then (w.acts a).map fun x => { x with data := x.data.update kw } else w.acts b }

end Verif.Objects
