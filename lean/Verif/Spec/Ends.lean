import Verif.Model.Step
/-!
# Which end events a history of calls asks for
-/
namespace Verif

/-- What an end event says: the status, and the exception it tells of. -/
abbrev EndSaid := Status × Option Exc

def Event.said (e : Event) : EndSaid := (e.status, e.excInfo)

/-- An action between two calls: is it in its with block, and what was last said about how it ended? -/
structure Phase where
  inside : Bool
  last : Option EndSaid
deriving DecidableEq

/-- A status call: told at once, but inside the block only kept. -/
def Phase.say (p : Phase) (s : EndSaid) : Phase × List EndSaid := (⟨p.inside, some s⟩, if p.inside then [] else [s])

/-- Leaving the block: the exception if there is one, else what was said last, else success. -/
def Phase.leave (p : Phase) : Option Exc → EndSaid
  | some e => (.exception, some e)
  | none => p.last.getD (.success, none)

/-- What one call on action `a` makes known. -/
def Phase.item (a : ActId) (p : Phase) : Item → Phase × List EndSaid
  | .enter b => if b = a then (⟨true, p.last⟩, []) else (p, [])
  | .exit b exc =>
    if b = a then (⟨false, some (p.leave exc)⟩, [p.leave exc]) else (p, [])
  | .op (.success b ..) => if b = a then p.say (.success, none) else (p, [])
  | .op (.failure b ..) => if b = a then p.say (.failure, none) else (p, [])
  | .op (.exception b (some e) ..) => if b = a then p.say (.exception, some e) else (p, [])
  | _ => (p, [])

/-- What a history makes known about the end of action `a`. -/
def endsSaid (a : ActId) : Phase → List Item → List EndSaid
  | _, [] => []
  | p, it :: its => (p.item a it).2 ++ endsSaid a (p.item a it).1 its

/-- The phase of action `a` after a history. -/
def phaseAfter (a : ActId) (p : Phase) (its : List Item) : Phase := its.foldl (fun p it => (p.item a it).1) p

end Verif
