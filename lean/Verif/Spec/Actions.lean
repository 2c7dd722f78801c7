import Verif.Model.Step
/-!
# What the application sees of an action, and what a history says about it

The second part is read off the calls alone, without looking at the state.
-/
namespace Verif

/-- `act.status` -/
def World.statusOf (w : World) (a : ActId) : Option Status := (w.acts a).map Act.status
/-- `act.duration` -/
def World.durationOf (w : World) (a : ActId) : Option Int := (w.acts a).map Act.duration
/-- `act.data_map.get(k)` -/
def World.dataOf (w : World) (a : ActId) (k : String) : Option Val := (w.acts a).bind fun x => x.data.get? k
/-- `act.warn_events`: message and positional arguments of each. -/
def World.warningsOf (w : World) (a : ActId) : Option (List (String × List Val)) :=
  (w.acts a).map fun x => x.warnEvs.map fun e => (e.msg, e.fargs)
/-- `act.begin_event` -/
def World.beginOf (w : World) (a : ActId) : Option Event := (w.acts a).bind (·.beginEv)
/-- `act.end_event` -/
def World.endOf (w : World) (a : ActId) : Option Event := (w.acts a).bind (·.endEv)

/-- The warnings the item issues on action `a`: message and positional arguments. -/
def Item.warnsOn (a : ActId) : Item → List (String × List Val)
  | .op (.warn b m f _) => if b = a then [(m, f)] else []
  | _ => []

/-- The data the item writes to action `a`. -/
def Item.writesOn (a : ActId) : Item → Dict
  | .op (.begin b _ _ kw) => if b = a then kw else []
  | .op (.warn b _ _ kw) => if b = a then kw else []
  | .op (.success b _ _ kw) => if b = a then kw else []
  | .op (.failure b _ _ kw) => if b = a then kw else []
  | .op (.exception b (some _) _ _ kw) => if b = a then kw else []
  | .op (.setItem b k v) => if b = a then [(k, v)] else []
  | _ => []

/-- Is the item an explicit `a.exception(...)`? -/
def Item.isExceptionOn (a : ActId) : Item → Bool
  | .op (.exception b ..) => b = a
  | _ => false

/-- The status of action `a` after the item, given the status before. -/
def Item.statusOn (a : ActId) (it : Item) (st : Status) : Status :=
  match it with
  | .op (.success b ..) => if b = a then .success else st
  | .op (.failure b ..) => if b = a then .failure else st
  | .op (.exception b (some _) ..) => if b = a then .exception else st
  | .exit b (some _) => if b = a then .exception else st
  | .exit b none => if b = a ∧ st = .begin then .success else st
  | _ => st

/-- The status the item asks for on action `a`, if it is an explicit status call that can work
(`exception()` outside an except block raises). -/
def Item.statusCall (a : ActId) : Item → Option Status
  | .op (.success b ..) => if b = a then some .success else none
  | .op (.failure b ..) => if b = a then some .failure else none
  | .op (.exception b (some _) ..) => if b = a then some .exception else none
  | _ => none

/-- The status asked for by the last explicit status call on `a`. -/
def lastStatus (a : ActId) (its : List Item) : Option Status :=
  (its.filterMap (·.statusCall a)).getLast?

/-- Is the item one after which an end event of `a` may be published: an explicit status call, or leaving
its with block? -/
def Item.ends (a : ActId) : Item → Bool
  | .op (.success b ..) | .op (.failure b ..) | .op (.exception b ..) | .exit b _ => b = a
  | _ => false

/-- The item does not enter or leave `a`'s own with block. -/
def Item.inside (a : ActId) : Item → Prop
  | .enter b => b ≠ a
  | .exit b _ => b ≠ a
  | _ => True

/-- The value most recently written to key `k`. -/
def lastWrite (k : String) (ws : Dict) : Option Val :=
  ((ws.filter fun p => p.1 = k).getLast?).map (·.2)

end Verif
