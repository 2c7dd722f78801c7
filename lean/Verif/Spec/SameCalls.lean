import Verif.Spec.Delivery
/-!
# Histories that differ in modes only
-/
namespace Verif

/-- A call without what it says about modes: `set_async` and `enable_async` are dropped, a logger is made without `async=`. -/
def Item.forget : Item → Option Item
  | .op (.setAsync _ _) => none
  | .op (.enableAsync _) => none
  | .op (.newLogger l ss _) => some (.op (.newLogger l ss none))
  | it => some it

/-- The same calls in the same order, apart from modes. -/
def SameCalls (its its' : List Item) : Prop := its.filterMap Item.forget = its'.filterMap Item.forget

end Verif
