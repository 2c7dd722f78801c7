import Verif.Spec.Delivery
/-!
# Vocabulary for statements about the life of an action
-/
namespace Verif

/-- The `k`-events of action `a` that sink `s` has received, oldest first. -/
def got (s : SinkId) (k : Kind) (a : ActId) (tr : List Obs) : List Event :=
  tr.filterMap fun
    | .hook s' k' e => if s' = s ∧ k' = k ∧ e.act = a then some e else none
    | _ => none

/-- In `xs`, something satisfying `p` comes (somewhere) before something satisfying `q`. -/
def Before {α : Type} (p q : α → Prop) (xs : List α) : Prop :=
  ∃ pre x mid y post, xs = pre ++ x :: (mid ++ y :: post) ∧ p x ∧ q y

end Verif
