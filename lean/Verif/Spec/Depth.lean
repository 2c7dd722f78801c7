import Verif.Model.Core
/-!
# Ancestors
-/
namespace Verif

/-- `n` steps can be taken from `a` along the parent links. -/
inductive Climbs (par : ActId → Option ActId) : Nat → ActId → Prop
  | zero (a : ActId) : Climbs par 0 a
  | succ {a p : ActId} {n : Nat} : par a = some p → Climbs par n p → Climbs par (n + 1) a

end Verif
