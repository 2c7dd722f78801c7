import Verif.Model.Level
/-!
# Vocabulary for levels
-/
namespace Verif.Lvl

/-- Names and values agree on which levels are the same. -/
def Consistent (S : Set Level) : Prop := ∀ a ∈ S, ∀ b ∈ S, a.name = b.name ↔ a.value = b.value

/-- Two levels share no alias: neither a spelling of the name nor the value. -/
def NoClash (lower upper : String → String) (a b : Level) : Prop :=
  a.name ≠ b.name ∧ a.value ≠ b.value ∧ lower a.name ≠ lower b.name ∧ upper a.name ≠ upper b.name ∧
    lower a.name ≠ upper b.name ∧ upper a.name ≠ lower b.name

/-- The key is one of the four ways to name the level: its lower-case or upper-case name, its value, or a level
object of that name. -/
def Names (lower upper : String → String) (l : Level) : Key → Prop
  | .str s => s = lower l.name ∨ s = upper l.name
  | .num n => n = l.value
  | .level m => m.name = l.name
  | .other _ => False

/-- How many of the levels lie above value `v`, up to and including value `u`. -/
def countAbove (regs : List Level) (v u : Int) : Nat :=
  (regs.filter fun l => v < l.value ∧ l.value ≤ u).length

end Verif.Lvl
