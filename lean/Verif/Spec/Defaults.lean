import Verif.Model.Action
/-!
# What the default messages are
-/
namespace Verif
variable {x : Act}

/-- No message was given. -/
def Unsaid (m : Option String) : Prop := m = none ∨ m = some ""

/-- The text an action's end gets by default: its name, what happened, and where the data map is to be shown. -/
def plainEnd (name verb : String) (data : Dict) : String :=
  name ++ " " ++ verb ++ if data = [] then "" else " - ({data_map_repr})"

theorem falsy_unsaid {m : Option String} (h : Unsaid m) : falsy m = true := by
  rcases h with rfl | rfl <;> rfl

theorem endMsg_plain {m : Option String} (h : Unsaid m) (verb : String) : endMsg x m (" " ++ verb) = plainEnd x.name verb x.data := by
  rw [endMsg, falsy_unsaid h, if_pos rfl, plainEnd]
  by_cases hd : x.data = []
  · rw [if_pos (by simp [hd]), if_pos hd]
    simp [String.append_assoc]
  · rw [if_neg (by simpa using hd), if_neg hd]
    simp [String.append_assoc]

end Verif
