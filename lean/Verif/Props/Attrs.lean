import Verif.Model.Attrs
/-!
# C122: events speak for their actions
-/
namespace Verif.Attrs

/-- The attributes an event has of its own, for a user: what it is, when it came, what it says, and which action it is of. -/
def own : Kind → List String
  | .exception | .end => ["action", "etime", "event_id", "raw_message", "fargs", "message", "status", "status_char", "exc_info"]
  | _ => ["action", "etime", "event_id", "raw_message", "fargs", "message", "status", "status_char"]

/-- The attributes of actions that events do not have, for a user. -/
def forwarded : List String :=
  ["name", "level", "level_name", "logger", "data_map", "guid", "action_id", "duration", "parent_depth", "parent_action",
   "callpoint", "begin_event", "end_event", "warn_events", "exc_event", "exc_events", "get_elapsed_time"]

/-- Names that Python or lithoxyl gives a meaning of their own. -/
def internal : List String := ["_message", "__getitem__", "__getattr__"] ++ objectAttrs

theorem action_found (depth : Nat) (k : Kind) (inst extra bad : List String) (h : "action" ∈ inst) :
    getattr (depth + 1) k inst extra bad "action" = .ofEvent := by
  unfold getattr
  rw [if_pos]
  exact Or.inr ⟨by cases k <;> decide, Or.inl h⟩

theorem own_spec (k : Kind) (name : String) :
    name ∈ own k ∨ name ∈ internal ↔ name ∈ eventInit k ∨ name ∈ eventClass k := by
  cases k <;> simp only [own, internal, eventInit, eventClass, List.mem_append, List.mem_cons, List.not_mem_nil, or_false] <;>
    grind

theorem props_in_class (k : Kind) (name : String) (h : name ∈ eventProps k) : name ∈ eventClass k := by
  cases k <;> simp only [eventProps, List.mem_cons, List.not_mem_nil, or_false] at h
  all_goals first | (subst h; decide) | (rcases h with rfl | rfl <;> decide)

/-- C122: whatever attribute one asks an event for, two levels of calls are enough to answer; its own attributes are its own,
every other one is the action's, and a name that neither has is an AttributeError.  What is missing for the full claim: copies of
events (see `C122_violated`), and properties of the event that raise AttributeError themselves (see `C122_masked`). -/
theorem C122_attributes_partial (depth : Nat) (k : Kind) (inst extra : List String) (name : String)
    (hi : ∀ x, x ∈ inst ↔ x ∈ eventInit k ∨ x = "_message" ∧ "_message" ∈ inst) :
    getattr (depth + 2) k inst extra [] name =
      if name ∈ own k ∨ name ∈ internal then .ofEvent
      else if name ∈ actionAttrs ∨ name ∈ extra then .ofAction
      else .attributeError := by
  have ha : "action" ∈ inst := (hi _).2 (Or.inl (by cases k <;> decide))
  have hm : "_message" ∈ eventClass k := by cases k <;> decide
  rw [getattr, action_found depth k inst extra [] ha]
  have : (name ∈ eventProps k ∧ name ∉ ([] : List String) ∨ name ∉ eventProps k ∧ (name ∈ inst ∨ name ∈ eventClass k)) ↔
      name ∈ own k ∨ name ∈ internal := by
    rw [own_spec]
    constructor
    · rintro (⟨h, _⟩ | ⟨_, h | h⟩)
      · exact Or.inr (props_in_class k name h)
      · rcases (hi _).1 h with h | ⟨rfl, _⟩
        · exact Or.inl h
        · exact Or.inr hm
      · exact Or.inr h
    · intro h
      by_cases hp : name ∈ eventProps k
      · exact Or.inl ⟨hp, by simp⟩
      · refine Or.inr ⟨hp, h.imp_left fun h => (hi _).2 (Or.inl h)⟩
  simp only [this]

/-- C122: in particular the attributes of actions that events have no meaning for are the action's. -/
theorem C122_forwarded (depth : Nat) (k : Kind) (inst extra : List String)
    (hi : ∀ x, x ∈ inst ↔ x ∈ eventInit k ∨ x = "_message" ∧ "_message" ∈ inst) (name : String) (hn : name ∈ forwarded) :
    getattr (depth + 2) k inst extra [] name = .ofAction := by
  rw [C122_attributes_partial depth k inst extra name hi]
  have h1 : ∀ k, ∀ n ∈ forwarded, ¬ (n ∈ own k ∨ n ∈ internal) := by intro k; cases k <;> decide
  have h2 : ∀ n ∈ forwarded, n ∈ actionAttrs := by decide
  rw [if_neg (h1 k name hn), if_pos (Or.inl (h2 name hn))]

/-- The hypothesis about the instance is met by every new event, and after its message was read. -/
theorem new_event (k : Kind) (inst : List String) (h : inst = eventInit k ∨ inst = "_message" :: eventInit k) :
    ∀ x, x ∈ inst ↔ x ∈ eventInit k ∨ x = "_message" ∧ "_message" ∈ inst := by
  intro x
  rcases h with rfl | rfl
  · exact ⟨Or.inl, fun h => h.elim id fun ⟨h1, h2⟩ => h1 ▸ h2⟩
  · simp only [List.mem_cons, true_or, and_true]; exact or_comm

example : getattr 1000 .end (eventInit .end) ["request"] [] "duration" = .ofAction ∧
    getattr 1000 .begin ("_message" :: eventInit .begin) ["request"] [] "status" = .ofEvent ∧
    getattr 1000 .warning (eventInit .warning) ["request"] [] "exc_info" = .attributeError ∧
    getattr 1000 .warning (eventInit .warning) ["request"] [] "request" = .ofAction := by
  refine ⟨C122_forwarded 998 _ _ _ (new_event _ _ (.inl rfl)) _ (by decide), ?_, ?_, ?_⟩
  · rw [C122_attributes_partial 998 _ _ _ _ (new_event _ _ (.inr rfl))]; decide
  · rw [C122_attributes_partial 998 _ _ _ _ (new_event _ _ (.inl rfl))]; decide
  · rw [C122_attributes_partial 998 _ _ _ _ (new_event _ _ (.inl rfl))]; decide

/-- C122: where reading a message raises AttributeError, the error seen is another one: that the action has no message. -/
theorem C122_masked (depth : Nat) (k : Kind) (inst extra bad : List String) (ha : "action" ∈ inst) (hb : "message" ∈ bad) :
    getattr (depth + 2) k inst extra bad "message" = if "message" ∈ extra then .ofAction else .attributeError := by
  rw [getattr, action_found depth k inst extra bad ha, if_neg]
  · simp only [show "message" ∉ actionAttrs by decide, false_or]
  · have : "message" ∈ eventProps k := by cases k <;> decide
    rintro (⟨_, h⟩ | ⟨h, _⟩)
    · exact h hb
    · exact h this

theorem bare_recursion (depth : Nat) (k : Kind) (inst extra bad : List String) (h : "action" ∉ inst) (name : String)
    (hn : name ∉ inst) (hc : name ∉ eventClass k) : getattr depth k inst extra bad name = .recursionError := by
  induction depth generalizing name with
  | zero => rfl
  | succ depth ih =>
    rw [getattr, if_neg, ih "action" h (by cases k <;> decide)]
    rintro (⟨hp, _⟩ | ⟨_, h | h⟩)
    · exact hc (props_in_class k name hp)
    · exact hn h
    · exact hc h

/-- C122 fails: no event can be copied, however much stack there is. -/
theorem C122_violated (depth : Nat) (k : Kind) (inst extra : List String) : copy depth k inst extra = none := by
  unfold copy hasattr
  rw [bare_recursion depth k [] extra [] (by simp) "__setstate__" (by simp) (by cases k <;> decide)]

end Verif.Attrs
