import Verif.Model.Note
/-!
# C31: internal notes
-/
namespace Verif.Note

variable {M A : Type} {fmt : M → List A → Option M} {handlers : Nat} {raises : Nat → Bool} {name : String}
  {message : M} {args : List A}

theorem callAll_quiet {msg : M} : ∀ {hs : List Nat}, (∀ h ∈ hs, raises h = false) →
    callAll raises name msg hs = (hs.map fun h => ⟨h, name, msg⟩, false) := by
  intro hs
  induction hs with
  | nil => intro _; rfl
  | cons h hs ih =>
    intro hq
    simp [callAll, hq h (by simp), ih (fun x hx => hq x (by simp [hx]))]

theorem callAll_prefix {msg : M} : ∀ {hs : List Nat}, (callAll raises name msg hs).1 <+:
    hs.map fun h => ⟨h, name, msg⟩ := by
  intro hs
  induction hs with
  | nil => exact List.prefix_rfl
  | cons h hs ih =>
    simp only [callAll]
    split
    · exact ⟨hs.map fun h => ⟨h, name, msg⟩, by simp⟩
    · simp only [List.map_cons]
      exact (List.prefix_cons_inj _).2 ih

theorem callAll_raises {msg : M} : ∀ {hs : List Nat}, (callAll raises name msg hs).2 = true →
    ∃ h ∈ hs, raises h = true := by
  intro hs
  induction hs with
  | nil => intro h; cases h
  | cons h hs ih =>
    simp only [callAll]
    split
    · intro _; exact ⟨h, by simp, by assumption⟩
    · intro hh
      obtain ⟨x, hx, hr⟩ := ih hh
      exact ⟨x, by simp [hx], hr⟩

/-- C31: with handlers that do not raise, every one of them is called once, in order, with the formatted message: the result of
`%` when there are arguments and it succeeds, and otherwise the message as given; and nothing is raised. -/
theorem C31_note_partial (hq : ∀ h, raises h = false) :
    note fmt handlers raises name message args =
      ((List.range handlers).map fun h =>
        ⟨h, name, match args, fmt message args with | _ :: _, some m => m | _, _ => message⟩, false) := by
  simp only [note]
  split
  · rename_i h; subst h; rfl
  · rw [callAll_quiet (fun h _ => hq h)]
    cases args with
    | nil => rfl
    | cons a as => cases fmt message (a :: as) <;> rfl

/-- C31, formatting never raises: when something is raised, a handler raised it.  And whatever is raised, each
handler is called at most once and in order. -/
theorem C31_format_never_raises :
    ((note fmt handlers raises name message args).2 = true → ∃ h < handlers, raises h = true) ∧
    (note fmt handlers raises name message args).1.map (·.handler) <+: List.range handlers := by
  simp only [note]
  split
  · exact ⟨fun h => by simp at h, List.nil_prefix⟩
  · refine ⟨fun h => ?_, ?_⟩
    · obtain ⟨x, hx, hr⟩ := callAll_raises h
      exact ⟨x, by simpa using hx, hr⟩
    · have := (callAll_prefix (raises := raises) (name := name)
        (msg := if args.isEmpty then message else (fmt message args).getD message)
        (hs := List.range handlers)).map (·.handler)
      simpa [Function.comp_def] using this

/-- C31 fails when a handler raises: the ones after it are not called, and the caller gets the exception. -/
theorem C31_violated :
    ∃ raises : Nat → Bool, note (fun (m : String) (_ : List Nat) => some m) 2 raises "n" "m" [] =
      ([⟨0, "n", "m"⟩], true) := ⟨fun h => h == 0, rfl⟩

/-- Two handlers, a message whose formatting fails. -/
example : note (fun (_ : String) (_ : List Nat) => none) 2 (fun _ => false) "n" "50%" [1] =
    ([⟨0, "n", "50%"⟩, ⟨1, "n", "50%"⟩], false) := C31_note_partial (fun _ => rfl)

end Verif.Note
