/-!
# `lithoxyl/context.py`: `LithoxylContext.note`

The `%` operator is a parameter: `fmt m args` is the formatted message, or `none` if it raises an `Exception`.
A handler is known by whether its call raises.
-/
namespace Verif.Note

/-- One call of a note handler: its position in `note_handlers` and what it was given. -/
structure Call (M : Type) where
  handler : Nat
  name : String
  message : M
deriving DecidableEq, Repr

/-- The loop over the handlers (context.py:87-88): calls made, and whether one raised (which ends the loop). -/
def callAll {M : Type} (raises : Nat → Bool) (name : String) (msg : M) : List Nat → List (Call M) × Bool
  | [] => ([], false)
  | h :: hs =>
    if raises h then ([⟨h, name, msg⟩], true)
    else
      let r := callAll raises name msg hs
      (⟨h, name, msg⟩ :: r.1, r.2)

/-- `LithoxylContext.note` (context.py:73-89).  `handlers` is the number of handlers; the result is the calls made and whether
an exception reached the caller. -/
def note {M A : Type} (fmt : M → List A → Option M) (handlers : Nat) (raises : Nat → Bool)
    (name : String) (message : M) (args : List A) : List (Call M) × Bool :=
  if handlers = 0 then ([], false)
  else
    let message := if args.isEmpty then message else (fmt message args).getD message
    callAll raises name message (List.range handlers)

end Verif.Note
