import Verif.Model.Files
/-!
# What a log file should contain
-/
namespace Verif.Files

variable {B : Type}

/-- The separators of the emitters made in a history, in the order of making; `none` for one that was closed since. -/
def live : List (Option (List B)) → List (Op B) → List (Option (List B))
  | l, [] => l
  | l, .make _ v sep :: ops => live (if v then l ++ [some sep] else l) ops
  | l, .emit _ _ :: ops => live l ops
  | l, .close i :: ops => live (l.set i none) ops

/-- The entries that should be in the file after a history in which nobody overwrites, each followed by the separator of
its emitter: those given to an emitter that exists and is open. -/
def written : List (Option (List B)) → List (Op B) → List (List B)
  | _, [] => []
  | l, .emit i entry :: ops =>
    match l[i]? with
    | some (some sep) => (entry ++ sep) :: written l ops
    | _ => written l ops
  | l, .make o v sep :: ops => written (live l [.make o v sep]) ops
  | l, .close i :: ops => written (live l [.close i]) ops

/-- Nobody asks for overwriting. -/
def NoOverwrite (ops : List (Op B)) : Prop := ∀ v sep, Op.make true v sep ∉ ops

/-- Only emits through the emitter `i`. -/
def OnlyEmits (i : Nat) (ops : List (Op B)) : Prop := ∀ op ∈ ops, ∃ entry, op = .emit i entry

end Verif.Files
