import Verif.Spec.Wrapping
/-!
# Ways from an object to a class
-/
namespace Verif.Wrapping

/-- A way from the target to an object through classes whose names are not skipped; `vs` are the classes it comes by, the
last one first, none of them twice. -/
inductive Way (L : Layout) (skip : String → Bool) (h : Heap) (target : Oid) : List Oid → Oid → Prop
  | here : Way L skip h target [] target
  | step {vs : List Oid} {o c : Oid} {n : String} : Way L skip h target vs o → n ∈ L.dir o → skip n = false →
      attr L h o n = some (.cls c) → c ∉ vs → Way L skip h target (c :: vs) c

/-- No class that is some way of exactly `depth` steps away is also fewer steps away: nothing is first met at the end of a
detour. -/
def NoDetour (L : Layout) (skip : String → Bool) (h : Heap) (target : Oid) (depth : Nat) : Prop :=
  ∀ k vs vs', k ≠ target → Way L skip h target vs k → Way L skip h target vs' k → vs.length = depth → depth ≤ vs'.length

end Verif.Wrapping
