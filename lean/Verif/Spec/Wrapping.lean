import Mathlib.Logic.Relation
import Verif.Model.WrapAll
/-!
# What wrapping a module or class is about

Read off the attributes alone, without the traversals of the code.
-/
namespace Verif.Wrapping

/-- Class `c` is an attribute of `o`. -/
def Child (L : Layout) (h : Heap) (o c : Oid) : Prop := ∃ n ∈ L.dir o, attr L h o n = some (.cls c)

/-- The object itself, the classes that are attributes of it, their attributes, and so on. -/
def Within (L : Layout) (h : Heap) (target o : Oid) : Prop := Relation.ReflTransGen (Child L h) target o

/-- Nothing in sight of the target is a wrapped function yet. -/
def NothingWrapped (L : Layout) (h : Heap) (target : Oid) : Prop :=
  ∀ o n v, Within L h target o → n ∈ L.dir o → attr L h o n = some v → v.inner? = none

/-- Name `n` of object `o` is a function that the skip rule lets through. -/
def IsFunction (L : Layout) (skip : String → Bool) (h : Heap) (o : Oid) (n : String) : Prop :=
  n ∈ L.dir o ∧ skip n = false ∧ ∃ v, attr L h o n = some v ∧ v.named = true

/-- Every function in sight is defined by the object that shows it, as a plain function. -/
def OwnFunctions (L : Layout) (skip : String → Bool) (h : Heap) (target : Oid) : Prop :=
  ∀ o n v, Within L h target o → n ∈ L.dir o → skip n = false → attr L h o n = some v → v.named = true →
    h o n = some (.val v)

/-- No class in sight inherits from another class in sight. -/
def NoInheritance (L : Layout) (h : Heap) (target : Oid) : Prop :=
  ∀ o p, Within L h target o → p ∈ L.mro o → ¬ Within L h target p

/-- `o` can be reached from `target` by `d` steps through classes whose names are not skipped; `label` is the
dotted name of the way. -/
inductive Path (L : Layout) (skip : String → Bool) (h : Heap) (target : Oid) (label0 : String) :
    Nat → String → Oid → Prop
  | here : Path L skip h target label0 0 label0 target
  | step {d : Nat} {label : String} {o c : Oid} {n : String} : Path L skip h target label0 d label o →
      n ∈ L.dir o → skip n = false → attr L h o n = some (.cls c) →
      Path L skip h target label0 (d + 1) (label ++ "." ++ n) c

end Verif.Wrapping
