import Verif.Model.Target
import Verif.Props.WrapAll
/-!
# C127: wrap_all and unwrap_all without a target
-/
namespace Verif.Wrapping

/-- The module that the code `k` frames up belongs to. -/
def CallingModule (stack : List Globals) (modules : String → Option Oid) (k : Nat) (o : Oid) : Prop :=
  ∃ g name, stack[k]? = some g ∧ g.lookup "__name__" = some name ∧ modules name = some o

/-- C127, the full claim: without a target the calls do to the calling module what they do to a target given. -/
def C127_full : Prop :=
  ∀ (L : Layout) (c : WrapAllArgs) (depth : Int) (label : String) (h : Heap) (stack : List Globals)
    (modules : String → Option Oid) (o : Oid), CallingModule stack modules 1 o →
    wrapAllCall L c depth label h stack modules .none = wrapAllCall L c depth label h stack modules (.object o)

/-- C127: a target given is the one worked on. -/
theorem C127_given_partial (L : Layout) (c : WrapAllArgs) (depth : Int) (label : String) (h : Heap) (stack : List Globals)
    (modules : String → Option Oid) (o : Oid) (fuel : Nat) :
    wrapAllCall L c depth label h stack modules (.object o) = wrapAll L c depth label h o ∧
    unwrapAllCall L fuel h stack modules (.object o) = unwrapAll L fuel h o := ⟨rfl, rfl⟩

theorem byFrame_none (stack : List Globals) (modules : String → Option Oid) (k : Int) :
    resolve.byFrame stack modules k = Option.none := by
  unfold resolve.byFrame
  split
  · rfl
  · rfl

/-- C127: without a target, or with a number of frames, both calls raise, wherever they are called from, and nothing changes:
the name of the module is looked for among the attributes of the dict of its globals. -/
theorem C127_raises (L : Layout) (c : WrapAllArgs) (depth : Int) (label : String) (h : Heap) (stack : List Globals)
    (modules : String → Option Oid) (t : Target) (ht : ∀ o, t ≠ .object o) (fuel : Nat) :
    wrapAllCall L c depth label h stack modules t = (⟨h, [], []⟩, true) ∧
    unwrapAllCall L fuel h stack modules t = Option.none := by
  have hr : resolve stack modules t = Option.none := by
    cases t with
    | none => exact byFrame_none stack modules 1
    | frames k => exact byFrame_none stack modules _
    | object o => exact absurd rfl (ht o)
  unfold wrapAllCall unwrapAllCall
  rw [hr]
  exact ⟨rfl, rfl⟩

/-- C127, the full claim, is false. -/
theorem C127_violated : ¬ C127_full := by
  intro hfull
  have h1 := hfull Demo.plainLayout Demo.args 1 "m" Demo.plainHeap [[], [("__name__", "m")]]
    (fun n => if n = "m" then some 0 else Option.none) 0 ⟨[("__name__", "m")], "m", rfl, rfl, rfl⟩
  rw [(C127_raises Demo.plainLayout Demo.args 1 "m" Demo.plainHeap _ _ .none (fun o h => by cases h) 0).1] at h1
  have h2 := congrArg (fun r : WState × Bool => r.2) h1
  have h3 : (wrapAll Demo.plainLayout Demo.args 1 "m" Demo.plainHeap 0).2 = false := by decide +kernel
  change true = (wrapAll Demo.plainLayout Demo.args 1 "m" Demo.plainHeap 0).2 at h2
  rw [h3] at h2
  cases h2

end Verif.Wrapping
