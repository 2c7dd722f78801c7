import Verif.Spec.Lifecycle
import Verif.Model.Stack
/-!
# Vocabulary for statements about sinks, hooks and handlers that use lithoxyl
-/
namespace Verif.Stack

/-- The event is in some logger's queue, or is being handed to the sinks. -/
def Pending (s : St) (p : Kind × Event) : Prop := (∃ l, p ∈ queued s.w l) ∨ ∃ l g i, Frame.hooks l g p.1 p.2 i ∈ s.stack

/-- After `h`, starting from `s`, the stack is `fs` for the first time, and no exception is on its way: what was on top of `fs` has
come to its normal end. -/
structure Returns (env : Env) (s : St) (fs : List Frame) (h : List Act) : Prop where
  back : (run env s h).stack = fs
  fine : (run env s h).up = none
  first : ∀ g, g <+: h → g ≠ h → fs.length < (run env s g).stack.length

/-- Whenever the end of an action is published, its begin is neither queued nor being handed to the sinks. -/
def Settled (env : Env) (s : St) (h : List Act) : Prop :=
  ∀ g x e, g ++ [x] <+: h → (step env (run env s g) x).w.pub = (run env s g).w.pub ++ [(Kind.end_, e)] →
    ∀ b, b.act = e.act → ¬Pending (run env s g) (Kind.begin, b)

end Verif.Stack
