import Verif.Model.Contexts
import Verif.Spec.Delivery
/-!
# Vocabulary for statements about several contexts
-/
namespace Verif

/-- The logger a call on a logger or an action is about. -/
def Item.about (w : World) : Item → Option LogId
  | .enter a | .exit a _ => (w.acts a).map (·.logger)
  | .op o =>
    match o with
    | .begin a .. | .warn a .. | .success a .. | .failure a .. | .exception a .. | .setItem a .. => (w.acts a).map (·.logger)
    | .newLogger l .. | .newAction l .. | .comment l .. | .flush l | .setAsync l _ | .setSinks l _ | .addSink l _ | .clearSinks l
    | .addPreflush l _ => some l
    | _ => none

namespace Contexts

/-- Someone who only looks at logger `l` sees no difference between `s` and the later `s'`: its settings and queue, its active
parent and its actions are the same, and no sink or preflush hook has been called on its behalf in between. -/
structure Unaffected (l : LogId) (s s' : Sys) : Prop where
  log : s'.w.logs l = s.w.logs l
  active : s'.w.active l = s.w.active l
  actions : ∀ a x, x.logger = l → (s'.w.acts a = some x ↔ s.w.acts a = some x)
  calls : ∃ t, s'.w.trace = s.w.trace ++ t ∧ ∀ o ∈ t, o.log? ≠ some l
  published : ∃ p, s'.w.pub = s.w.pub ++ p ∧ ∀ q ∈ p, q.2.logger ≠ l

/-- The item leaves logger `l`, which is in no context's table but that of `c`, to itself: it is no call of `c`, it does not put
`l` into another context, and it is no call on `l` or on an action that belongs to `l` in state `s`. -/
def Elsewhere (s : Sys) (c : CtxId) (l : LogId) : Item → Prop
  | .newCtx | .setContext _ | .newLogger .. => True
  | .on d o => d ≠ c ∧ o ≠ .add l
  | .call it => it.about s.w ≠ some l

/-- The context an item can change. -/
def Item.target (s : Sys) : Item → Option CtxId
  | .on c _ => some c
  | .newLogger _ (some c) _ _ => some c
  | .newLogger _ none _ _ => s.glob
  | _ => none

/-- The calls of note handlers in a trace. -/
def notes (tr : List Obs) : List (Nat × String) := tr.filterMap fun | .note h n => some (h, n) | _ => none

/-- An item of an application with one context, number 0, as the model of Model/Step.lean has it. -/
def single : Item → List Verif.Item
  | .newCtx | .setContext _ => []
  | .newLogger l _ ss as => [.op (.newLogger l ss as)]
  | .on _ .flush => [.op .ctxFlush]
  | .on _ (.enable u) => [.op (.enableAsync u)]
  | .on _ (.disable u) => [.op (.disableAsync u)]
  | .on _ (.add l) => [.op (.addLogger l)]
  | .on _ (.remove l) => [.op (.removeLogger l)]
  | .on _ (.handler h) => [.op (.addNoteHandler h)]
  | .call it => if isCall it then [it] else []

/-- The item names no context but number 0, and makes no context. -/
def OneContext : Item → Prop
  | .newCtx => False
  | .setContext c => c = some 0
  | .newLogger _ c _ _ => c = none ∨ c = some 0
  | .on c _ => c = 0
  | .call _ => True

end Contexts
end Verif
