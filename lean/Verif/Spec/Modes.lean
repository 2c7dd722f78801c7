import Verif.Model.Modes
/-!
# Specification: publishing and switching modes in several threads
-/
namespace Verif.Modes

/-- All calls have returned. -/
def allReturned (s : Sys) : Prop := ∀ p ∈ s.pcs, p = .idle

/-- Some thread is inside the constructor of `l` or `l.set_async`. -/
def beingSet (s : Sys) (l : LogId) : Prop := (∃ g, PC.made l g ∈ s.pcs) ∨ ∃ b, PC.set l b ∈ s.pcs

/-- Some thread is inside a call that publishes on `l`. -/
def beingPublished (s : Sys) (l : LogId) : Prop :=
  ∃ e, PC.read l e ∈ s.pcs ∨ PC.append l e ∈ s.pcs ∨ PC.deliver l e ∈ s.pcs

/-- The call makes `l`, sets its mode or removes it from the context. -/
def changes (l : LogId) (a : Act) : Prop := (∃ g, a = .new l g) ∨ (∃ b, a = .setAsync l b) ∨ a = .remove l

/-- The call could make a logger asynchronous or the context async: `enable_async`, `set_async(True)`,
`Logger(async=True)`. -/
def asksAsync (a : Act) : Prop := (∃ u, a = .enable u) ∨ (∃ l, a = .setAsync l true) ∨ ∃ l, a = .new l (some true)

/-- The full claim: take any state, let thread `t` call `disable_async()` and other threads do what they like except ask
for asynchronous mode.  When all calls have returned, no registered logger is asynchronous and none has events queued. -/
def DisableFull : Prop :=
  ∀ (n : Nat) (before after : List (Tid × Act)) (t : Tid),
    (run (init n) before).pcs[t]? = some .idle →
    (∀ x ∈ after, ¬ asksAsync x.2 ∧ (x.1 = t → x.2 = .go)) →
    allReturned (run (init n) (before ++ (t, .disable true) :: after)) →
    ∀ l ∈ (run (init n) (before ++ (t, .disable true) :: after)).loggers,
      (run (init n) (before ++ (t, .disable true) :: after)).mode l = false ∧
      (run (init n) (before ++ (t, .disable true) :: after)).queue l = []

end Verif.Modes
