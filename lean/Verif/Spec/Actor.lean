import Verif.Model.Actor
/-!
# Vocabulary for the actor
-/
namespace Verif.Actor

/-- The thread is going round its loop. -/
def Phase.looping : Phase → Prop
  | .check | .ready | .running | .waiting => True
  | _ => False
instance : DecidablePred Phase.looping := fun p => by cases p <;> unfold Phase.looping <;> infer_instance

/-- Nobody calls `stop` in the schedule. -/
def NoStop (ls : List Lab) : Prop := ∀ c, Lab.call c .stop ∉ ls
/-- Nobody calls `start` in the schedule. -/
def NoStart (ls : List Lab) : Prop := ∀ c, Lab.call c .start ∉ ls
/-- Nobody forks in the schedule. -/
def NoFork (ls : List Lab) : Prop := ∀ c, Lab.fork c ∉ ls
/-- Only thread 0 of the program ever uses the actor. -/
def OneUser (ls : List Lab) : Prop :=
  ∀ l ∈ ls, match l with
    | .thr _ _ => True
    | .call c _ | .ctl c | .timeout c | .fork c => c = 0
/-- Task calls of thread `n` end only normally, with an `Exception` whose note is recorded, or (daemon thread) with
SystemExit/KeyboardInterrupt. -/
def Survivable (daemon : Bool) (n : Nat) (ls : List Lab) : Prop :=
  ∀ o, Lab.thr n o ∈ ls → o = .ok ∨ o = .exc false ∨ (o = .exit ∧ daemon = true)

/-- How many times the schedule lets thread `n` go. -/
def turns (n : Nat) (ls : List Lab) : Nat :=
  ls.countP fun l => match l with | .thr i _ => i = n | _ => false

end Verif.Actor
