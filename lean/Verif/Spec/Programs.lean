import Verif.Model.Prog
/-!
# Programs written the documented way
-/
namespace Verif

/-- The statement `with a: body` on its own: its outcome is the outcome of the program. -/
def withStmt (a : ActId) (body : World → Prog) : Prog :=
  .block a body fun _ out =>
    match out with
    | none => .done
    | some e => .raise e

/-- `with log.<level>(name, **kw) as act: body`, and then `k`: the action is made by the with statement
itself. `noLogger` is what happens if there is no such logger. -/
def withNew (l : LogId) (level : Int) (name : String) (kw : Dict) (body : ActId → World → Prog)
    (k : ActId → World → Option Exc → Prog) (noLogger : World → Prog) : Prog :=
  .call (.newAction l level name kw) fun w r =>
    match r with
    | .newAct a => .block a (body a) (k a)
    | _ => noLogger w

/-- Programs that use with blocks only on actions made by the with statement itself and not given an
explicit parent; they may make any other calls, in any order, catch and raise. -/
inductive Idiomatic : Prog → Prop
  | done : Idiomatic .done
  | raise (e : Exc) : Idiomatic (.raise e)
  | call (o : Op) (k : World → Res → Prog) : (∀ w r, Idiomatic (k w r)) → Idiomatic (.call o k)
  | withNew (l : LogId) (level : Int) (name : String) (kw : Dict) (body : ActId → World → Prog)
      (k : ActId → World → Option Exc → Prog) (noLogger : World → Prog) :
      kw.get? "parent_action" = none → (∀ a w, Idiomatic (body a w)) → (∀ a w o, Idiomatic (k a w o)) →
      (∀ w, Idiomatic (noLogger w)) → Idiomatic (withNew l level name kw body k noLogger)

end Verif
