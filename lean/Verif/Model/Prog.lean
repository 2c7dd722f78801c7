import Verif.Model.Step
/-!
# Application programs with `with` statements

An application is an interaction tree: it makes calls, sees the whole state and the result of each
call, catches whatever exceptions it likes, raises its own, and runs `with act:` blocks around
sub-programs.  Sequential code only; threads are in `Model/Concurrent.lean` and `Props/ConcBlocks.lean`.
-/
namespace Verif

/-- A program. -/
inductive Prog
  /-- finish normally -/
  | done
  /-- raise -/
  | raise (e : Exc)
  /-- make a call, then go on depending on the state and the result -/
  | call (o : Op) (k : World → Res → Prog)
  /-- `with a: body`, then go on depending on the state and the outcome of the statement -/
  | block (a : ActId) (body : World → Prog) (k : World → Option Exc → Prog)

/-- How the `with` statement combines the body's outcome with what `__exit__` did
(Python language reference, "The with statement"): an exception from `__exit__` replaces the body's;
a true result swallows it; otherwise the body's outcome stands. -/
def withOutcome (body : Option Exc) (ex : Except Exc Bool) : Option Exc :=
  match ex with
  | .error e => some e
  | .ok swallow =>
    match body with
    | none => none
    | some e => if swallow then none else some e

/-- Run a program: final state and the exception it ends with, if any. -/
def exec (env : Env) : Prog → World → World × Option Exc
  | .done, w => (w, none)
  | .raise e, w => (w, some e)
  | .call o k, w =>
    let r := step env w o
    exec env (k r.1 r.2) r.1
  | .block a body k, w =>
    if w.held a then
      let r := enter env w a
      match r.2 with
      | some e => exec env (k r.1 (some e)) r.1      -- `__enter__` raised: no body, no `__exit__`
      | none =>
        let b := exec env (body r.1) r.1
        let x := exit env b.1 a b.2
        exec env (k x.1 (withOutcome b.2 x.2)) x.1
    else exec env (k w none) w

/-- The history a program performs, in order. -/
def items (env : Env) : Prog → World → List Item
  | .done, _ => []
  | .raise _, _ => []
  | .call o k, w =>
    let r := step env w o
    .op o :: items env (k r.1 r.2) r.1
  | .block a body k, w =>
    if w.held a then
      let r := enter env w a
      match r.2 with
      | some e => .enter a :: items env (k r.1 (some e)) r.1
      | none =>
        let b := exec env (body r.1) r.1
        let x := exit env b.1 a b.2
        .enter a :: items env (body r.1) r.1 ++
          .exit a b.2 :: items env (k x.1 (withOutcome b.2 x.2)) x.1
    else items env (k w none) w

end Verif
