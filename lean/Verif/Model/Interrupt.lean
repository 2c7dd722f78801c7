import Verif.Model.Core
/-!
# With blocks that are interrupted

A signal handler may raise at any moment: Python's for SIGINT raises KeyboardInterrupt, lithoxyl's own for SIGTERM
SystemExit (context.py:171-175).  This model runs programs of nested with blocks (`Action.__init__`, `__enter__`,
`__exit__`, action.py:67-91, 245-271) in single steps, one of which may be replaced by such an exception.

Simplified: one logger, one thread; sinks do not raise; publishing an event is one step; steps of the code that neither
publish nor set the active action appear only as places where the exception may come.  Status calls are made on the action
of the innermost block around them.
-/
namespace Verif.Interrupt

/-- What is published. -/
inductive Out
  | begin (a : ActId)
  | fin (a : ActId) (st : Status)
deriving DecidableEq, Repr

/-- Programs. -/
inductive Prog
  | skip
  | seq (p q : Prog)
  /-- `act.success(...)` or `act.failure(...)` on the action of the innermost block: recorded, published at its end -/
  | mark (st : Status)
  /-- any exception -/
  | raise
  /-- `try: ... except BaseException: ...` of the application -/
  | try_ (p q : Prog)
  /-- `with logger.info(...): ...`; `swallow` for `reraise=False` -/
  | block (swallow : Bool) (p : Prog)

/-- The logger. -/
structure S where
  next : ActId := 0
  active : Option ActId := none
  out : List Out := []
deriving DecidableEq, Repr

/-- What running a piece of program leaves behind: the state; the end recorded for the innermost block's action; the number
of steps until the interruption, if there still is to be one; whether an exception is on its way; and, as history, the
action whose `__enter__` or `__exit__` was interrupted. -/
structure Res where
  s : S
  ended : Option Status
  fuel : Option Nat
  raised : Bool := false
  hit : Option ActId := none

/-- Steps of the code, one after the other, until the exception comes; `a` is the action whose method this is, if it is
one of `__enter__` and `__exit__`. -/
def steps (a : Option ActId) : List (S → S) → S → Option Nat → S × Option Nat × Bool × Option ActId
  | [], s, n => (s, n, false, none)
  | _ :: _, s, some 0 => (s, none, true, a)
  | f :: fs, s, n => steps a fs (f s) (n.map (· - 1))

/-- `__enter__` (action.py:245-248): the flags; the active action; the begin event is made (146), and published (147);
return. -/
def enterSteps (a : ActId) : List (S → S) :=
  [id, fun s => { s with active := some a }, id, fun s => { s with out := s.out ++ [Out.begin a] }, id]

/-- `__exit__` (action.py:250-267) with what is left of the exception or status: `_defer_publish`; the end event is made, in
`_exception` after the exception event and its hooks (220-225, 237) or in `success` (265); it is published (241, 262); the
active action is set back (267). -/
def exitSteps (a : ActId) (parent : Option ActId) (st : Status) : List (S → S) :=
  [id, id, id, fun s => { s with out := s.out ++ [Out.fin a st] }, fun s => { s with active := parent }]

/-- Run a program; `n` steps from now the exception comes (never for none). -/
def exec : Prog → S → Option Status → Option Nat → Res
  | .skip, s, en, n => { s, ended := en, fuel := n }
  | .seq p q, s, en, n =>
    let r := exec p s en n
    if r.raised then r
    else
      let r' := exec q r.s r.ended r.fuel
      { r' with hit := r.hit.or r'.hit }
  | .mark st, s, en, n =>
    let (s, n, raised, hit) := steps none [id] s n
    { s, ended := if raised then en else some st, fuel := n, raised, hit }
  | .raise, s, en, n => { s, ended := en, fuel := n, raised := true }
  | .try_ p q, s, en, n =>
    let r := exec p s en n
    if r.raised then
      let r' := exec q r.s r.ended r.fuel
      { r' with hit := r.hit.or r'.hit }
    else r
  | .block swallow p, s, en, n =>
    let a := s.next
    let parent := s.active
    -- `Action.__init__`
    let (s1, n1, raised1, _) := steps none [fun s => { s with next := s.next + 1 }] s n
    if raised1 then { s := s1, ended := en, fuel := n1, raised := true }
    else
      let (s2, n2, raised2, hit2) := steps (some a) (enterSteps a) s1 n1
      -- an exception in `__enter__`: the block is not entered, so not left either
      if raised2 then { s := s2, ended := en, fuel := n2, raised := true, hit := hit2 }
      else
        let r := exec p s2 none n2
        let st := if r.raised then Status.exception else r.ended.getD .success
        let (s4, n4, raised4, hit4) := steps (some a) (exitSteps a parent st) r.s r.fuel
        { s := s4, ended := en, fuel := n4, raised := raised4 || (r.raised && !swallow), hit := r.hit.or hit4 }

end Verif.Interrupt
