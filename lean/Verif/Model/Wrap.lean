import Verif.Model.Prog
/-!
# `Logger.wrap`

A Python function is modelled by what one call of it does: a program, which may use the injected action and
everything else, and the value it returns, which may depend on the state it ends in.  Python's `None` is
`none`.  The arguments of the call are part of the choice of the `Func`.
-/
namespace Verif

/-- One call of a function with its arguments: the injected action (the `inject_as` argument, logger.py:292-293),
if there is one, is the only argument that lithoxyl adds. -/
structure Func (V : Type) where
  body : Option ActId → World → Prog
  value : World → Option V

/-- Outcome of a call: an exception or a returned value (`none` is Python's `None`). -/
abbrev CallRes (V : Type) := Except Exc (Option V)

/-- Calling the function `f` itself, with `inj` passed for the injected argument. -/
def callFunc {V : Type} (env : Env) (f : Func V) (inj : Option ActId) (w : World) : World × CallRes V :=
  match exec env (f.body inj w) w with
  | (w1, none) => (w1, .ok (f.value w1))
  | (w1, some e) => (w1, .error e)

/-- The arguments of `logger.wrap(level, action_name=None, inject_as=None, enable_wrap=True, **kw)`
(logger.py:276-279); `inject` is whether `inject_as` is given. -/
structure WrapArgs where
  level : Int
  name : Option String := none
  inject : Bool := false
  enable : Bool := true
  kw : Dict := []

/-- `_name` (logger.py:287-288): the function's own name unless another is given. -/
def WrapArgs.actionName (c : WrapArgs) (fname : String) : String := c.name.getD fname

/-- What calling the decorated function does (logger.py:283-299).  Disabled, `wrap` gives back the function
itself (285-286).  Otherwise `logged_func` (290-295): a new action (291), `with act:` around the call of the
function (294-295).  `return` inside `with` evaluates the value, leaves the block, and then returns it, unless
`__exit__` raises; if `__exit__` swallows an exception the call falls off the end and returns `None`. -/
def callWrapped {V : Type} (env : Env) (l : LogId) (c : WrapArgs) (fname : String) (f : Func V) (w : World) :
    World × CallRes V :=
  if c.enable then
    let n := newAction w l c.level (c.actionName fname) c.kw
    let inj := if c.inject then some n.2 else none
    match enter env n.1 n.2 with
    | (w1, some e) => (w1, .error e)
    | (w1, none) =>
      match callFunc env f inj w1 with
      | (w2, .ok v) =>
        match exit env w2 n.2 none with
        | (w3, .error e) => (w3, .error e)
        | (w3, .ok _) => (w3, .ok v)
      | (w2, .error e) =>
        match exit env w2 n.2 (some e) with
        | (w3, .error e') => (w3, .error e')
        | (w3, .ok swallow) => (w3, if swallow then .ok none else .error e)
  else callFunc env f none w

end Verif
