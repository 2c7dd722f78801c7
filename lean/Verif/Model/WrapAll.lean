/-!
# `unwrap`, `unwrap_all` and `wrap_all` (utils.py:40-163)

Modules and classes are objects with attributes.  An object's own attributes can be changed; what attributes
it lists and where inherited attributes come from cannot (`setattr` is only ever called with names that are
listed already, so `dir` does not change).  Not modelled: metaclass descriptors, `__getattr__`, instances as
targets, targets given as a frame number (Model/Target.lean).
-/
namespace Verif.Wrapping

/-- Identity of a module or class, `id(obj)`. -/
abbrev Oid := Nat

/-- What `getattr` gives. -/
inductive AVal
  /-- not callable -/
  | plain (i : Nat)
  /-- callable, with a `__name__`: functions, builtins, ... -/
  | func (i : Nat)
  /-- callable, no `__name__`, not a class: partial objects, callable instances -/
  | nameless (i : Nat)
  /-- a class -/
  | cls (o : Oid)
  /-- a class method seen from `o` -/
  | bound (f : AVal) (o : Oid)
  /-- a `logged_func` made by `logger.wrap` with this action name and level; `inner` is the `func_to_log` kept in
  `__lithoxyl_wrapped__[3]` (logger.py:297-298) -/
  | wrapped (action : String) (level : Int) (inner : AVal)
deriving DecidableEq

/-- What an attribute is in the `__dict__` of the object it belongs to. -/
inductive Slot
  | val (v : AVal)
  | static (v : AVal)
  | classm (v : AVal)
  /-- listed by `dir` but `getattr` raises AttributeError -/
  | broken
deriving DecidableEq

/-- What cannot change: the names `dir` lists, the classes attributes are inherited from, in order, and
whether `setattr` on the object raises (builtin classes). -/
structure Layout where
  dir : Oid → List String
  mro : Oid → List Oid
  frozen : Oid → Bool

/-- All `__dict__`s. -/
abbrev Heap := Oid → String → Option Slot

/-- What reading the slot through object `o` gives; `none` is AttributeError. -/
def Slot.get (o : Oid) : Slot → Option AVal
  | .val v => some v
  | .static v => some v
  | .classm v => some (.bound v o)
  | .broken => none

/-- `getattr(o, n)`: the first of the object and what it inherits from that has the attribute decides. -/
def attr (L : Layout) (h : Heap) (o : Oid) (n : String) : Option AVal :=
  ((o :: L.mro o).findSome? fun p => h p n).bind (·.get o)

/-- `setattr(o, n, v)` -/
def Heap.put (h : Heap) (o : Oid) (n : String) (v : AVal) : Heap :=
  fun o' n' => if o' = o ∧ n' = n then some (.val v) else h o' n'

/-- `callable(val)` -/
def AVal.callable : AVal → Bool
  | .plain _ => false
  | _ => true

/-- `hasattr(val, '__name__')` for callables that are not classes. -/
def AVal.named : AVal → Bool
  | .func _ | .wrapped .. => true
  | .bound f _ => f.named
  | _ => false

/-- `val.__lithoxyl_wrapped__[3]`; bound methods pass attribute reads on to their function. -/
def AVal.inner? : AVal → Option AVal
  | .wrapped _ _ v => some v
  | .bound f _ => f.inner?
  | _ => none

/-- `unwrap(target, attr_name)` (utils.py:40-48); `none` is an exception (AttributeError or ValueError, or
what `setattr` raises). -/
def unwrap (L : Layout) (h : Heap) (o : Oid) (n : String) : Option Heap :=
  match attr L h o n with
  | none => none
  | some v =>
    match v.inner? with
    | none => none
    | some f => if L.frozen o then none else some (h.put o n f)

/-- State of `unwrap_all`: the attributes and the set `unwrapped` (utils.py:61). -/
structure UState where
  heap : Heap
  seen : List Oid

/-- The loop of `unwrap_sub_target` (utils.py:63-80) over the names still to do; `rec` is the recursive call
and gives `none` only when out of fuel.  `unwrap` is only called on attributes of objects `wrap_all` could set,
so an exception other than the ValueError caught at 78 does not come up unless a function was wrapped by other
means on an object that has been made read-only since; it is then treated like ValueError. -/
def unwrapNames (L : Layout) (rec : Oid → UState → Option UState) (o : Oid) :
    List String → UState → Option UState
  | [], s => some s
  | n :: ns, s =>
    match attr L s.heap o n with
    | none => unwrapNames L rec o ns s
    | some (.plain _) => unwrapNames L rec o ns s
    | some (.cls c) =>
      if c ∈ s.seen then unwrapNames L rec o ns s
      else
        match rec c { s with seen := c :: s.seen } with
        | none => none
        | some s => unwrapNames L rec o ns s
    | some _ => unwrapNames L rec o ns { s with heap := (unwrap L s.heap o n).getD s.heap }

/-- `unwrap_sub_target` (utils.py:63-80), with a bound on the depth of the recursion. -/
def unwrapSub (L : Layout) : Nat → Oid → UState → Option UState
  | 0, _, _ => none
  | fuel + 1, o, s => unwrapNames L (unwrapSub L fuel) o (L.dir o) s

/-- `unwrap_all(target)` (utils.py:51-84). -/
def unwrapAll (L : Layout) (fuel : Nat) (h : Heap) (target : Oid) : Option Heap :=
  (unwrapSub L fuel target ⟨h, []⟩).map (·.heap)

/-- The arguments of `wrap_all` that matter (utils.py:87-89): the skip rule as a function (105-113), whether
failures are skipped (114-117), which functions `logger.wrap` cannot decorate (their signature cannot be
read, or lacks the argument to inject), the level and the levels for single names.  Of `extras` (93, 146) only `enable_wrap` matters
here: `level` and `action_name` are overwritten (148-149), `inject_as` is in `cannot`, and the others reach the actions of later calls. -/
structure WrapAllArgs where
  skip : String → Bool
  skipExc : Bool
  cannot : AVal → Bool
  level : Int := 70
  levelMap : String → Option Int := fun _ => none
  enable : Bool := true

/-- `level_map.get(attr_name, level)` (utils.py:148). -/
def WrapAllArgs.levelFor (c : WrapAllArgs) (n : String) : Int := (c.levelMap n).getD c.level

/-- `logger.wrap(level=..., action_name=...)(val)` (utils.py:151-153, logger.py:281-301): the function itself if wrapping is not
enabled (logger.py:285-286); `none` if it cannot be decorated. -/
def WrapAllArgs.make (c : WrapAllArgs) (action : String) (level : Int) (v : AVal) : Option AVal :=
  if c.enable then if c.cannot v then none else some (.wrapped action level v) else some v

/-- The skip rule for a string (utils.py:107-108); the default is `'_'` (105-106). -/
def skipPrefix (p : String) (n : String) : Bool := p ≠ "" && n.startsWith p

/-- State of `wrap_all`: the attributes, the set `wrapped` (utils.py:126) and the list `ret` (92). -/
structure WState where
  heap : Heap
  seen : List Oid
  ret : List String

/-- The loop of `wrap_sub_target` (utils.py:128-158) over the names still to do.  `rec` is the recursive call,
`none` when `depth <= 0`.  The second component says whether an exception came out: from `getattr` (132), or
from decorating or setting the attribute (151-155) if failures are not skipped. -/
def wrapNames (L : Layout) (c : WrapAllArgs) (rec : Option (Oid → String → WState → WState × Bool)) (o : Oid)
    (label : String) : List String → WState → WState × Bool
  | [], s => (s, false)
  | n :: ns, s =>
    if c.skip n then wrapNames L c rec o label ns s
    else
      match attr L s.heap o n with
      | none => (s, true)
      | some v =>
        match v with
        | .plain _ => wrapNames L c rec o label ns s
        | .cls k =>
          match rec with
          | none => wrapNames L c rec o label ns s
          | some r =>
            if k ∈ s.seen then wrapNames L c rec o label ns s
            else
              match r k (label ++ "." ++ n) { s with seen := k :: s.seen } with
              | (s, true) => (s, true)
              | (s, false) => wrapNames L c rec o label ns s
        | v =>
          if v.named then
            match if L.frozen o then none else c.make (label ++ "." ++ n) (c.levelFor n) v with
            | none => if c.skipExc then wrapNames L c rec o label ns s else (s, true)
            | some u =>
              wrapNames L c rec o label ns { s with heap := s.heap.put o n u, ret := s.ret ++ [label ++ "." ++ n] }
          else wrapNames L c rec o label ns s

/-- `wrap_sub_target` (utils.py:128-159). -/
def wrapSub (L : Layout) (c : WrapAllArgs) : Nat → Oid → String → WState → WState × Bool
  | 0, o, label, s => wrapNames L c none o label (L.dir o) s
  | d + 1, o, label, s => wrapNames L c (some (wrapSub L c d)) o label (L.dir o) s

/-- `wrap_all(logger, level, target, skip, label, level_map, depth=depth, skip_exc=...)` (utils.py:87-163): the
state it leaves, with the list it returns, and whether it raised instead of returning. -/
def wrapAll (L : Layout) (c : WrapAllArgs) (depth : Int) (label : String) (h : Heap) (target : Oid) :
    WState × Bool :=
  wrapSub L c depth.toNat target label ⟨h, [], []⟩

end Verif.Wrapping
