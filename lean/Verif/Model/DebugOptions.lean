/-!
# The options of `DevDebugSink` (lithoxyl/sinks.py:43-63)
-/
namespace Verif.Debug

/-- What can be given as `reraise` or `post_mortem`; `list` stands for the iterables of classes that are no tuples. -/
inductive Arg (C : Type)
  | none
  | bool (b : Bool)
  | cls (c : C)
  | tuple (cs : List C)
  | list (cs : List C)

/-- The classes of the program: which is a subclass of which, and `Exception`. -/
structure Classes (C : Type) where
  sub : C → C → Bool
  exception : C

variable {C : Type}

/-- Whether Python takes the argument as true. -/
def Arg.truth : Arg C → Bool
  | .none => false
  | .bool b => b
  | .cls _ => true
  | .tuple cs => !cs.isEmpty
  | .list cs => !cs.isEmpty

/-- `isinstance(exc_obj, arg)` for an object of class `x`; none where Python raises TypeError. -/
def isInstance (K : Classes C) (x : C) : Arg C → Option Bool
  | .cls c => some (K.sub x c)
  | .tuple cs => some (cs.any (K.sub x))
  | _ => none

/-- A `DevDebugSink`. -/
structure Sink (C : Type) where
  reraise : Arg C
  postMortem : Arg C

/-- `DevDebugSink(reraise, post_mortem)` (sinks.py:50-56). -/
def Sink.make (K : Classes C) (reraise postMortem : Arg C) : Sink C where
  reraise := match reraise with
    | .bool true => .cls K.exception
    | a => a
  postMortem := if postMortem.truth then .cls K.exception else postMortem

/-- What a call of `on_exception` ends with. -/
inductive End
  | returns
  | reraises
  | typeError
deriving DecidableEq, Repr

/-- `self.option and isinstance(exc_obj, self.option)` (sinks.py:59, 61). -/
def matches_ (K : Classes C) (x : C) (a : Arg C) : Option Bool :=
  if a.truth then isInstance K x a else some false

/-- `DevDebugSink.on_exception` (sinks.py:58-63) for an exception of class `x`: whether the debugger is opened, and the end.
(The debugger is taken to return.) -/
def Sink.onException (K : Classes C) (s : Sink C) (x : C) : Bool × End :=
  match matches_ K x s.postMortem with
  | none => (false, .typeError)
  | some pm =>
    (pm, match matches_ K x s.reraise with
      | none => .typeError
      | some true => .reraises
      | some false => .returns)

end Verif.Debug
