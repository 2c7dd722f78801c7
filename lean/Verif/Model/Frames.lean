import Mathlib.Data.List.Basic
/-!
# The module of a new logger (lithoxyl/logger.py:23-56, 93-101)

A call stack is a list of frames, innermost first.
-/
namespace Verif.Frames

/-- What the local variable `self` of a frame is, for the tests of `get_frame_excluding_subtypes`: missing or something else,
or a `Logger`, or a class derived from `Logger` (logger.py:45-51). -/
inductive Self | other | logger | loggerClass
deriving DecidableEq, Repr

/-- A frame: its local variable `self` and the `__name__` of its globals. -/
structure Frame where
  self : Self
  module : Option String
deriving DecidableEq, Repr

/-- How the search ends: a module name, or an exception. -/
inductive Found | module (s : String) | attributeError | valueError
deriving DecidableEq, Repr

/-- `_get_previous_frame` `n` times (logger.py:23-27, 54-55), then `f_globals.get('__name__', '<module>')` (logger.py:98).  The
empty list is `None`, what the outermost frame's `f_back` is: going back from there is the ValueError, its `f_globals` an
AttributeError. -/
def back : Nat → List Frame → Found
  | 0, [] => .attributeError
  | 0, f :: _ => .module (f.module.getD "<module>")
  | _ + 1, [] => .valueError
  | n + 1, _ :: fs => back n fs

/-- The loop of `get_frame_excluding_subtypes` (logger.py:39-53) at its `i`-th turn.  The name of the first argument is taken
once, from the frame of `Logger.__init__`, so that it is always `self`. -/
def search (offset : Nat) : Nat → List Frame → Found
  | _, [] => .attributeError
  | i, f :: fs =>
    if i + 1 > 10000 then .valueError
    else if f.self = .logger ∨ f.self = .loggerClass then search offset (i + 1) fs
    else back offset (f :: fs)

/-- `self.module` of a new logger (logger.py:93-98): a module given as an argument (`some`) is taken. -/
def moduleOf (given : Option String) (offset : Nat) (stack : List Frame) : Found :=
  match given with
  | some m => .module m
  | none => search offset 0 stack

/-- `self.name = name or self.module` (logger.py:101); `""` stands for every false name. -/
def nameOf (name : String) (module : String) : String := if name = "" then module else name

end Verif.Frames
