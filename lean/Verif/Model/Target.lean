import Verif.Model.WrapAll
/-!
# The `target` argument of `wrap_all` and `unwrap_all` (`lithoxyl/utils.py`)
-/
namespace Verif.Wrapping

/-- The `target` argument: nothing, a number of frames, or an object. -/
inductive Target
  | none
  | frames (k : Int)
  | object (o : Oid)

/-- The attributes of a Python dict (`dir({})`, 3.12). -/
def dictAttrs : List String :=
  ["__class__", "__class_getitem__", "__contains__", "__delattr__", "__delitem__", "__dir__", "__doc__", "__eq__",
   "__format__", "__ge__", "__getattribute__", "__getitem__", "__getstate__", "__gt__", "__hash__", "__init__",
   "__init_subclass__", "__ior__", "__iter__", "__le__", "__len__", "__lt__", "__ne__", "__new__", "__or__",
   "__reduce__", "__reduce_ex__", "__repr__", "__reversed__", "__ror__", "__setattr__", "__setitem__", "__sizeof__",
   "__str__", "__subclasshook__", "clear", "copy", "fromkeys", "get", "items", "keys", "pop", "popitem", "setdefault",
   "update", "values"]

/-- The globals of a frame: the entries whose values are strings. -/
abbrev Globals := List (String × String)

/-- `getattr` on a dict: its attributes are methods, not its entries; `none` is AttributeError, else the attribute as a key of
`sys.modules` (no method is one). -/
def dictAttr (_ : Globals) (name : String) : Option (Option String) := if name ∈ dictAttrs then some Option.none else Option.none

/-- Finding the object to work on (utils.py:52-59, 96-103): `stack` has the globals of the frames from the function's own on,
`modules` is `sys.modules`; `none` is the ValueError of lines 58 and 102. -/
def resolve (stack : List Globals) (modules : String → Option Oid) : Target → Option Oid
  | .object o => some o
  | .none => byFrame 1
  | .frames k => byFrame (if k = 0 then 1 else k)
where
  /-- The try block (utils.py:54-56, 98-100); `sys._getframe` takes a negative number as 0. -/
  byFrame (k : Int) : Option Oid :=
    match stack[k.toNat]? with
    | Option.none => Option.none
    | some g => ((dictAttr g "__name__").bind id).bind modules

/-- `wrap_all(logger, target=...)` (utils.py:87-163): what it leaves and whether it raised. -/
def wrapAllCall (L : Layout) (c : WrapAllArgs) (depth : Int) (label : String) (h : Heap) (stack : List Globals)
    (modules : String → Option Oid) (target : Target) : WState × Bool :=
  match resolve stack modules target with
  | Option.none => (⟨h, [], []⟩, true)
  | some t => wrapAll L c depth label h t

/-- `unwrap_all(target)` (utils.py:51-84); `none` if it raised (or ran out of fuel). -/
def unwrapAllCall (L : Layout) (fuel : Nat) (h : Heap) (stack : List Globals) (modules : String → Option Oid)
    (target : Target) : Option Heap :=
  match resolve stack modules target with
  | Option.none => Option.none
  | some t => unwrapAll L fuel h t

end Verif.Wrapping
