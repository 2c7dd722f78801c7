import Mathlib.Data.List.Sort
/-!
# `lithoxyl/common.py`: levels

`str.lower` and `str.upper` are parameters: nothing about them is needed but what the theorems say.
Values are integers; Python would also take floats.
-/
namespace Verif.Lvl

/-- A `Level` object (common.py:12-16): `id` is its identity, `name` is already lower-cased. -/
structure Level where
  id : Nat
  name : String
  value : Int
deriving DecidableEq, Repr

/-- `Level.__init__` (common.py:14-16). -/
def mk (lower : String → String) (id : Nat) (name : String) (value : Int) : Level := ⟨id, lower name, value⟩

/-- `Level.__eq__` between levels (common.py:18-25).  In the last case `str == Level` falls back to the
other level's `__eq__`, which compares its name with the string. -/
def eq (a b : Level) : Bool :=
  if a = b then true
  else if a.value = b.value then true
  else if a.name = b.name then true
  else false

/-- `Level.__eq__` with a string (common.py:18-25): a string has no `_value`. -/
def eqStr (a : Level) (s : String) : Bool := a.name = s

/-- `Level.__lt__` (common.py:27-32). -/
def lt (a b : Level) : Bool :=
  if a = b then false else if a.value < b.value then true else false

/-- `__ne__` is the negation of `__eq__` (Python data model). -/
def ne (a b : Level) : Bool := !eq a b
/-- `__gt__` made by `total_ordering` from `__lt__` (common.py:12): `not self < other and self != other`. -/
def gt (a b : Level) : Bool := !lt a b && ne a b
/-- `__le__` made by `total_ordering` from `__lt__` (common.py:12): `self < other or self == other`. -/
def le (a b : Level) : Bool := lt a b || eq a b
/-- `__ge__` made by `total_ordering` from `__lt__` (common.py:12): `not self < other`. -/
def ge (a b : Level) : Bool := !lt a b

/-- `Level.__hash__` (common.py:37-38): a function of the name; `h` is the hash of `(Level, name)`. -/
def hash (h : String → Nat) (a : Level) : Nat := h a.name

/-- The levels made by common.py:41-48. -/
def DEBUG : Level := ⟨0, "debug", 20⟩
def INFO : Level := ⟨1, "info", 70⟩
def CRITICAL : Level := ⟨2, "critical", 90⟩
def MIN_LEVEL : Level := ⟨3, "_min", 0⟩
def MAX_LEVEL : Level := ⟨4, "_max", 100⟩

/-- A key of `LEVEL_ALIAS_MAP`.  `other` stands for hashable objects that are none of these. -/
inductive Key
  | str (s : String)
  | num (n : Int)
  | level (l : Level)
  | other (n : Nat)
deriving DecidableEq, Repr

/-- Are two keys the same to a dict?  A dict first compares hashes: a level's hash is that of its type and
name, so levels are the same key when their names are equal, and (barring a hash collision, not modelled) never the same
key as a string or a number. -/
def Key.same : Key → Key → Bool
  | .str s, .str t => s = t
  | .num m, .num n => m = n
  | .level a, .level b => a.name = b.name
  | .other m, .other n => m = n
  | _, _ => false

/-- `LEVEL_ALIAS_MAP` (common.py:63). -/
abbrev Table := List (Key × Level)

/-- `dict.__setitem__`. -/
def Table.set : Table → Key → Level → Table
  | [], k, v => [(k, v)]
  | (k', v') :: t, k, v => if k'.same k then (k', v) :: t else (k', v') :: Table.set t k v

/-- `dict.get`. -/
def Table.get? : Table → Key → Option Level
  | [], _ => none
  | (k', v') :: t, k => if k'.same k then some v' else Table.get? t k

/-- The dict part of `register_level` (common.py:51-58). -/
def register (lower upper : String → String) (t : Table) (l : Level) : Table :=
  (((t.set (.str (lower l.name)) l).set (.str (upper l.name)) l).set (.num l.value) l).set (.level l) l

/-- `set(...)` of levels: one of each name (equal hashes are equal names; equal names are `==`). -/
def uniq : List Level → List Level
  | [] => []
  | l :: ls => l :: (uniq ls).filter (fun m => m.name ≠ l.name)

/-- `sorted` uses `__lt__`, that is the values; the set's own order is not modelled (it matters only
for levels of equal value). -/
def valLE (a b : Level) : Prop := a.value ≤ b.value
instance : DecidableRel valLE := fun a b => inferInstanceAs (Decidable (a.value ≤ b.value))

/-- `LEVEL_LIST` as computed by the last `register_level` (common.py:59). -/
def levelList (t : Table) : List Level := List.insertionSort valLE (uniq (t.map (·.2)))

/-- The table after a sequence of registrations (common.py:62-68 and later calls). -/
def table (lower upper : String → String) (regs : List Level) : Table :=
  regs.foldl (register lower upper) []

/-- What common.py:64-68 registers on import. -/
def builtins : List Level := [MIN_LEVEL, MAX_LEVEL, DEBUG, INFO, CRITICAL]

/-- `get_level(key, default)` (common.py:71-72). -/
def getLevel (t : Table) (k : Key) (default : Level := DEBUG) : Level := (t.get? k).getD default

/-- `list.index`: the first element `==` to the level; `none` is ValueError. -/
def index (ls : List Level) (l : Level) : Option Nat := ls.findIdx? (fun m => eq m l)

/-- `list[i]` with Python's negative indices; `none` is IndexError. -/
def pyGet (ls : List Level) (i : Int) : Option Level :=
  if 0 ≤ i then ls[i.toNat]?
  else if -(ls.length : Int) ≤ i then ls[(ls.length + i).toNat]? else none

/-- `get_next_level(key, delta)` (common.py:75-79); `none` is an exception. -/
def nextLevel (t : Table) (k : Key) (delta : Int := 1) : Option Level :=
  match index (levelList t) (getLevel t k) with
  | none => none
  | some i => pyGet (levelList t) (min ((i : Int) + delta) ((levelList t).length - 1))

/-- `get_prev_level(key, delta)` (common.py:82-86); `none` is an exception. -/
def prevLevel (t : Table) (k : Key) (delta : Int := 1) : Option Level :=
  match index (levelList t) (getLevel t k) with
  | none => none
  | some i => pyGet (levelList t) (max ((i : Int) - delta.natAbs) 0)

end Verif.Lvl
