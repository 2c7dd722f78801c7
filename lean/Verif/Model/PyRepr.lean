import Verif.Model.Reprs
import Verif.Model.Fields
import Verif.Model.Level
import Verif.Model.Guid
/-!
# What `repr` shows of actions, events and levels

Text is a list of code points.  `repr` of a text is CPython 3's (`unicode_repr`), with the Unicode database as a parameter:
`printable` is `str.isprintable` of a character beyond ASCII.
-/
namespace Verif.PyRepr

open Guid (hexc)
open Reprs (txt)
open Dec (dec)

/-- The last `k` hexadecimal digits of a number. -/
def hexN : Nat → Nat → List Nat
  | 0, _ => []
  | k + 1, n => hexN k (n / 16) ++ [hexc (n % 16)]

/-- The quote `repr` puts around a text: the single one, unless the text has that one and not the other. -/
def quote (s : List Nat) : Nat := if 39 ∈ s ∧ 34 ∉ s then 34 else 39

/-- One character of a text in quotes `q`. -/
def reprChar (printable : Nat → Bool) (q c : Nat) : List Nat :=
  if c = 92 ∨ c = q then [92, c]
  else if c = 9 then [92, 116]
  else if c = 10 then [92, 110]
  else if c = 13 then [92, 114]
  else if c < 32 ∨ c = 127 then 92 :: 120 :: hexN 2 c
  else if c < 127 then [c]
  else if printable c then [c]
  else if c < 0x100 then 92 :: 120 :: hexN 2 c
  else if c < 0x10000 then 92 :: 117 :: hexN 4 c
  else 92 :: 85 :: hexN 8 c

/-- `repr` of a text (`%r` in action.py:95, 325 and common.py:35). -/
def reprText (printable : Nat → Bool) (s : List Nat) : List Nat :=
  quote s :: s.flatMap (reprChar printable (quote s)) ++ [quote s]

/-- `Action.__repr__` (action.py:93-96); `level` and `upper` give the name of a level and `str.upper`. -/
def action (printable : Nat → Bool) (level : Int → String) (upper : String → String) (cn : List Nat) (x : Act) : List Nat :=
  txt "<" ++ cn ++ txt " " ++ reprText printable (txt x.name) ++ txt " " ++ txt (upper (level x.level)) ++ txt " " ++
    reprText printable (txt (Fields.statusText x.status)) ++ txt ">"

/-- `Event.__repr__` (action.py:323-325): `self.action_id` is the action's, by `__getattr__` (action.py:304-305).  `cn` is the
name of the event's class. -/
def event (printable : Nat → Bool) (cn : List Nat) (e : Event) : List Nat :=
  txt "<" ++ cn ++ txt " " ++ dec e.act ++ txt " " ++ reprText printable (txt e.msg) ++ txt ">"

/-- `%r` of an integer. -/
def int (n : Int) : List Nat := if n < 0 then 45 :: dec n.natAbs else dec n.natAbs

/-- `Level.__repr__` (common.py:34-35). -/
def level (printable : Nat → Bool) (cn : List Nat) (l : Lvl.Level) : List Nat :=
  cn ++ txt "(" ++ reprText printable (txt l.name) ++ txt ", " ++ int l.value ++ txt ")"

end Verif.PyRepr
