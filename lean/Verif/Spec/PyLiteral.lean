import Verif.Spec.Json
/-!
# Reading Python's text literals

A reader of the literals in single or double quotes on one line, with the escapes of the language reference that `repr` can
produce; it takes a literal from the front of its input and returns the text and what follows.
-/
namespace Verif.PyLit

open Json (hexVal)

/-- The value of `k` hexadecimal digits, and what follows. -/
def hexDigits : Nat → Nat → List Nat → Option (Nat × List Nat)
  | 0, v, t => some (v, t)
  | _ + 1, _, [] => none
  | k + 1, v, c :: t => (hexVal c).bind fun d => hexDigits k (v * 16 + d) t

/-- The character an escape stands for (its letter is given), and what follows. -/
def escape (e : Nat) (t : List Nat) : Option (Nat × List Nat) :=
  if e = 120 then hexDigits 2 0 t
  else if e = 117 then hexDigits 4 0 t
  else if e = 85 then hexDigits 8 0 t
  else if e = 116 then some (9, t)
  else if e = 110 then some (10, t)
  else if e = 114 then some (13, t)
  else if e = 92 ∨ e = 39 ∨ e = 34 then some (e, t)
  else none

/-- One character of a literal, and what follows. -/
def char : List Nat → Option (Nat × List Nat)
  | [] => none
  | [c] => if c = 92 then none else some (c, [])
  | c :: e :: t => if c = 92 then escape e t else some (c, e :: t)

/-- Characters up to the closing quote `q`, and what follows it; the first argument bounds their number. -/
def body (q : Nat) : Nat → List Nat → Option (List Nat × List Nat)
  | 0, _ => none
  | n + 1, t =>
    if t.head? = some q then some ([], t.tail)
    else (char t).bind fun p => (body q n p.2).map fun r => (p.1 :: r.1, r.2)

/-- A literal at the front of the input: the text and what follows. -/
def literal : List Nat → Option (List Nat × List Nat)
  | [] => none
  | q :: t => if q = 39 ∨ q = 34 then body q t.length t else none

/-- `'a\'b'` and then a space. -/
example : literal [39, 97, 92, 39, 98, 39, 32] = some ([97, 39, 98], [32]) := by decide

end Verif.PyLit
