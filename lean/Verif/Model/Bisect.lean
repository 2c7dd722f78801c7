/-!
# The standard library's `bisect`

`bisect_right`, `bisect_left` and `insort` as CPython's `Lib/bisect.py` has them: a binary search.
-/
namespace Verif.Bis

/-- The loop of `bisect_right(a, x)`: `lt y` is `x < y`. -/
def rightLoop {X : Type} (lt : X → Bool) (a : List X) (lo hi : Nat) : Nat :=
  if h : lo < hi then
    let mid := (lo + hi) / 2
    match a[mid]? with
    | none => lo       -- not reached: mid is in range
    | some y => if lt y then rightLoop lt a lo mid else rightLoop lt a (mid + 1) hi
  else lo
termination_by hi - lo
decreasing_by all_goals omega

/-- `bisect_right(a, x)`. -/
def right {X : Type} (lt : X → Bool) (a : List X) : Nat := rightLoop lt a 0 a.length

/-- `bisect_left(a, x)`: the same loop with the test `not (a[mid] < x)`; `ge y` is `not (y < x)`. -/
def left {X : Type} (ge : X → Bool) (a : List X) : Nat := rightLoop ge a 0 a.length

/-- `a.insert(i, x)`. -/
def insertAt {X : Type} (a : List X) (i : Nat) (x : X) : List X := a.take i ++ x :: a.drop i

/-- `insort(a, x)`: `a.insert(bisect_right(a, x), x)`. -/
def insort {X : Type} (lt : X → Bool) (a : List X) (x : X) : List X := insertAt a (right lt a) x

end Verif.Bis
