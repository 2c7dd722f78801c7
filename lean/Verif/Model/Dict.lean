/-!
# Python dictionaries

Insertion-ordered dictionaries as association lists, each key once.
-/
namespace Verif.Dct

/-- A dictionary: its items in insertion order. -/
abbrev Dict (α β : Type) := List (α × β)

variable {α β : Type} [DecidableEq α]

/-- `d.get(k)`. -/
def get? : Dict α β → α → Option β
  | [], _ => none
  | (a, b) :: d, k => if a = k then some b else get? d k

/-- `d[k] = v`: an existing key keeps its place. -/
def set : Dict α β → α → β → Dict α β
  | [], k, v => [(k, v)]
  | (a, b) :: d, k, v => if a = k then (k, v) :: d else (a, b) :: set d k v

/-- `x = d.setdefault(k, init)`, then replacing `x` by `f x` (in Python, changing it in place). -/
def upd (d : Dict α β) (k : α) (init : β) (f : β → β) : Dict α β := set d k (f ((get? d k).getD init))

/-- `d.keys()`. -/
def keys (d : Dict α β) : List α := d.map Prod.fst

/-- `d.values()`. -/
def values (d : Dict α β) : List β := d.map Prod.snd

end Verif.Dct
