import Mathlib.Tactic.TypeStar
/-!
# Which texts are templates

The grammar of format strings, with nothing of the parser in it.
-/
namespace Verif.Grammar

/-- The name of a field: any text but `{`, `}`, `:` and `!`, which may be only within an index `[...]`. -/
inductive Name : List Char → Prop
  | nil : Name []
  | char {c s} : c ≠ '{' → c ≠ '}' → c ≠ '[' → c ≠ ':' → c ≠ '!' → Name s → Name (c :: s)
  | index {i s} : ']' ∉ i → Name s → Name ('[' :: i ++ ']' :: s)

/-- A format spec: any text whose braces come in pairs. -/
inductive Spec : List Char → Prop
  | nil : Spec []
  | char {c s} : c ≠ '{' → c ≠ '}' → Spec s → Spec (c :: s)
  | pair {i s} : Spec i → Spec s → Spec ('{' :: i ++ '}' :: s)

/-- What may follow the name: a conversion, which is any character but `{`, a format spec, both, or nothing. -/
inductive Opts : List Char → Prop
  | nothing : Opts []
  | conv {c} : c ≠ '{' → Opts ['!', c]
  | spec {s} : Spec s → Opts (':' :: s)
  | both {c s} : c ≠ '{' → Spec s → Opts ('!' :: c :: ':' :: s)

/-- A template: text, doubled braces and fields in braces. -/
inductive Template : List Char → Prop
  | nil : Template []
  | char {c s} : c ≠ '{' → c ≠ '}' → Template s → Template (c :: s)
  | open_ {s} : Template s → Template ('{' :: '{' :: s)
  | close {s} : Template s → Template ('}' :: '}' :: s)
  | field {n o s} : Name n → Opts o → Template s → Template ('{' :: n ++ o ++ '}' :: s)

end Verif.Grammar
