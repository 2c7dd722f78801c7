import Verif.Model.ExcMessage
/-!
# How the message of an exception event is put together: the `%` template of `Action._exception`

`ExcMessage` has the text that results.  Here the template is made step by step, as in the code, and then formatted with `%`.
-/
namespace Verif.ExcTpl

/-- An argument of `%`: what `str` and what `repr` make of it. -/
structure Arg where
  str : List Char
  repr : List Char

/-- `template % args` for a tuple: `%s`, `%r` and `%%`; `none` if there are too many or too few arguments (TypeError).  What any
other directive does, and all after it, is `other`. -/
def percent (other : List Char → List Arg → Option (List Char)) : List Char → List Arg → Option (List Char)
  | [], [] => some []
  | [], _ :: _ => none
  | '%' :: '%' :: t, as => (percent other t as).map ('%' :: ·)
  | '%' :: 's' :: t, a :: as => (percent other t as).map (a.str ++ ·)
  | '%' :: 's' :: _, [] => none
  | '%' :: 'r' :: t, a :: as => (percent other t as).map (a.repr ++ ·)
  | '%' :: 'r' :: _, [] => none
  | '%' :: t, as => other t as
  | c :: t, as => (percent other t as).map (c :: ·)

/-- `exc_repr` (action.py:208). -/
def excRepr : List Char := "%s(%r)".toList

/-- The template (action.py:207-216); `errno` is the text of the exception's `errno` if that is true.  (An `errno` that is a tuple is
left out.) -/
def template (errno : Option (List Char)) (hasData : Bool) : List Char :=
  let t := "%s raised exception: ".toList
  let t := match errno with
    | some n => if n <:+: excRepr then t ++ excRepr else t ++ (excRepr ++ (" (errno ".toList ++ n ++ ")".toList))
    | none => t ++ excRepr
  let t := t ++ " from %s on line %s of file '%s'".toList
  if hasData then t ++ " - ({data_map_repr})".toList else t

/-- The message (action.py:205-218), `none` if making it raises: the action's name, the exception's type and message, the function,
the line and the file. -/
def message (other : List Char → List Arg → Option (List Char)) (errno : Option (List Char)) (hasData : Bool)
    (name type msg func line path : Arg) : Option (List Char) :=
  percent other (template errno hasData) [name, type, msg, func, line, path]

end Verif.ExcTpl
