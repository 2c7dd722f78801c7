import Verif.Model.Message
/-!
# The message of an exception event that was given none (`Action._exception`, `lithoxyl/action.py`)
-/
namespace Verif.Msg

/-- What goes into the text: the action's name, the exception's type name and the `repr` of its message, its `errno` if it has
one that is true, and where it was raised. -/
structure ExcText where
  name : String
  type : String
  msgRepr : String
  errno : Option String
  func : String
  line : String
  path : String

/-- `exc_repr` with the errno (action.py:208-213); the second part of the test on line 210 is always true for an errno that is
not a part of `"%s(%r)"`.  (An errno whose text has a `%` would be taken as a part of the template of line 217.) -/
def ExcText.what (e : ExcText) : String :=
  match e.errno with
  | some n => e.type ++ "(" ++ e.msgRepr ++ ")" ++ " (errno " ++ n ++ ")"
  | none => e.type ++ "(" ++ e.msgRepr ++ ")"

/-- The message (action.py:205-218). -/
def excMessage (e : ExcText) (hasData : Bool) : String :=
  e.name ++ " raised exception: " ++ e.what ++ " from " ++ e.func ++ " on line " ++ e.line ++ " of file '" ++ e.path ++ "'" ++
    (if hasData then " - ({data_map_repr})" else "")

end Verif.Msg
