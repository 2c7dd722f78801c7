import Verif.Model.Fields
/-!
# What the built-in fields are about

Read off the documentation of the fields, not their getters.
-/
namespace Verif.Fields

/-- What must have happened for a field to make sense. -/
inductive Need
  | nothing
  | begun
  | ended
  | failed          -- an exception was recorded
deriving DecidableEq, Repr

/-- Classification of the fields.  `warn_char` is left out (`none`), see C77. -/
def Field.need : Field → Option Need
  | .warnChar => none
  | .beginMessage | .beginMessageRaw | .beginTimestamp | .isoBegin _ => some .begun
  | .endMessage | .endMessageRaw | .endTimestamp | .isoEnd _ => some .ended
  | .excType | .excMessage | .excTbStr | .excTbList => some .failed
  | _ => some .nothing

/-- What an event of kind `k` with status `st` tells by itself. -/
def tells (k : Kind) (st : Status) : Need → Bool
  | .nothing => true
  | .begun => k = .begin ∨ k = .end_ ∨ k = .comment
  | .ended => k = .end_ ∨ k = .comment
  | .failed => k = .end_ ∧ st = .exception

/-- The fields that identify the event and its action, and those of its beginning: they should never change. -/
def Field.lasting : Field → Bool
  | .loggerName | .loggerId | .actionName | .actionId | .actionGuid | .statusStr
  | .levelName | .levelNameUpper | .levelChar | .levelNumber
  | .beginMessage | .beginMessageRaw | .beginTimestamp | .isoBegin _
  | .eventMessage | .moduleName | .modulePath | .funcName | .lineNumber | .importDeltaS | .importDeltaMs
  | .processId => true
  | _ => false

/-- The words for the statuses. -/
def statusWord : Status → String
  | .begin => "begin"
  | .success => "success"
  | .failure => "failure"
  | .exception => "exception"
  | .warning => "warning"
  | .comment => "comment"

theorem statusText_eq (s : Status) : statusText s = statusWord s := by cases s <;> rfl

end Verif.Fields
