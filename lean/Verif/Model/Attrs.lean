/-!
# `lithoxyl/action.py`: the attributes of events and actions

Attribute lookup as in CPython 3: what a class or an instance has, else `__getattr__`.  Of a value only its origin is
modelled: whether it is the event's own or the action's.  The stack is finite: a lookup that needs more than the given number of
nested calls is a RecursionError.
-/
namespace Verif.Attrs

/-- The event classes (action.py:328-394). -/
inductive Kind where
  | begin
  | exception
  | «end»
  | warning
  | comment
  deriving DecidableEq, Repr

/-- The outcome of `getattr`. -/
inductive Got where
  | ofEvent
  | ofAction
  | attributeError
  | recursionError
  deriving DecidableEq, Repr

/-- What `object` gives every instance in CPython 3 (without what only special methods of later versions add). -/
def objectAttrs : List String :=
  ["__class__", "__delattr__", "__dict__", "__dir__", "__doc__", "__eq__", "__format__", "__ge__", "__getattribute__",
   "__getstate__", "__gt__", "__hash__", "__init__", "__init_subclass__", "__le__", "__lt__", "__module__", "__ne__", "__new__",
   "__reduce__", "__reduce_ex__", "__repr__", "__setattr__", "__sizeof__", "__str__", "__subclasshook__", "__weakref__"]

/-- What the classes of events define: `Event` (action.py:298-325) and the subclasses (action.py:328-394).  `EndEvent` has no
`status` in its class (its constructor sets it); `status_char` is a property there. -/
def eventClass : Kind → List String
  | .end => ["_message", "__getitem__", "__getattr__", "message", "status_char"] ++ objectAttrs
  | _ => ["_message", "__getitem__", "__getattr__", "message", "status", "status_char"] ++ objectAttrs

/-- Which of these are properties: their getters run, and if one raises AttributeError, `__getattr__` is asked. -/
def eventProps : Kind → List String
  | .end => ["message", "status_char"]
  | _ => ["message"]

/-- What the constructors set (action.py:332-337, 344-350, 354-362, 377-382, 389-394). -/
def eventInit : Kind → List String
  | .exception => ["action", "etime", "event_id", "raw_message", "fargs", "exc_info"]
  | .end => ["action", "etime", "event_id", "raw_message", "fargs", "status", "exc_info"]
  | _ => ["action", "etime", "event_id", "raw_message", "fargs"]

/-- What `Action` defines in its class and sets in its constructor (action.py:65-286). -/
def actionAttrs : List String :=
  ["_is_trans", "_defer_publish", "exc_event", "exc_events", "warn_events", "guid", "level_name", "status", "duration",
   "parent_depth", "begin", "warn", "success", "failure", "exception", "_exception", "_end", "__enter__", "__exit__",
   "__getitem__", "__setitem__", "get_elapsed_time", "action_id", "logger", "level", "name", "data_map", "_reraise", "callpoint",
   "begin_event", "end_event", "parent_action"] ++ objectAttrs

/-- `getattr(event, name)` within a stack of `depth` calls.  `inst` are the names in the instance's `__dict__`, `extra` what the
application set on the action besides its own attributes, `bad` the properties whose getters raise AttributeError now.
`__getattr__` is `getattr(self.action, name)` (action.py:304-305); `self.action` is looked up in the same way. -/
def getattr : (depth : Nat) → Kind → (inst extra bad : List String) → (name : String) → Got
  | 0, _, _, _, _, _ => .recursionError
  | depth + 1, k, inst, extra, bad, name =>
    if name ∈ eventProps k ∧ name ∉ bad ∨ name ∉ eventProps k ∧ (name ∈ inst ∨ name ∈ eventClass k) then .ofEvent
    else
      match getattr depth k inst extra bad "action" with
      | .recursionError => .recursionError
      | .attributeError => .attributeError
      | _ => if name ∈ actionAttrs ∨ name ∈ extra then .ofAction else .attributeError

/-- `hasattr(event, name)` in Python 3: AttributeError is no, other exceptions pass (`none`). -/
def hasattr (depth : Nat) (k : Kind) (inst extra bad : List String) (name : String) : Option Bool :=
  match getattr depth k inst extra bad name with
  | .recursionError => none
  | .attributeError => some false
  | _ => some true

/-- `copy.copy(event)` (and `pickle.loads(pickle.dumps(event))`, as far as it goes): a new instance without attributes is made,
it is asked whether it has `__setstate__` (it has, to no avail, only if the question can be answered), and then its `__dict__`
is filled.  The result is the names in the `__dict__` of the copy, `none` is RecursionError. -/
def copy (depth : Nat) (k : Kind) (inst extra : List String) : Option (List String) :=
  match hasattr depth k [] extra [] "__setstate__" with
  | none => none
  | some _ => some inst

end Verif.Attrs
