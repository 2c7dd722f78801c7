import Verif.Model.Core
/-!
# `DevDebugSink` (lithoxyl/sinks.py:43-63)
-/
namespace Verif

/-- A `DevDebugSink`: which exceptions it raises again.  `reraise=True` is every `Exception` (sinks.py:50-51), a class or tuple
of classes is those that match.  The post-mortem debugger (sinks.py:58-59) is left out. -/
structure DevDebug where
  reraise : Exc → Bool

/-- `DevDebugSink(reraise=True)` (sinks.py:50-51). -/
def DevDebug.all : DevDebug := ⟨fun e => e.cls = .ordinary⟩

/-- `DevDebugSink()`. -/
def DevDebug.off : DevDebug := ⟨fun _ => false⟩

/-- `DevDebugSink.on_exception` (sinks.py:57-62): what it raises for an exception event, whose `excInfo` is the exception it
is called with (action.py:204-221). -/
def DevDebug.onException (d : DevDebug) (e : Event) : Option Exc :=
  match e.excInfo with
  | some x => if d.reraise x then some x else none
  | none => none

end Verif
