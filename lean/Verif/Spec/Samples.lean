import Verif.Model.Prog
import Verif.Spec.Env
/-!
# Concrete environments and histories

Used only to show that the hypotheses of theorems can be met, and as witnesses where the code violates
a property.
-/
namespace Verif.Sample

/-- The clock reads 10, 20, 30, ...; every sink has every hook; nothing raises but the extraction of
an exception's information when no exception is being handled. -/
def quiet : Env where
  clock n := 10 * (n + 1)
  hasHook _ _ := true
  raises _ _ := none
  excInfoErr c := if c.isNone then some ⟨.ordinary, 99⟩ else none
  excText _ _ _ := .ok "raised"

/-- An ordinary exception of the application. -/
def boom : Exc := ⟨.ordinary, 1⟩
/-- An exception raised by a sink. -/
def sinkErr : Exc := ⟨.ordinary, 2⟩

/-- Like `quiet`, but every `on_<k>` of sink `s` raises. -/
def badSink (s : SinkId) (k : Kind) : Env :=
  { quiet with
    raises := fun _ o =>
      match o with
      | .hook s' k' _ => if s' = s ∧ k' = k then some sinkErr else none
      | _ => none }

/-- Like `badSink 0 .end_`, and every note handler raises too. -/
def badEndAndNote : Env :=
  { quiet with
    raises := fun _ o =>
      match o with
      | .hook 0 .end_ _ => some sinkErr
      | .note .. => some ⟨.ordinary, 3⟩
      | _ => none }

/-- A synchronous logger 0 with sinks 0 and 1. -/
def setup : List Item := [.op (.newLogger 0 [0, 1] (some false))]
/-- An asynchronous logger 0 with sinks 0 and 1. -/
def setupAsync : List Item := [.op (.newLogger 0 [0, 1] (some true))]
/-- `logger.info(name, **kw)` -/
def mk (name : String) (kw : Dict := []) : Item := .op (.newAction 0 20 name kw)

theorem quiet_needs : quiet.NeedsExc := by simp [Env.NeedsExc, quiet]

/-- `quiet` is calm. -/
theorem quiet_calm : quiet.Calm :=
  ⟨fun _ _ => rfl, by intro e; rfl, quiet_needs, by intro e n d; exact ⟨_, rfl⟩⟩

end Verif.Sample
