import Verif.Model.Core
/-!
# Assumptions about foreign code
-/
namespace Verif

/-- No sink hook, preflush hook or note handler ever raises. -/
def Env.Quiet (env : Env) : Prop := ∀ t o, env.raises t o = none

/-- Note handlers never raise. -/
def Env.NotesQuiet (env : Env) : Prop := ∀ t h n, env.raises t (.note h n) = none

/-- Sink and preflush hooks raise nothing but `Exception`s. -/
def Env.Ordinary (env : Env) : Prop := ∀ t o x, env.raises t o = some x → x.cls = .ordinary

/-- The sinks raise on no event of logger `l`. -/
def Env.QuietFor (env : Env) (l : LogId) : Prop :=
  ∀ t s k e, e.logger = l → env.raises t (.hook s k e) = none

/-- The information about "the exception being handled" cannot be extracted when there is none
(`boltons.tbutils.ExceptionInfo.from_exc_info` with no traceback raises ValueError). -/
def Env.NeedsExc (env : Env) : Prop := env.excInfoErr none ≠ none

/-- Foreign code works: no callback raises; information about an exception can be extracted if there is one
and only then; the default message can be built. -/
structure Env.Calm (env : Env) : Prop where
  quiet : env.Quiet
  info : ∀ e, env.excInfoErr (some e) = none
  noInfo : env.NeedsExc
  text : ∀ c n b, ∃ s, env.excText c n b = .ok s

end Verif
