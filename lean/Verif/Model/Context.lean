import Verif.Model.Action
/-!
# `lithoxyl/context.py`: the logger table, flush, enable/disable async

The signal handler and the actor are modelled apart (`Model/Signal.lean`, `Model/Actor.lean`).
-/
namespace Verif

/-- `LithoxylContext.flush` (context.py:148-156): every logger in registration order; an `Exception` is
noted and the loop goes on. -/
def ctxFlush (env : Env) : List LogId → World → World × Option Exc
  | [], w => (w, none)
  | l :: ls, w =>
    match flush env w l with
    | (w', none) => ctxFlush env ls w'
    | (w', some e) =>
      match e.cls with
      | .baseOnly => (w', some e)
      | .ordinary =>
        match noteAll env "context_flush" w' with
        | (w'', none) => ctxFlush env ls w''
        | (w'', some e') => (w'', some e')

/-- `logger.set_async(b)` (logger.py:104-105). -/
def setAsync (w : World) (l : LogId) (b : Bool) : World :=
  match w.logs l with
  | none => w
  | some L => w.setLog l { L with async := b }

/-- `LithoxylContext.enable_async` (context.py:91-125), logger part.  Line 117 passes `False`. -/
def enableAsync (w : World) (updateLoggers : Bool) : World :=
  let w := { w with ctxAsync := true }
  if updateLoggers then w.ctxLoggers.foldl (fun w l => setAsync w l false) w else w

/-- `LithoxylContext.disable_async` (context.py:127-146), logger part. -/
def disableAsync (env : Env) (w : World) (updateLoggers : Bool) : World × Option Exc :=
  let w := if updateLoggers then w.ctxLoggers.foldl (fun w l => setAsync w l false) w else w
  match ctxFlush env w.ctxLoggers w with
  | (w, some e) => (w, some e)
  | (w, none) => ({ w with ctxAsync := false }, none)

/-- `LithoxylContext.add_logger` (context.py:158-161). -/
def addLogger (w : World) (l : LogId) : World :=
  if l ∈ w.ctxLoggers then w else { w with ctxLoggers := w.ctxLoggers ++ [l] }

/-- `LithoxylContext.remove_logger` (context.py:163-168). -/
def removeLogger (w : World) (l : LogId) : World :=
  { w with ctxLoggers := w.ctxLoggers.filter (· ≠ l) }

end Verif
