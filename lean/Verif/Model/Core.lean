/-!
# Core data of the model: actions, events, loggers, the world

The Python objects of `lithoxyl/action.py`, `lithoxyl/logger.py` and `lithoxyl/context.py`
as immutable Lean records inside one `World`.  Objects that Python shares by reference are
kept in maps from identifiers to records.
-/
namespace Verif

/-- Action ids: values of `next(_ACT_ID_ITER)` (action.py:14, 69). -/
notation "ActId" => Nat
/-- A `Logger` object (logger.py:59).  Names of loggers play no role here. -/
notation "LogId" => Nat
/-- A sink object.  `sink in self._all_sinks` (logger.py:166) uses `==`; here sinks are
compared by identity, which is what `==` does for all sinks lithoxyl ships. -/
notation "SinkId" => Nat

/-- Python distinguishes `Exception` (caught by `except Exception`) from the remaining
`BaseException`s (KeyboardInterrupt, SystemExit, ...). -/
inductive ExcClass
  | ordinary
  | baseOnly
deriving DecidableEq, Repr

/-- An exception object: its class and an identity. -/
structure Exc where
  cls : ExcClass
  tag : Nat
deriving DecidableEq, Repr

/-- Application values that end up in a data map or among keyword arguments.  Only the
values lithoxyl itself inspects are distinguished: booleans and None (`reraise`), actions
(`parent_action`); everything else is opaque. -/
inductive Val
  | none
  | bool (b : Bool)
  | act (a : ActId)
  | other (n : Nat)
deriving DecidableEq, Repr

/-- Insertion-ordered Python dict with string keys. -/
abbrev Dict := List (String × Val)

namespace Dict
/-- `d.get(k)` -/
def get? (d : Dict) (k : String) : Option Val :=
  match d with
  | [] => .none
  | (k', v) :: r => if k' = k then some v else get? r k
/-- `d[k] = v`: keeps the position of an existing key, appends a new one. -/
def set (d : Dict) (k : String) (v : Val) : Dict :=
  match d with
  | [] => [(k, v)]
  | (k', v') :: r => if k' = k then (k, v) :: r else (k', v') :: set r k v
/-- `d.update(kw)` -/
def update (d kw : Dict) : Dict := kw.foldl (fun acc p => set acc p.1 p.2) d
/-- `d.pop(k, None)`: the remaining dict. -/
def erase (d : Dict) (k : String) : Dict := d.filter (fun p => p.1 ≠ k)
end Dict

/-- The five event kinds, `EVENTS` (common.py:5). -/
inductive Kind
  | begin
  | warn
  | end_
  | exception
  | comment
deriving DecidableEq, Repr

/-- The `status` of an event: class attributes at action.py:329, 341, 374, 386, and the
three values given to `_end` (action.py:168, 182, 224). -/
inductive Status
  | begin
  | success
  | failure
  | exception
  | warning
  | comment
deriving DecidableEq, Repr

/-- The event classes (action.py:328-394).  `logger` is `event.action.logger`, reachable through
`Event.__getattr__` (action.py:304-305).  `exc_info` is represented by the exception it was
extracted from.  The lazily rendered `message` is modelled in `Model/Message.lean`. -/
structure Event where
  id : Nat
  act : ActId
  logger : LogId
  kind : Kind
  status : Status
  etime : Int
  msg : String
  fargs : List Val
  excInfo : Option Exc
deriving DecidableEq, Repr

/-- `Action` (action.py:21-91).  `handle` is not a Python attribute: it is false exactly for the
actions made by `Logger.comment`, which are never returned to the application (logger.py:221-246).
`level` is the value of the resolved level.  `callpoint` is not modelled. -/
structure Act where
  logger : LogId
  level : Int
  name : String
  data : Dict
  reraise : Val
  parent : Option ActId
  beginEv : Option Event
  endEv : Option Event
  warnEvs : List Event
  excEvs : List Event
  isTrans : Bool
  defer : Bool
  handle : Bool

/-- `Logger` instance state (logger.py:81-102).  `hooks` stands for the five lists
`_begin_hooks, _warn_hooks, _end_hooks, _exc_hooks, _comment_hooks` (a hook is the bound method of
its sink).  The queue is `event_queue`; preflush hooks are identified by numbers. -/
structure Log where
  sinks : List SinkId
  hooks : Kind → List SinkId
  async : Bool
  queue : List (Kind × Event)
  preflush : List Nat
  lastFlush : Int

/-- A call lithoxyl makes into code it does not own: a sink's hook, a preflush hook, a note
handler. -/
inductive Obs
  | hook (s : SinkId) (k : Kind) (e : Event)
  | preflush (l : LogId) (h : Nat)
  | note (h : Nat) (name : String)
deriving DecidableEq, Repr

/-- The whole state.
* `nextId` : the counter `_ACT_ID_ITER` (action.py:14)
* `acts`, `logs` : the live objects
* `active` : `_CONSEC_ACTIVE_ACT_MAP` (context.py:34)
* `ctxLoggers` : `LithoxylContext.loggers` in the order of their counts (context.py:60, 115, 158-161);
  weak references are not modelled: registered loggers stay alive
* `ctxAsync`, `noteHandlers` : attributes of the context (context.py:62, 67)
* `ticks` : how many times `time.time()` has been read
* `trace` : every call made into foreign code so far, oldest first
* `pub` : every call of `Logger.on_begin/on_warn/on_end/comment` so far, oldest first, with the kind and
  the event.  It is history only: nothing reads it. -/
structure World where
  nextId : Nat
  acts : ActId → Option Act
  logs : LogId → Option Log
  active : LogId → Option ActId
  ctxLoggers : List LogId
  ctxAsync : Bool
  noteHandlers : List Nat
  ticks : Nat
  trace : List Obs
  pub : List (Kind × Event)

/-- What lithoxyl does not control.
* `clock n` : the n-th reading of `time.time()`
* `hasHook s k` : does sink `s` have a callable `on_<k>` (logger.py:168-182)
* `raises tr o` : what call `o` raises, if anything; it may depend on everything called before
* `excInfoErr` : what `ExceptionInfo.from_exc_info` raises, if anything (action.py:204); with no
  exception being handled it does raise (boltons)
* `excText` : the default message built from the exception (action.py:205-218), or what building it
  raises -/
structure Env where
  clock : Nat → Int
  hasHook : SinkId → Kind → Bool
  raises : List Obs → Obs → Option Exc
  excInfoErr : Option Exc → Option Exc
  excText : Option Exc → String → Bool → Except Exc String

/-- A fresh process: no action, no logger. -/
def World.init : World where
  nextId := 0
  acts := fun _ => none
  logs := fun _ => none
  active := fun _ => none
  ctxLoggers := []
  ctxAsync := false
  noteHandlers := []
  ticks := 0
  trace := []
  pub := []

/-- Replace one action record. -/
def World.setAct (w : World) (a : ActId) (x : Act) : World :=
  { w with acts := fun b => if b = a then some x else w.acts b }

/-- Replace one logger record. -/
def World.setLog (w : World) (l : LogId) (x : Log) : World :=
  { w with logs := fun m => if m = l then some x else w.logs m }

/-- `logger.context.set_active_parent(logger, action)` (context.py:47-53). -/
def World.setActive (w : World) (l : LogId) (p : Option ActId) : World :=
  { w with active := fun m => if m = l then p else w.active m }

/-- `time.time()`: the reading itself ... -/
def World.now (env : Env) (w : World) : Int := env.clock w.ticks
/-- ... and the state after it. -/
def World.tick (w : World) : World := { w with ticks := w.ticks + 1 }

end Verif
