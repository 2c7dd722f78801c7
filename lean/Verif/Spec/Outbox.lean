import Verif.Spec.Delivery
/-!
# A logger seen from outside: an outbox

What a user can say about one logger without looking inside: which sinks it has, whether it is
asynchronous, whether the context lists it, and which events it holds back.  `Outbox.item` says what
each call does to that, and which sink calls it makes; `new` is what the call publishes on the logger.
-/
namespace Verif

structure Outbox where
  sinks : List SinkId
  async : Bool
  listed : Bool
  held : List (Kind × Event)
deriving DecidableEq

namespace Outbox

/-- A sink is added once. -/
def withSink (ss : List SinkId) (s : SinkId) : List SinkId := if s ∈ ss then ss else ss ++ [s]

/-- A flush: everything held back goes to the sinks the logger has now, oldest first. -/
def flush (env : Env) (b : Outbox) : Outbox × List Obs :=
  ({ b with held := [] }, callsFor env b.sinks b.held)

/-- Published events are held back, at most 10 000 of them and the newest ones, or go to the sinks at once. -/
def publish (env : Env) (b : Outbox) (new : List (Kind × Event)) : Outbox × List Obs :=
  if b.async then ({ b with held := lastN 10000 (b.held ++ new) }, [])
  else (b, callsFor env b.sinks new)

/-- One call: the outbox afterwards and the sink calls made. -/
def item (env : Env) (l : LogId) (b : Outbox) (new : List (Kind × Event)) : Item → Outbox × List Obs
  | .op (.flush m) => if m = l then b.flush env else (b, [])
  | .op .ctxFlush => if b.listed then b.flush env else (b, [])
  | .op (.disableAsync u) =>
    if b.listed then ({ b with async := b.async && !u } : Outbox).flush env else (b, [])
  | .op (.enableAsync u) => ({ b with async := b.async && !(b.listed && u) }, [])
  | .op (.setAsync m v) => (if m = l then { b with async := v } else b, [])
  | .op (.addLogger m) => (if m = l then { b with listed := true } else b, [])
  | .op (.removeLogger m) => (if m = l then { b with listed := false } else b, [])
  | .op (.setSinks m ss) => (if m = l then { b with sinks := ss.foldl withSink [] } else b, [])
  | .op (.addSink m s) => (if m = l then { b with sinks := withSink b.sinks s } else b, [])
  | .op (.clearSinks m) => (if m = l then { b with sinks := [] } else b, [])
  | _ => b.publish env new

end Outbox

/-- The outbox of a logger. -/
def outbox (w : World) (l : LogId) : Outbox :=
  match w.logs l with
  | some L => ⟨L.sinks, L.async, decide (l ∈ w.ctxLoggers), L.queue⟩
  | none => ⟨[], false, decide (l ∈ w.ctxLoggers), []⟩

/-- What a call publishes on logger `l`. -/
def publishes (env : Env) (l : LogId) (w : World) (it : Item) : List (Kind × Event) :=
  (published (stepItem env w it) l).drop (published w l).length

/-- A whole history seen by the outbox: where it ends, and the sink calls made. -/
def outboxRun (env : Env) (l : LogId) : Outbox → World → List Item → Outbox × List Obs
  | b, _, [] => (b, [])
  | b, w, it :: its =>
    let r := b.item env l (publishes env l w it) it
    let t := outboxRun env l r.1 (stepItem env w it) its
    (t.1, r.2 ++ t.2)

end Verif
