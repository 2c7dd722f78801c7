import Verif.Model.Step
/-!
# Vocabulary for statements about delivery

Everything here is about what can be observed: the calls made into sinks (`World.trace`), the
publications (`World.pub`) and the queue.
-/
namespace Verif

/-- What sink `s` has received, oldest first. -/
def received (s : SinkId) (tr : List Obs) : List (Kind × Event) :=
  tr.filterMap fun
    | .hook s' k e => if s' = s then some (k, e) else none
    | _ => none

/-- The part of a list of events that comes from logger `l` and can be queued (every kind but
`exception`, which is delivered at once). -/
def ofLogger (l : LogId) (xs : List (Kind × Event)) : List (Kind × Event) :=
  xs.filter fun p => decide (p.1 ≠ .exception) && decide (p.2.logger = l)

/-- What has been published on logger `l`, oldest first. -/
def published (w : World) (l : LogId) : List (Kind × Event) := ofLogger l w.pub

/-- What is queued on logger `l`. -/
def queued (w : World) (l : LogId) : List (Kind × Event) :=
  match w.logs l with
  | some L => L.queue
  | none => []

/-- The sink calls in a trace that deliver events of logger `l` (other than `exception` events). -/
def deliveries (l : LogId) (tr : List Obs) : List Obs :=
  tr.filter fun
    | .hook _ k e => decide (k ≠ .exception) && decide (e.logger = l)
    | _ => false

/-- `P` holds after every prefix of the history. -/
def Along (env : Env) (P : World → Prop) (w : World) (its : List Item) : Prop :=
  ∀ pre, pre <+: its → P (run env w pre)

/-- If logger `l` is synchronous then it has nothing queued. -/
def SyncEmpty (l : LogId) (w : World) : Prop :=
  ∀ L, w.logs l = some L → L.async = false → L.queue = []

/-- The item does not change the sinks of `l`. -/
def Item.keepsSinks (l : LogId) : Item → Prop
  | .op (.setSinks m _) => m ≠ l
  | .op (.addSink m _) => m ≠ l
  | .op (.clearSinks m) => m ≠ l
  | _ => True

/-- What is queued on `l` and what the item publishes on it fit into the queue together. -/
def HasRoom (env : Env) (l : LogId) (w : World) (it : Item) : Prop :=
  (queued w l).length + (published (stepItem env w it) l).length ≤
    QUEUE_LIMIT + (published w l).length

/-- The condition at every step of a history. -/
def AlongStep (env : Env) (P : World → Item → Prop) : World → List Item → Prop
  | _, [] => True
  | w, it :: its => P w it ∧ AlongStep env P (stepItem env w it) its

/-- The item is not one of the calls that can switch logger `l` from asynchronous to synchronous mode
(`set_async(False)`, `enable_async()`, `disable_async()`). -/
def Item.keepsMode (l : LogId) : Item → Prop
  | .op (.setAsync m b) => m = l → b = true
  | .op (.enableAsync u) => u = false
  | .op (.disableAsync u) => u = false
  | _ => True

/-- The item does not make logger `l` asynchronous. -/
def Item.staysSync (l : LogId) : Item → Prop
  | .op (.setAsync m b) => m = l → b = false
  | _ => True

/-- The calls that hand each of `evs` to each of `sinks` having a hook for it: event by event, and for
each event in the order of the sinks. -/
def callsFor (env : Env) (sinks : List SinkId) (evs : List (Kind × Event)) : List Obs :=
  evs.flatMap fun p => (sinks.filter fun s => env.hasHook s p.1).map fun s => Obs.hook s p.1 p.2

/-- The last `n` elements (all, if there are fewer). -/
def lastN {α : Type} (n : Nat) (xs : List α) : List α := xs.drop (xs.length - n)

/-- The item does not flush logger `l`. -/
def Item.leavesQueue (l : LogId) : Item → Prop
  | .op (.flush m) => m ≠ l
  | .op .ctxFlush => False
  | .op (.disableAsync _) => False
  | _ => True

/-- Is the call one of a note handler? -/
def Obs.isNote : Obs → Bool
  | .note .. => true
  | _ => false

/-- The logger on whose behalf a sink or preflush hook is called. -/
def Obs.log? : Obs → Option LogId
  | .hook _ _ e => some e.logger
  | .preflush l _ => some l
  | .note .. => none

/-- The outcome of a flush seen from logger `l`: everything delivered, or stopped inside one event. -/
def FlushOutcome (env : Env) (l : LogId) (sinks : List SinkId) (q : List (Kind × Event))
    (tr tr' : List Obs) (q' : List (Kind × Event)) : Prop :=
  (deliveries l tr' = deliveries l tr ++ callsFor env sinks q ∧ q' = []) ∨
  ∃ done p some_, q = done ++ p :: q' ∧ some_ <+: callsFor env sinks [p] ∧ some_ ≠ [] ∧
    deliveries l tr' = deliveries l tr ++ callsFor env sinks done ++ some_

end Verif
