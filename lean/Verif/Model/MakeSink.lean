import Verif.Model.Getters
import Verif.Model.P2Sink
/-!
# Making a `QuantileSink` (lithoxyl/sinks.py:301-329), and what its options do later

The getter is only checked for being callable; here it returns a number for every event (Model/Getters.lean for getters that raise).
-/
namespace Verif.MakeSink

open Verif.Dct Verif.P2

variable {K : Type} [Field K] [LinearOrder K] [IsStrictOrderedRing K] [FloorRing K]

/-- The accumulators of the library. -/
inductive Kind | reservoir | p2
deriving DecidableEq, Repr

/-- The arguments of `QuantileSink(getter=None, **kwargs)`.  `getter` is whether a getter that is given can be called; `qPoints` is
what is given as `q_points`, which may be None; a point is a number, or something that is not (`none`); `others` are the other
keywords.  Simplified: `acc_type` is one of the two classes. -/
structure Args (K : Type) where
  getter : Option Bool := none
  useP2 : Bool := false
  accType : Option Kind := none
  qPoints : Option (Option (List (Option K))) := none
  others : List String := []

/-- `QP_PRAG` (quantile.py:14). -/
def QP_PRAG : List K := [1 / 100, 5 / 100, 25 / 100, 50 / 100, 75 / 100, 90 / 100, 95 / 100, 99 / 100]

/-- What a sink keeps of its arguments: the class of its accumulators (sinks.py:318-323) and their points; an accumulator given no
points, or none at all, takes the default ones (sinks.py:324, quantile.py:26). -/
structure Conf (K : Type) where
  kind : Kind
  points : List (Option K)

/-- `q_points or QP_PRAG` (quantile.py:26). -/
def orDefault (points : Option (List (Option K))) : List (Option K) :=
  match points with
  | none | some [] => QP_PRAG.map some
  | some ps => ps

/-- `QuantileSink.__init__` (sinks.py:301-329); `none` is TypeError. -/
def make (a : Args K) : Option (Conf K) :=
  match a.getter with
  | some false => none
  | _ =>
    let default := if a.useP2 then Kind.p2 else .reservoir
    let points := a.qPoints.getD (some (QP_PRAG.map some))
    if a.others = [] then some ⟨a.accType.getD default, orDefault points⟩ else none

/-- An action of a logger called `l`, with the name `n`, ends, and the getter returns `v`. -/
structure Ev (K : Type) where
  l : String
  n : String
  v : K

/-- `sink.qas`, for each class. -/
structure Table (K : Type) where
  res : Dict String (Dict String (Quant.Res K)) := []
  p2 : P2Sink.Table K := []

/-- `QuantileSink.on_end` (sinks.py:341-352), and whether it raises.  A `P2Accumulator` processes its points when it is made
(quantile.py:165); then the row of the logger has been made already (sinks.py:344). -/
def onEnd (store : K → K) (c : Conf K) (t : Table K) (e : Ev K) : Table K × Bool :=
  match c.kind with
  | .reservoir => ({ t with res := Sinks.quantTry store t.res ⟨e.l, e.n, "success", some e.v, 0⟩ }, false)
  | .p2 =>
    match processPoints c.points with
    | none => ({ t with p2 := upd t.p2 e.l [] id }, true)
    | some ps => ({ t with p2 := P2Sink.step store ps t.p2 (.end_ e.l e.n e.v) }, false)

/-- A history: the sink, and for each event whether `on_end` raised. -/
def run (store : K → K) (c : Conf K) (evs : List (Ev K)) : Table K × List Bool :=
  evs.foldl (fun s e => ((onEnd store c s.1 e).1, s.2 ++ [(onEnd store c s.1 e).2])) ({}, [])

/-- What `to_dict` makes of a `ReservoirAccumulator` (sinks.py:336-338): its points are read as they were given (quantile.py:36), so
that one that is not a number raises, too. -/
def resEntry (points : List (Option K)) (r : Quant.Res K) : Option (Nat × K × List (K × Accum.Ext K)) :=
  match points.mapM id with
  | none => none
  | some qs => Sinks.quantEntry qs r

/-- `QuantileSink.to_dict` (sinks.py:331-339); `none` if it raises. -/
def toDict (c : Conf K) (t : Table K) : Option (Dict String (Dict String (Nat × K × List (K × Accum.Ext K)))) :=
  match c.kind with
  | .reservoir => Sinks.toDict2 (resEntry c.points) t.res
  | .p2 => match (P2Sink.toDict t.p2).1 with | .ok d => some d | .error _ => none

end Verif.MakeSink
