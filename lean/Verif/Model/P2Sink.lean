import Verif.Model.P2
import Verif.Model.Sinks
/-!
# `QuantileSink(use_p2=True)`

The sink keeps a `P2Accumulator` for every logger name and action name.  Reading one may sort the values it is still collecting, so
that showing the sink is a step in its history.  Getters are assumed to return (Model/Getters.lean for those that do not).
-/
namespace Verif.P2Sink

open Verif.Dct Verif.Quant Verif.P2

variable {K : Type} [Field K] [LinearOrder K] [IsStrictOrderedRing K] [FloorRing K]

/-- Reads a list of quantiles one after the other, keeping the first exception (quantile.py:36, 91-92). -/
def readAll (a : Acc K) : List K → Except Exc (List K) × Acc K
  | [] => (.ok [], a)
  | q :: qs =>
    match accQuantile a q with
    | (.error e, b) => (.error e, b)
    | (.ok v, b) =>
      match readAll b qs with
      | (.error e, c) => (.error e, c)
      | (.ok vs, c) => (.ok (v :: vs), c)

/-- `acc.trimean` (quantile.py:89-92, 99-102): the quartiles are read one after the other. -/
def trimean (a : Acc K) : Except Exc K × Acc K :=
  match readAll a [1 / 4, 1 / 2, 3 / 4] with
  | (.ok [x, y, z], a) => (.ok ((x + 2 * y + z) / 4), a)
  | (.ok _, a) => (.error .index, a)
  | (.error e, a) => (.error e, a)

/-- `dict(acc.get_quantiles())` (quantile.py:33-38, 185-187). -/
def quantiles (a : Acc K) : Except Exc (List (K × Accum.Ext K)) × Acc K :=
  match readAll a a.points with
  | (.ok vs, b) => (.ok ((0, a.base.min) :: (a.points.zip vs).map (fun p => (p.1, (p.2 : Accum.Ext K))) ++ [(1, a.base.max)]), b)
  | (.error e, b) => (.error e, b)

/-- An entry of `to_dict` (sinks.py:336-338). -/
def entry (a : Acc K) : Except Exc (Nat × K × List (K × Accum.Ext K)) × Acc K :=
  match trimean a with
  | (.error e, b) => (.error e, b)
  | (.ok t, b) =>
    match quantiles b with
    | (.error e, c) => (.error e, c)
    | (.ok qs, c) => (.ok (a.base.count, t, qs), c)

/-- An entry of `__repr__` (sinks.py:357): the count and the median (rounding it is left out). -/
def brief (a : Acc K) : Except Exc (Nat × K) × Acc K :=
  match accQuantile a (1 / 2) with
  | (.error e, b) => (.error e, b)
  | (.ok m, b) => (.ok (a.base.count, m), b)

/-- A loop over the items of a dictionary that makes one with the same keys (sinks.py:333-338, 356-359); it ends with the first
exception. -/
def mapAcc {A R : Type} (f : A → Except Exc R × A) : Dict String A → Except Exc (Dict String R) × Dict String A
  | [] => (.ok [], [])
  | (k, a) :: d =>
    match f a with
    | (.error x, b) => (.error x, (k, b) :: d)
    | (.ok r, b) =>
      match mapAcc f d with
      | (.error x, d') => (.error x, (k, b) :: d')
      | (.ok rs, d') => (.ok ((k, r) :: rs), (k, b) :: d')

/-- `sink.qas`. -/
abbrev Table (K : Type) := Dict String (Dict String (Acc K))

/-- `to_dict` (sinks.py:331-339). -/
def toDict (t : Table K) : Except Exc (Dict String (Dict String (Nat × K × List (K × Accum.Ext K)))) × Table K :=
  mapAcc (mapAcc entry) t

/-- `__repr__` (sinks.py:354-361). -/
def repr (t : Table K) : Except Exc (Dict String (Dict String (Nat × K))) × Table K := mapAcc (mapAcc brief) t

/-- What happens to the sink: an action of logger `l` called `n` ends, for which the getter returns `v`; it is shown. -/
inductive Op (K : Type)
  | end_ (l n : String) (v : K)
  | toDict
  | repr

/-- One step.  No `add` raises (C53). -/
def step (store : K → K) (points : List K) (t : Table K) : Op K → Table K
  | .end_ l n v => Sinks.onEnd2 (fun _ => l) (fun _ => n) (accInit points) (fun a (_ : Unit) => (accAdd store a v).getD a) t ()
  | .toDict => (toDict t).2
  | .repr => (repr t).2

def run (store : K → K) (points : List K) (ops : List (Op K)) : Table K := ops.foldl (step store points) []

end Verif.P2Sink
