import Verif.Model.Sinks
import Verif.Model.Quantile
/-!
# `lithoxyl/sinks.py`: the statistics sinks with getters that may raise

`Model/Sinks.lean` assumes that getters return.  Here the getter of an event may raise: the exception leaves `on_end` (what
becomes of it then is the logger's business, see `Model/Logger.lean`), and the sink keeps what it did before the call of the
getter, that is, the accumulator it made.
-/
namespace Verif.Sinks

open Verif.Dct

variable {K : Type} [Field K] [LinearOrder K] [IsStrictOrderedRing K]

/-- What a sink uses of an end event: its logger, name, status, what the getter returns for it (`none`: it raises), and the
clock when it is received. -/
structure TryEv (L V K : Type) where
  logger : L
  name : String
  status : String
  got : Option V
  now : K

/-- `acc.add(self.getter(ev))`: nothing is added if the getter raises (sinks.py:168, 263, 352, 383-384). -/
def addGot {A V : Type} (add : A → V → A) (a : A) (got : Option V) : A :=
  match got with
  | some v => add a v
  | none => a

/-- `RateSink.on_end` (sinks.py:159-168): the accumulator is made and stored before the getter is called. -/
def rateTry {L : Type} [DecidableEq L] (size : Option Nat) : Map3 L (RateAcc K) → TryEv L K K → Map3 L (RateAcc K) :=
  onEnd TryEv.logger TryEv.name TryEv.status (fun e => rateInit size e.now) (fun a e => addGot rateAdd a e.got)

/-- `CounterSink.on_end` (sinks.py:374-384): the counter is made and stored before the getter is called; the getter gives the
key. -/
def counterTry {L : Type} [DecidableEq L] (bucketSize : Nat) (m : Dict L TCounter) (e : TryEv L String K) : Dict L TCounter :=
  upd m e.logger (tcInit bucketSize) fun c => addGot tcAdd c e.got

variable [FloorRing K]

/-- `QuantileSink.on_end` (sinks.py:341-352) with the default accumulators (which never draw random numbers): the accumulator
is made and stored before the getter is called.  The sink knows loggers by their names. -/
def quantTry (store : K → K) (m : Dict String (Dict String (Quant.Res K))) (e : TryEv String K K) :
    Dict String (Dict String (Quant.Res K)) :=
  onEnd2 TryEv.logger TryEv.name (Quant.resInit none)
    (fun r e => addGot (fun r v => Quant.step store r (.add v 0)) r e.got) m e

/-- What `QuantileSink.to_dict` makes of an accumulator (sinks.py:336-338): count, trimean and quantiles; `none` if reading
one of them raises. -/
def quantEntry (qs : List K) (r : Quant.Res K) : Option (Nat × K × List (K × Accum.Ext K)) :=
  match Quant.trimean r, Quant.getQuantiles r qs with
  | .ok t, .ok q => some (r.base.count, t, q)
  | _, _ => none

/-- `QuantileSink.to_dict` (sinks.py:331-339). -/
def quantDict (qs : List K) (m : Dict String (Dict String (Quant.Res K))) :
    Option (Dict String (Dict String (Nat × K × List (K × Accum.Ext K)))) :=
  toDict2 (quantEntry qs) m

/-- What `QuantileSink.__repr__` shows of an accumulator (sinks.py:357): count and median, rounded (`rnd` is
`round(x, 4)`); `none` if reading the median raises. -/
def quantShow (rnd : K → K) (r : Quant.Res K) : Option (Nat × K) :=
  match Quant.median r with
  | .ok v => some (r.base.count, rnd v)
  | .error _ => none

/-- The dictionary in `QuantileSink.__repr__` (sinks.py:356-359); `none` if making it raises. -/
def quantRepr (rnd : K → K) (m : Dict String (Dict String (Quant.Res K))) : Option (Dict String (Dict String (Nat × K))) :=
  toDict2 (quantShow rnd) m

end Verif.Sinks
