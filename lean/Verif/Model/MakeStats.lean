import Verif.Model.Sinks
import Verif.Model.Ewma
/-!
# Making a `RateSink`, an `EWMASink` or a `CounterSink` (lithoxyl/sinks.py), and what their options do later

Getters that are given return for every event (`Model/Getters.lean` has those that raise).
-/
namespace Verif.MakeStats

open Verif.Dct Verif.Sinks

/-- What these sinks use of an end event: its logger, action name and status, when the action ended and how long it took, and the
clock when the event is received. -/
structure End (L K : Type) where
  logger : L
  name : String
  status : String
  etime : K
  duration : K
  now : K

/-- The argument `getter`: None, something that can be called, or something else. -/
inductive Getter (E V : Type)
  | absent
  | callable (f : E → V)
  | other

/-- The beginning of the three constructors (sinks.py:148-154, 244-248, 366-371), given the default getter; `none` is TypeError. -/
def chosen {E V : Type} (default : E → V) : Getter E V → Option (E → V)
  | .absent => some default
  | .callable f => some f
  | .other => none

variable {L K : Type} [DecidableEq L]

/-- `RateSink.__init__` (sinks.py:147-157): by default it counts by the time the action ended.  `sample_size` is kept as it is. -/
def makeRate (g : Getter (End L K) K) : Option (End L K → K) := chosen End.etime g

/-- `CounterSink.__init__` (sinks.py:365-373): by default it counts action names.  `threshold` is kept as it is. -/
def makeCounter (g : Getter (End L K) String) : Option (End L K → String) := chosen End.name g

/-- `EWMASink.__init__` (sinks.py:240-251): by default it adds up durations.  `periods` and `interval` are kept as they are. -/
def makeEwma (g : Getter (End L K) K) : Option (End L K → K) := chosen End.duration g

section Rate

variable [Field K] [LinearOrder K] [IsStrictOrderedRing K]

/-- What `RateSink.on_end` works with. -/
def toEv (getter : End L K → K) (e : End L K) : Ev L K := ⟨e.logger, e.name, e.status, getter e, e.now⟩

/-- `RateSink.on_end` (sinks.py:159-168), and whether it raises.  `deque(maxlen)` refuses a negative length (sinks.py:73) when the
first accumulator for the labels is made; the rows of the logger and of the name are there by then (sinks.py:161-162).
Simplified: `sample_size` is an int or None. -/
def rateEnd (size : Option Int) (getter : End L K → K) (m : Map3 L (RateAcc K)) (e : End L K) : Map3 L (RateAcc K) × Bool :=
  let acc := (get? m e.logger).bind fun d2 => (get? d2 e.name).bind fun d3 => get? d3 e.status
  match acc, size with
  | none, some (.negSucc _) => (upd m e.logger [] fun d2 => upd d2 e.name [] id, true)
  | _, _ => (rateOnEnd (size.map Int.toNat) m (toEv getter e), false)

end Rate

/-- `CounterSink.on_end` (sinks.py:375-384), and whether it raises: `ThresholdCounter(threshold)` refuses thresholds that are not
between 0 and 1 (boltons, external) when the first event of a logger comes.  `bucket threshold` is `int(1 / threshold)`. -/
def counterEnd [Zero K] [One K] [LT K] [DecidableLT K] (bucket : K → Nat) (threshold : K) (getter : End L K → String)
    (m : Dict L TCounter) (e : End L K) : Dict L TCounter × Bool :=
  match get? m e.logger with
  | some _ => (counterOnEnd (bucket threshold) End.logger getter m e, false)
  | none =>
    if 0 < threshold ∧ threshold < 1 then (counterOnEnd (bucket threshold) End.logger getter m e, false)
    else (m, true)

/-- `EWMASink.on_end` (sinks.py:253-263), and whether it raises: `EWMAAccumulator(periods, interval)` refuses negative intervals
(ewma.py:15-17) when the first accumulator for the labels is made; the rows of the logger and of the name are there by then
(sinks.py:254-255). -/
noncomputable def ewmaEnd (periods : List ℝ) (interval : ℝ) (getter : End String ℝ → ℝ) (m : Map3 String Ewma.Ewma)
    (e : End String ℝ) : Map3 String Ewma.Ewma × Bool :=
  let acc := (get? m e.logger).bind fun d2 => (get? d2 e.name).bind fun d3 => get? d3 e.status
  match acc, Ewma.make periods interval e.now with
  | some a, _ => (upd m e.logger [] fun d2 => upd d2 e.name [] fun d3 => set d3 e.status (Ewma.add a (getter e)), false)
  | none, some new =>
    (upd m e.logger [] fun d2 => upd d2 e.name [] fun d3 => set d3 e.status (Ewma.add new (getter e)), false)
  | none, none => (upd m e.logger [] fun d2 => upd d2 e.name [] id, true)

/-- A history of events: the sink's table, and for each event whether `on_end` raised. -/
def history {S E : Type} (step : S → E → S × Bool) (s : S) (evs : List E) : S × List Bool :=
  evs.foldl (fun t e => ((step t.1 e).1, t.2 ++ [(step t.1 e).2])) (s, [])

end Verif.MakeStats
