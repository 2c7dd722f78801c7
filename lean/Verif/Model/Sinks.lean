import Verif.Model.Dict
import Verif.Model.Bisect
import Mathlib.Algebra.Order.Field.Basic
import Mathlib.Algebra.BigOperators.Group.List.Basic
/-!
# `lithoxyl/sinks.py`: the statistics sinks

Loggers are hashable objects (`L`) with a name; an event has a logger, a name, a status.  Getters are assumed not to raise.
-/
namespace Verif.Sinks

open Verif.Dct

/-! ## RateAccumulator -/

variable {K : Type} [Field K] [LinearOrder K] [IsStrictOrderedRing K]

/-- A `RateAccumulator` (sinks.py:72-75); `size = none` is `maxlen=None`. -/
structure RateAcc (K : Type) where
  times : List K
  total : Nat
  creation : K
  size : Option Nat

/-- `RateAccumulator(sample_size)` at the clock reading `now` (sinks.py:72-75). -/
def rateInit (size : Option Nat) (now : K) : RateAcc K := ⟨[], 0, now, size⟩

/-- Appending to a `deque(maxlen)`: the oldest elements go. -/
def append {X : Type} (size : Option Nat) (l : List X) (x : X) : List X :=
  match size with
  | none => l ++ [x]
  | some n => (l ++ [x]).drop ((l ++ [x]).length - n)

/-- `add` (sinks.py:81-87). -/
def rateAdd (a : RateAcc K) (t : K) : RateAcc K := { a with total := a.total + 1, times := append a.size a.times t }

/-- `x or default` for a number that may be `None`: 0 counts as absent. -/
def orElse (x : Option K) (default : K) : K :=
  match x with
  | none => default
  | some v => if v = 0 then default else v

/-- `get_rate` at the clock reading `now` (sinks.py:99-129); `none` is ZeroDivisionError. -/
def getRate (a : RateAcc K) (start stop : Option K) (now : K) : Option K :=
  match a.times.head?, a.times.getLast? with
  | some first, some last =>
    let stop := orElse stop now
    let start := orElse start a.creation
    let (count, start, stop) :=
      if start ≤ a.creation then (a.total, start, stop)
      else
        let idx := Bis.left (fun y => decide (start ≤ y)) a.times
        let count := a.times.length - idx
        if count = 0 then (a.times.length, first, last)
        else if idx = 0 then (count, first, stop)
        else (count, start, stop)
    if stop - start = 0 then none else some ((count : K) / (stop - start))
  | _, _ => some 0

/-! ## Routing events to accumulators -/

/-- The accumulators by logger, action name and status (sinks.py:155, 251). -/
abbrev Map3 (L A : Type) := Dict L (Dict String (Dict String A))

/-- `RateSink.on_end` (sinks.py:159-168) and `EWMASink.on_end` (sinks.py:253-263): `mk e` is the accumulator created for the
first event with its labels, `ad a e` is `acc.add(getter(event))`.  (`EWMASink` has the logger's name as `L`.) -/
def onEnd {L E A : Type} [DecidableEq L] (lg : E → L) (nm st : E → String) (mk : E → A) (ad : A → E → A)
    (m : Map3 L A) (e : E) : Map3 L A :=
  upd m (lg e) [] fun d2 => upd d2 (nm e) [] fun d3 => upd d3 (st e) (mk e) fun a => ad a e

/-- `QuantileSink.on_end` (sinks.py:341-352). -/
def onEnd2 {E A : Type} (lg nm : E → String) (mk : A) (ad : A → E → A) (m : Dict String (Dict String A)) (e : E) :
    Dict String (Dict String A) :=
  upd m (lg e) [] fun d2 => upd d2 (nm e) mk fun a => ad a e

/-! ## Totals -/

section Totals

variable {A V : Type} [AddCommMonoid V]

/-- The special key. -/
def ALL : String := "__all__"

/-- The sum of the cells of a status map, a name map, a logger map (sinks.py:196-198, 221-223). -/
def sum3 (val : A → V) (d : Dict String A) : V := ((values d).map val).sum
def sum2 (val : A → V) (d : Dict String (Dict String A)) : V := ((values d).map (sum3 val)).sum
def sum1 {L : Type} (val : A → V) (m : Map3 L A) : V := ((values m).map (sum2 val)).sum

/-- `ret[logger.name][name]` (sinks.py:191-199, 217-224). -/
def agg3 (val : A → V) (d : Dict String A) : Dict String V :=
  set (d.foldl (fun r p => set r p.1 (val p.2)) []) ALL (sum3 val d)

/-- `ret[logger.name]` (sinks.py:188-200, 214-225): numbers under `'__all__'`, dictionaries else. -/
def agg2 (val : A → V) (d : Dict String (Dict String A)) : Dict String (V ⊕ Dict String V) :=
  set (d.foldl (fun r p => set r p.1 (.inr (agg3 val p.2))) []) ALL (.inl (sum2 val d))

/-- `get_total_counts` and `get_rates` (sinks.py:170-202, 204-227), given the value of each accumulator: `ret[logger.name]` is
reset when a further logger of that name comes. -/
def agg1 {L : Type} (lname : L → String) (val : A → V) (m : Map3 L A) : Dict String (V ⊕ Dict String (V ⊕ Dict String V)) :=
  set ((m.map fun p => (lname p.1, p.2)).foldl (fun r p => set r p.1 (.inr (agg2 val p.2))) []) ALL (.inl (sum1 val m))

end Totals

/-! ## RateSink -/

/-- What a sink uses of an end event: its logger, name, status, what the getter returns for it, and the clock when it is
received. -/
structure Ev (L K : Type) where
  logger : L
  name : String
  status : String
  value : K
  now : K

/-- `RateSink.on_end` (sinks.py:159-168). -/
def rateOnEnd {L : Type} [DecidableEq L] (size : Option Nat) : Map3 L (RateAcc K) → Ev L K → Map3 L (RateAcc K) :=
  onEnd Ev.logger Ev.name Ev.status (fun e => rateInit size e.now) (fun a e => rateAdd a e.value)

/-- `RateSink.get_total_counts` (sinks.py:204-227). -/
def totalCounts {L : Type} (lname : L → String) (m : Map3 L (RateAcc K)) :
    Dict String (Nat ⊕ Dict String (Nat ⊕ Dict String Nat)) :=
  agg1 lname RateAcc.total m

/-- All accumulators. -/
def accs {L A : Type} (m : Map3 L A) : List A := (values m).flatMap fun d2 => (values d2).flatMap values

/-- `RateSink.get_rates` (sinks.py:170-202) for a start and an end (by default the sink's creation time and the clock); `none`
is the ZeroDivisionError of an accumulator. -/
def getRates {L : Type} (lname : L → String) (m : Map3 L (RateAcc K)) (start stop now : K) :
    Option (Dict String (K ⊕ Dict String (K ⊕ Dict String K))) :=
  if (accs m).all (fun a => (getRate a (some start) (some stop) now).isSome) then
    some (agg1 lname (fun a => (getRate a (some start) (some stop) now).getD 0) m)
  else none

/-! ## EWMASink.get_values -/

section Values

variable {P V : Type} [DecidableEq P] [AddCommMonoid V]

/-- `_update_add` (sinks.py:265-274). -/
def updateAdd (target : Dict P V) (other : Dict P (Option V)) : Dict P V :=
  other.foldl (fun t p => match p.2 with | none => t | some v => set t p.1 (match get? t p.1 with | some x => x + v | none => v))
    target

/-- The rates of the cells of a status map, a name map, a logger map, in the order of the loops (sinks.py:280-291). -/
def cells3 {A : Type} (rates : A → Dict P (Option V)) (d : Dict String A) : List (Dict P (Option V)) := (values d).map rates
def cells2 {A : Type} (rates : A → Dict P (Option V)) (d : Dict String (Dict String A)) : List (Dict P (Option V)) :=
  (values d).flatMap (cells3 rates)
def cells1 {A L : Type} (rates : A → Dict P (Option V)) (m : Map3 L A) : List (Dict P (Option V)) :=
  (values m).flatMap (cells2 rates)

/-- An entry: the aggregate, or the rates of an accumulator (which may be None). -/
abbrev Entry (P V : Type) := Dict P V ⊕ Dict P (Option V)

/-- `ret[logger][name]` (sinks.py:284-290); the aggregate is put in first, and is filled in place. -/
def vals3 {A : Type} (rates : A → Dict P (Option V)) (d : Dict String A) : Dict String (Entry P V) :=
  d.foldl (fun r p => set r p.1 (.inr (rates p.2))) [(ALL, .inl ((cells3 rates d).foldl updateAdd []))]

/-- `ret[logger]` (sinks.py:281-290). -/
def vals2 {A : Type} (rates : A → Dict P (Option V)) (d : Dict String (Dict String A)) :
    Dict String (Dict P V ⊕ Dict String (Entry P V)) :=
  d.foldl (fun r p => set r p.1 (.inr (vals3 rates p.2))) [(ALL, .inl ((cells2 rates d).foldl updateAdd []))]

/-- `get_values` (sinks.py:276-292), given the rates each accumulator returns. -/
def vals1 {A : Type} (rates : A → Dict P (Option V)) (m : Map3 String A) :
    Dict String (Dict P V ⊕ Dict String (Dict P V ⊕ Dict String (Entry P V))) :=
  m.foldl (fun r p => set r p.1 (.inr (vals2 rates p.2))) [(ALL, .inl ((cells1 rates m).foldl updateAdd []))]

end Values

/-! ## QuantileSink.to_dict -/

/-- A loop that makes a dictionary with the same keys, `none` if making a value raises (sinks.py:333, 335). -/
def mapDict {A R : Type} (out : A → Option R) (d : Dict String A) : Option (Dict String R) :=
  d.mapM fun q => (out q.2).map fun x => (q.1, x)

/-- `to_dict` (sinks.py:331-339); `out` makes the entry of an accumulator, `none` if that raises. -/
def toDict2 {A R : Type} (out : A → Option R) (m : Dict String (Dict String A)) : Option (Dict String (Dict String R)) :=
  mapDict (mapDict out) m

/-! ## CounterSink -/

/-- boltons' `ThresholdCounter`, which is not in the repository: the total, the tracked counts each with the bucket before the
one it was added in, the size of a bucket and the current bucket. -/
structure TCounter where
  total : Nat
  counts : Dict String (Nat × Nat)
  bucketSize : Nat
  bucket : Nat

/-- `ThresholdCounter(threshold)`, with `bucketSize = int(1 / threshold)`. -/
def tcInit (bucketSize : Nat) : TCounter := ⟨0, [], bucketSize, 1⟩

/-- `ThresholdCounter.add`: at the end of a bucket the rare keys are forgotten. -/
def tcAdd (c : TCounter) (key : String) : TCounter :=
  let total := c.total + 1
  let counts := upd c.counts key (0, c.bucket - 1) fun p => (p.1 + 1, p.2)
  if total % c.bucketSize = 0 then
    { c with total := total, counts := counts.filter (fun p => decide (p.2.1 + p.2.2 > c.bucket)), bucket := c.bucket + 1 }
  else { c with total := total, counts := counts }

/-- `get_common_count`. -/
def common (c : TCounter) : Nat := ((values c.counts).map Prod.fst).sum

/-- `get_uncommon_count`. -/
def uncommon (c : TCounter) : Int := (c.total : Int) - common c

/-- `CounterSink.on_end` (sinks.py:374-384): `lg` is the logger, `key` the getter. -/
def counterOnEnd {L E : Type} [DecidableEq L] (bucketSize : Nat) (lg : E → L) (key : E → String) (m : Dict L TCounter) (e : E) :
    Dict L TCounter :=
  upd m (lg e) (tcInit bucketSize) fun c => tcAdd c (key e)

/-- The other special key. -/
def MISSING : String := "__missing__"

/-- `ret[logger.name]` (sinks.py:389-393). -/
def counterDict (c : TCounter) : Dict String Int :=
  let cur : Dict String Int := c.counts.map fun p => (p.1, (p.2.1 : Int))
  let cur := if uncommon c = 0 then cur else set cur MISSING (uncommon c)
  set cur ALL (values cur).sum

/-- `CounterSink.to_dict` (sinks.py:386-394). -/
def counterToDict {L : Type} (lname : L → String) (m : Dict L TCounter) : Dict String (Dict String Int) :=
  (m.map fun p => (lname p.1, p.2)).foldl (fun r p => set r p.1 (counterDict p.2)) []

end Verif.Sinks
