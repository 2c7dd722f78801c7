import Verif.Model.Sinks
import Verif.Model.Emitter
import Verif.Model.Decimal
/-!
# What `repr` shows: `AggregateSink`, `AggregateEmitter`, `RateAccumulator`, `RateSink`, `Logger`

Text is a list of code points.  `cn` is the name of the class.  Numbers are exact, and formatted as in `Verif.Dec`.
-/
namespace Verif.Reprs

open Verif.Dec Verif.Sinks Verif.Emit Verif.Dct

/-- The code points of a text. -/
def txt (s : String) : List Nat := s.toList.map Char.toNat

/-- `%r` of a limit. -/
def limitText : Option Nat → List Nat
  | none => txt "None"
  | some n => dec n

/-- `AggregateEmitter.__repr__` (emitters.py:41-45). -/
def aggEmitter {E S : Type} (cn : List Nat) (limit : Option Nat) (items : List (E × S)) : List Nat :=
  txt "<" ++ cn ++ txt " limit=" ++ limitText limit ++ txt " entry_count=" ++ dec items.length ++ txt ">"

/-- `AggregateSink.__repr__` (sinks.py:35-41). -/
def aggSink {E : Type} (cn : List Nat) (limit : Option Nat) (s : AggSink E) : List Nat :=
  txt "<" ++ cn ++ txt " limit=" ++ limitText limit ++ txt " begins=" ++ dec s.begins.length ++ txt " ends=" ++
    dec s.ends.length ++ txt " warns=" ++ dec s.warns.length ++ txt " comments=" ++ dec s.comments.length ++ txt ">"

/-- What evaluating a `repr` does: it returns a text, raises an `Exception`, or raises something else. -/
inductive Shown
  | text (s : List Nat)
  | exc
  | base
deriving DecidableEq

variable {K : Type} [Field K] [LinearOrder K] [IsStrictOrderedRing K] [FloorRing K]

/-- `RateAccumulator.__repr__` (sinks.py:131-134) at the clock reading `now`. -/
def rateAcc (cn : List Nat) (a : RateAcc K) (now : K) : Shown :=
  match getRate a none none now with
  | some r => .text (txt "<" ++ cn ++ txt " rate=" ++ fixed 4 r ++ txt " count=" ++ dec a.total ++ txt ">")
  | none => .exc

/-- `RateSink.__repr__` (sinks.py:229-234) of a sink made at `creation` (sinks.py:157), at the clock reading `now`; `get_rates()`
takes the window from the creation to now (sinks.py:180-181).  The tables always have the key. -/
def rateSink {L : Type} (lname : L → String) (cn : List Nat) (creation : K) (m : Map3 L (RateAcc K)) (now : K) : Shown :=
  match getRates lname m creation now now with
  | some t =>
    match get? t ALL, get? (totalCounts lname m) ALL with
    | some (.inl r), some (.inl n) =>
      .text (txt "<" ++ cn ++ txt " total_rate=" ++ fixed 4 r ++ txt " total_count=" ++ dec n ++ txt ">")
    | _, _ => .exc
  | none => .exc

/-- `%r` of a list of sinks: the first one that raises ends it. -/
def sinksText : List Shown → Shown
  | [] => .text []
  | .text s :: l =>
    match sinksText l with
    | .text t => .text (s ++ (if l.isEmpty then [] else txt ", ") ++ t)
    | x => x
  | x :: _ => x

/-- `Logger.__repr__` (logger.py:305-310): `name` is the `repr` of the name, `sinks` what evaluating the `repr` of each sink
does; `plain` is the text of `object.__repr__`. -/
def logger (cn name plain : List Nat) (sinks : List Shown) : Shown :=
  match sinksText sinks with
  | .text t => .text (txt "<" ++ cn ++ txt " name=" ++ name ++ txt " sinks=[" ++ t ++ txt "]>")
  | .exc => .text plain
  | .base => .base

end Verif.Reprs
