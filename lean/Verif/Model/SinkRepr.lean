import Verif.Model.PyRepr
/-!
# What `repr` shows of sensible sinks, message formatters, stream emitters and `EWMASink`

As in `Reprs`, what evaluating the `repr` of a part does (a filter, a formatter, a stream) is a parameter: it returns a text or raises.
-/
namespace Verif.SinkRepr

open Reprs (txt Shown sinksText)
open PyRepr (reprText)
open Verif.Sinks Verif.Dct

/-- The `%` operator shows its arguments from left to right and is left by the first exception. -/
def Then (x : Shown) (f : List Nat → Shown) : Shown :=
  match x with
  | .text s => f s
  | .exc => .exc
  | .base => .base

/-- `SensibleMessageFormatter.__repr__` (sensible.py:267-268). -/
def formatter (printable : Nat → Bool) (cn template : List Nat) : List Nat :=
  cn ++ txt "(" ++ reprText printable template ++ txt ")"

/-- `StreamEmitter.__repr__` (emitters.py:128-129); `FileEmitter` has no other. -/
def streamEmitter (cn : List Nat) (stream : Shown) : Shown :=
  Then stream fun s => .text (txt "<" ++ cn ++ txt " stream=" ++ s ++ txt ">")

/-- `SensibleSink.__repr__` (sensible.py:84-87). -/
def sensibleSink (cn : List Nat) (filters : List Shown) (formatter emitter : Shown) : Shown :=
  Then (sinksText filters) fun f => Then formatter fun g => Then emitter fun e =>
    .text (txt "<" ++ cn ++ txt " filters=[" ++ f ++ txt "] formatter=" ++ g ++ txt " emitter=" ++ e ++ txt ">")

/-- `%r` of a dictionary, given the texts of its keys and values. -/
def dictText (items : List (List Nat × List Nat)) : List Nat :=
  txt "{" ++ (txt ", ").intercalate (items.map fun p => p.1 ++ txt ": " ++ p.2) ++ txt "}"

/-- `EWMASink.__repr__` (sinks.py:294-297), given the rates each accumulator returns, the texts of periods and rates and the text of the
table of one logger, which a logger called `__all__` puts in the place of the aggregate.  Without the key it is KeyError. -/
def ewmaSink {A P V : Type} [DecidableEq P] [AddCommMonoid V] (cn : List Nat) (period : P → List Nat) (rate : V → List Nat)
    (table : Dct.Dict String (Dct.Dict P V ⊕ Dct.Dict String (Entry P V)) → List Nat) (rates : A → Dct.Dict P (Option V)) (m : Map3 String A) : Shown :=
  match get? (vals1 rates m) ALL with
  | some (.inl d) => .text (txt "<" ++ cn ++ txt " total_values=" ++ dictText (d.map fun p => (period p.1, rate p.2)) ++ txt ">")
  | some (.inr t) => .text (txt "<" ++ cn ++ txt " total_values=" ++ table t ++ txt ">")
  | none => .exc

end Verif.SinkRepr
