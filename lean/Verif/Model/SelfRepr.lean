import Verif.Model.Reprs
/-!
# Showing a logger whose sinks show the logger

A sink of an application may hold its logger and show it in its own `repr`.  `Logger.sinks` makes a new list whenever it is read
(logger.py:138-143), so that Python's guard against lists that contain themselves does not apply, and the calls of `__repr__` go on
until the recursion limit is reached.  The number of frames left below the limit is an argument; every `__repr__` written in Python takes
one.  RecursionError is an Exception.
-/
namespace Verif.SelfRepr

open Reprs (txt Shown logger)

/-- A sink by its `repr`: a text, or a text around the `repr` of the logger. -/
inductive Sink
  | other (t : List Nat)
  | holder (pre post : List Nat)

/-- What showing a sink does when showing the logger does `l`. -/
def Sink.shown (l : Shown) : Sink → Shown
  | .other t => .text t
  | .holder pre post =>
    match l with
    | .text t => .text (pre ++ t ++ post)
    | x => x

/-- What showing the logger and what showing each of its sinks does with so many frames left (logger.py:305-310). -/
def both (cn name plain : List Nat) (sinks : List Sink) : Nat → Shown × List Shown
  | 0 => (.exc, sinks.map fun _ => .exc)
  | n + 1 =>
    let b := both cn name plain sinks n
    (logger cn name plain b.2, sinks.map (Sink.shown b.1))

/-- `repr(logger)` with `n` frames left. -/
def repr (cn name plain : List Nat) (sinks : List Sink) (n : Nat) : Shown := (both cn name plain sinks n).1

end Verif.SelfRepr
