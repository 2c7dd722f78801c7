import Verif.Model.Emitter
import Mathlib.Logic.Function.Basic
/-!
# Threads sharing a stream emitter (lithoxyl/emitters.py:94-151)

The interleaving model of `emit_entry`, `flush` and `close` of one emitter, whose stream is a buffered file opened for appending.
A schedule is any list of steps of any number of threads.  `self.stream` is an attribute that `close` and the reopening of a stale
stream replace: a thread that has looked it up goes on with the stream it found.  `write`, `flush` and `close` of a stream are
atomic (buffered files have a lock).  A stream that nothing refers to any more is closed at once (CPython counts references),
which writes out its buffer.

Simplified: a write that raises has taken nothing over (C42 has those that have), and notes do not raise; in `close` the test of
`self.stream` and its use are one step.
-/
namespace Verif.EmitConc

open Verif.Emit (FlushOut)

variable {B : Type}

abbrev Tid := Nat

/-- How a `write` goes: the data is taken over, and `through` bytes or all leave the buffer for the file; or it raises. -/
inductive WriteOut
  | ok (through : Nat)
  | all
  | err (stale : Bool)
deriving DecidableEq, Repr

/-- Where a thread is. -/
inductive Pc (B : Type)
  /-- not using the emitter -/
  | idle
  /-- at `self.stream.write(...)` (emitters.py:97), or at the retry (line 113) -/
  | load (data : List B) (retry : Bool)
  /-- the same, `self.stream` looked up -/
  | write (h : Option Nat) (data : List B) (retry : Bool)
  /-- at `getattr(self.stream, 'flush', None)` (line 120); `closing` if called by `close` -/
  | loadFlush (closing : Bool)
  /-- at `stream_flush()` (line 124) -/
  | flush (h : Option Nat) (closing : Bool)
  /-- at `open(name, 'ab')` (line 110) -/
  | opening (data : List B)
  /-- about to store the new stream (line 110) -/
  | assign (h : Nat) (data : List B)
  /-- at `if self.stream` (line 147) -/
  | loadClose
  /-- at `self.stream.close()` (line 148) -/
  | close (h : Nat)
  /-- at `self.stream = None` (line 149) -/
  | setNone
deriving DecidableEq

/-- The emitter, the streams made so far (numbered) and the threads.  `reopen`: the option is set and the stream's name is usable
(emitters.py:101-106).  `called` and `wrote` (history only): the data of the calls of `emit_entry`, and of the writes that took it
over, with their thread. -/
structure Sys (B : Type) where
  sep : List B
  reopen : Bool
  threads : Nat
  file : List B
  buf : Nat → List B := fun _ => []
  closed : Nat → Bool := fun _ => false
  next : Nat := 1
  cur : Option Nat := some 0
  pc : Tid → Pc B := fun _ => .idle
  called : List (Tid × List B) := []
  wrote : List (Tid × List B) := []

/-- What a thread does next. -/
inductive Act (B : Type)
  /-- call `emit_entry`, with the encoded entry -/
  | emit (entry : List B)
  /-- call `flush()` -/
  | flush
  /-- call `close()` -/
  | close
  /-- go on; what the operating system does, as far as it is asked: `f` is also how a stream is closed -/
  | go (w : WriteOut) (f : FlushOut) (openOk : Bool)

/-- Whether a thread refers to a stream. -/
def Pc.holds : Pc B → Nat → Bool
  | .write (some h) _ _, k | .flush (some h) _, k | .assign h _, k | .close h, k => h == k
  | _, _ => false

/-- Thread `t` goes on at `p`. -/
def Sys.at (s : Sys B) (t : Tid) (p : Pc B) : Sys B := { s with pc := Function.update s.pc t p }

/-- `n` bytes (all if none) leave the buffer of a stream. -/
def Sys.out (s : Sys B) (h : Nat) (n : Option Nat) : Sys B :=
  match n with
  | none => { s with file := s.file ++ s.buf h, buf := Function.update s.buf h [] }
  | some n => { s with file := s.file ++ (s.buf h).take n, buf := Function.update s.buf h ((s.buf h).drop n) }

/-- How many bytes a flush gets to the file. -/
def through : FlushOut → Option Nat
  | .ok => none
  | .err n => some n

/-- Closing a stream: what its flush does not get to the file is lost. -/
def Sys.shut (s : Sys B) (h : Nat) (f : FlushOut) : Sys B :=
  let s := s.out h (through f)
  { s with buf := Function.update s.buf h [], closed := Function.update s.closed h true }

/-- Something that refers to stream `h` does no longer: if it was the last, the stream is closed. -/
def Sys.release (s : Sys B) (h : Option Nat) (f : FlushOut) : Sys B :=
  match h with
  | none => s
  | some h =>
    if s.cur = some h ∨ (List.range s.threads).any (fun t => (s.pc t).holds h) = true ∨ s.closed h = true then s
    else s.shut h f

/-- A write raised (emitters.py:99-115): at the retry the exception goes to the caller. -/
def Sys.failed (s : Sys B) (t : Tid) (data : List B) (retry stale : Bool) : Sys B :=
  if retry then s.at t .idle
  else if stale ∧ s.reopen then s.at t (.opening data)
  else s.at t .idle

/-- One step of thread `t`; a step that it cannot make changes nothing. -/
def step (s : Sys B) (t : Tid) (a : Act B) : Sys B :=
  if s.threads ≤ t then s
  else
    match a, s.pc t with
    | .emit entry, .idle =>
      let data := if s.sep = [] then entry else entry ++ s.sep
      { s.at t (.load data false) with called := s.called ++ [(t, data)] }
    | .flush, .idle => s.at t (.loadFlush false)
    | .close, .idle => if s.cur = none then s else s.at t (.loadFlush true)
    | .go w f o, p =>
      match p with
      | .idle => s
      | .load data retry => s.at t (.write s.cur data retry)
      | .write none data retry => s.failed t data retry false
      | .write (some h) data retry =>
        if s.closed h then s.failed t data retry false
        else
          match w with
          | .err stale => (s.failed t data retry stale).release (some h) f
          | .ok n =>
            (({ s with buf := Function.update s.buf h (s.buf h ++ data), wrote := s.wrote ++ [(t, data)] }.out h (some n)).at t
              (.loadFlush false)).release (some h) f
          | .all =>
            (({ s with buf := Function.update s.buf h (s.buf h ++ data), wrote := s.wrote ++ [(t, data)] }.out h none).at t
              (.loadFlush false)).release (some h) f
      | .loadFlush c => s.at t (.flush s.cur c)
      | .flush h c =>
        let s := match h with | some h => if s.closed h then s else s.out h (through f) | none => s
        (s.at t (if c then .loadClose else .idle)).release h f
      | .opening data =>
        if o then { s.at t (.assign s.next data) with next := s.next + 1 } else s.at t .idle
      | .assign h data => ({ s.at t (.load data true) with cur := some h }).release s.cur f
      | .loadClose => match s.cur with | none => s.at t .idle | some h => s.at t (.close h)
      | .close h =>
        if s.closed h then s.at t .setNone
        else (s.shut h f).at t (match f with | .ok => .setNone | .err _ => .idle)
      | .setNone => ({ s.at t .idle with cur := none }).release s.cur f
    | _, _ => s

def run (s : Sys B) (sched : List (Tid × Act B)) : Sys B := sched.foldl (fun s x => step s x.1 x.2) s

/-- An emitter made for a file with some contents (emitters.py:136-140). -/
def init (sep : List B) (reopen : Bool) (threads : Nat) (old : List B) : Sys B :=
  { sep := sep, reopen := reopen, threads := threads, file := old }

end Verif.EmitConc
