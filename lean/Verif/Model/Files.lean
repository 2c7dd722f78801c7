import Mathlib.Data.List.Basic
/-!
# `FileEmitter` on one file, by any number of emitters (lithoxyl/emitters.py:132-151)

Bytes are an arbitrary type `B` with a byte `zero` that fills holes.  Writes and flushes succeed here (what happens when they
fail is in `Emitter`), so that every `emit_entry` puts its bytes into the file at once (emitters.py:94-98).  The file object
is that of `io.open`: opened for appending, every write goes to the end of the file; opened for writing, it goes to the
position of that file object, which starts at 0, whatever other file objects do.
-/
namespace Verif.Files

variable {B : Type}

/-- A `FileEmitter`: whether its stream is open (emitters.py:142-149), opened for appending or at a position
(emitters.py:137-138), and its separator, already encoded (emitters.py:84-88). -/
structure Emitter (B : Type) where
  opened : Bool
  append : Bool
  pos : Nat
  sep : List B
deriving DecidableEq, Repr

/-- The file, if it exists, and the emitters made so far. -/
structure St (B : Type) where
  file : Option (List B)
  emitters : List (Emitter B)
deriving DecidableEq, Repr

/-- Bytes written at a position; a hole is filled with `zero`. -/
def writeAt (zero : B) (file : List B) (pos : Nat) (data : List B) : List B :=
  file.take pos ++ List.replicate (pos - file.length) zero ++ data ++ file.drop (pos + data.length)

/-- `FileEmitter(filepath, overwrite=..., encoding=..., errors=..., sep=...)` (emitters.py:136-139): the file is opened first
(created if it does not exist, emptied if `overwrite`), then `StreamEmitter.__init__` checks the settings (`valid`:
emitters.py:62-92).  The flag tells whether it raises.  Opening itself succeeds. -/
def make (s : St B) (overwrite valid : Bool) (sep : List B) : St B × Bool :=
  let s := { s with file := some (if overwrite then [] else s.file.getD []) }
  if valid then ({ s with emitters := s.emitters ++ [⟨true, !overwrite, 0, sep⟩] }, false) else (s, true)

/-- `emit_entry` (emitters.py:94-115) of emitter `i`; on a closed one, or on a file that somebody removed, nothing is written
to the file and the exception, if any, is noted. -/
def emit (zero : B) (s : St B) (i : Nat) (entry : List B) : St B :=
  match s.emitters[i]?, s.file with
  | some e, some file =>
    if e.opened then
      let data := if e.sep = [] then entry else entry ++ e.sep
      if e.append then { s with file := some (file ++ data) }
      else { file := some (writeAt zero file e.pos data), emitters := s.emitters.set i { e with pos := e.pos + data.length } }
    else s
  | _, _ => s

/-- `close` (emitters.py:142-151). -/
def close (s : St B) (i : Nat) : St B :=
  match s.emitters[i]? with
  | some e => { s with emitters := s.emitters.set i { e with opened := false } }
  | none => s

/-- What can be done. -/
inductive Op (B : Type)
  | make (overwrite valid : Bool) (sep : List B)
  | emit (i : Nat) (entry : List B)
  | close (i : Nat)
deriving DecidableEq, Repr

def step (zero : B) (s : St B) : Op B → St B
  | .make o v sep => (make s o v sep).1
  | .emit i entry => emit zero s i entry
  | .close i => close s i

def run (zero : B) (s : St B) (ops : List (Op B)) : St B := ops.foldl (step zero) s

end Verif.Files
