import Mathlib.Data.List.Basic
/-!
# `check_encoding_settings` (lithoxyl/utils.py:19-37) and its use by emitters (emitters.py:62-67, 95)

What encodings and error handlers exist is arbitrary.
-/
namespace Verif.Enc

/-- What the interpreter knows: which encodings exist and what characters each can encode; which error handlers exist and
whether one raises (like `strict`) or finds a replacement. -/
structure Codecs where
  encoding : String → Option (Nat → Bool)
  handler : String → Option Bool

/-- How `text.encode(encoding, errors)` ends. -/
inductive Encode | ok | lookupError | unicodeError
deriving DecidableEq, Repr

/-- `text.encode(encoding, errors)`: the error handler is looked up when a character cannot be encoded. -/
def encode (k : Codecs) (enc err : String) (text : List Nat) : Encode :=
  match k.encoding enc with
  | none => .lookupError
  | some can =>
    if text.all can then .ok
    else
      match k.handler err with
      | none => .lookupError
      | some true => .unicodeError
      | some false => .ok

/-- How `check_encoding_settings` ends: returns None, True or False, or raises one of its two errors. -/
inductive Check | none | true | false | encodingError | errorsError
deriving DecidableEq, Repr

/-- `check_encoding_settings(encoding, errors, reraise)` (utils.py:19-37).  The second test encodes U+00DD as ASCII; that
ASCII cannot encode it is part of the hypothesis `Codecs.Ascii` of the specification. -/
def check (k : Codecs) (enc err : String) (reraise : Bool) : Check :=
  match encode k enc "strict" [] with
  | .lookupError => if reraise then .encodingError else .false
  | _ =>
    match encode k "ascii" err [0xdd] with
    | .lookupError => if reraise then .errorsError else .false
    | .unicodeError => .true
    | .ok => .none

/-- `StreamEmitter.__init__` as far as the settings go (emitters.py:62-67): `none` if it raises. -/
def makeEmitter (k : Codecs) (enc err : String) : Option (String × String) :=
  match check k enc err true with
  | .encodingError | .errorsError => Option.none
  | _ => some (enc, err)

/-- `emit_entry`'s `entry.encode(self.encoding, self.errors)` (emitters.py:95). -/
def emitEncode (k : Codecs) (e : String × String) (text : List Nat) : Encode := encode k e.1 e.2 text

end Verif.Enc
