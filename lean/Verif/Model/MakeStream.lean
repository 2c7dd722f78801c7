import Mathlib.Data.List.Basic
/-!
# `StreamEmitter.__init__` (lithoxyl/emitters.py:49-92): which streams it takes, and what then becomes of entries

Bytes are an arbitrary type `B`.  The stream is any Python object, seen through what the constructor looks at and through
what its `write` does with bytes.
-/
namespace Verif.Mk

/-- `stream.mode`: missing (or None), a string, or a number, as `gzip.GzipFile` has it. -/
inductive Mode
  | absent
  | str (s : List Char)
  | num (n : Nat)
deriving DecidableEq, Repr

/-- What `StreamEmitter` can see of an object, and what its `write` does: `takesBytes` says that bytes are taken and kept,
otherwise writing bytes raises (a text stream raises TypeError, a stream opened for reading `UnsupportedOperation`).
`listed` is `isinstance(stream, (io.BytesIO, io.BufferedWriter, io.RawIOBase))` (line 20); `hasWrite` says that there is a
callable `write`; `encoding` is the attribute, `none` when missing, None or empty. -/
structure Obj where
  encoding : Option String
  listed : Bool
  hasWrite : Bool
  mode : Mode
  takesBytes : Bool
deriving DecidableEq, Repr

/-- `sys.stdout` or `sys.stderr` as it is when the emitter is made, with its `buffer` if it has one. -/
structure SysStream where
  self : Obj
  buffer : Option Obj

/-- The `stream` argument: one of the two strings, or an object. -/
inductive Arg
  | stdout
  | stderr
  | obj (o : Obj)

/-- The `sep` option: missing or None, a string, or bytes. -/
inductive Sep (B : Type)
  | none
  | str (s : String)
  | bytes (b : List B)

/-- The keyword arguments: `errors`, `sep` and `reopen_stale` are taken out of `kwargs`; what is left over is not looked
at. -/
structure Kwargs (B : Type) where
  errors : Option String := none
  sep : Sep B := .none
  reopenStale : Option Bool := none
  others : List String := []

/-- What the interpreter knows: the encodings and error handlers there are, what text encodes to (`none`: it raises), and
`os.linesep`. -/
structure Sys (B : Type) where
  known : String → Bool
  handler : String → Bool
  encode : (encoding errors text : String) → Option (List B)
  linesep : String
  stdout : SysStream
  stderr : SysStream

/-- What `StreamEmitter(...)` raises: the two errors of `check_encoding_settings` (utils.py:19-37), the TypeError and the
ValueError of lines 73-80, the TypeError of `'b' not in _mode` on a number, and the UnicodeEncodeError of line 88. -/
inductive Refusal | encoding | errors | noWrite | textMode | modeType | sep
deriving DecidableEq, Repr

/-- A `StreamEmitter` and what its stream has taken. -/
structure Em (B : Type) where
  stream : Obj
  encoding : String
  errors : String
  sep : List B
  reopenStale : Bool
  out : List B

/-- `_get_sys_stream` (emitters.py:49-53). -/
def sysStream (s : SysStream) : Obj := s.buffer.getD s.self

/-- Lines 69-70. -/
def Arg.resolve {B : Type} (y : Sys B) : Arg → Obj
  | .stdout => sysStream y.stdout
  | .stderr => sysStream y.stderr
  | .obj o => o

/-- `getattr(stream, 'encoding', None)` on the argument as it was passed (line 64): the strings have none. -/
def Arg.encoding : Arg → Option String
  | .obj o => o.encoding
  | _ => none

/-- Lines 63-64. -/
def pickEncoding (arg : Arg) (encoding : Option String) : String :=
  match encoding with
  | none => arg.encoding.getD "UTF-8"
  | some e => e

/-- `_mode and 'b' not in _mode` (lines 77-80); `none` means that nothing is wrong. -/
def badMode : Mode → Option Refusal
  | .absent => none
  | .str s => if s = [] then none else if 'b' ∈ s then none else some .textMode
  | .num n => if n = 0 then none else some .modeType

/-- `self.sep` (lines 84-88). -/
def makeSep {B : Type} (y : Sys B) (encoding : String) : Sep B → Option (List B)
  | .none => y.encode encoding "strict" y.linesep
  | .str s => y.encode encoding "strict" s
  | .bytes b => some b

/-- `StreamEmitter.__init__` (emitters.py:62-92).  Simplification: the checks of `check_encoding_settings` are taken to ask
exactly whether encoding and handler exist; their code is modelled in `Encoding`. -/
def make {B : Type} (y : Sys B) (arg : Arg) (encoding : Option String) (kw : Kwargs B) : Except Refusal (Em B) :=
  let encoding := pickEncoding arg encoding
  let errors := kw.errors.getD "backslashreplace"
  if !y.known encoding then .error .encoding
  else if !y.handler errors then .error .errors
  else
    let stream := arg.resolve y
    if !stream.listed && !stream.hasWrite then .error .noWrite
    else
      match badMode stream.mode with
      | some r => .error r
      | none =>
        match makeSep y encoding kw.sep with
        | none => .error .sep
        | some sep => .ok ⟨stream, encoding, errors, sep, kw.reopenStale.getD true, []⟩

/-- `emit_entry` (emitters.py:94-115) as far as the kind of stream goes (its other failures are in `Emitter`): when `write`
will not take bytes the exception is noted and dropped (it is neither an IOError with errno ESTALE).  The flag tells
whether the call raises. -/
def emit {B : Type} (y : Sys B) (e : Em B) (entry : String) : Em B × Bool :=
  match y.encode e.encoding e.errors entry with
  | none => (e, true)
  | some b => if e.stream.takesBytes then ({ e with out := e.out ++ (if e.sep = [] then b else b ++ e.sep) }, false) else (e, false)

/-- A history of entries, and which of them raised. -/
def emits {B : Type} (y : Sys B) : Em B → List String → Em B × List Bool
  | e, [] => (e, [])
  | e, t :: ts =>
    let (e, r) := emit y e t
    let (e, rs) := emits y e ts
    (e, r :: rs)

end Verif.Mk
