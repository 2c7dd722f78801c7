import Verif.Model.Level
/-!
# `lithoxyl/emitters.py`, `lithoxyl/_syslog_emitter.py`, `AggregateSink`

Bytes are an arbitrary type `B`; an entry is given as its encoding, or `none` when encoding it raises.
-/
namespace Verif.Emit

/-! ## Deques -/

/-- `deque(maxlen=limit).append` (emitters.py:25, 37; sinks.py:18-33): drops from the left beyond the limit. -/
def push {X : Type} (limit : Option Nat) (items : List X) (x : X) : List X :=
  match limit with
  | none => items ++ [x]
  | some n => (items ++ [x]).drop ((items ++ [x]).length - n)

/-- What can be done to an `AggregateEmitter`. -/
inductive AggOp (E S : Type)
  | emit (event : E) (entry : S)
  | clear

/-- `AggregateEmitter.emit_entry` and `clear` (emitters.py:33-39). -/
def aggStep {E S : Type} (limit : Option Nat) (items : List (E × S)) : AggOp E S → List (E × S)
  | .emit event entry => push limit items (event, entry)
  | .clear => []

/-- `AggregateEmitter` after a history, from `__init__` on (emitters.py:23-25). -/
def aggRun {E S : Type} (limit : Option Nat) (ops : List (AggOp E S)) : List (E × S) :=
  ops.foldl (aggStep limit) []

/-- `AggregateEmitter.get_entries` (emitters.py:27-28). -/
def getEntries {E S : Type} (items : List (E × S)) : List S := items.map (·.2)

/-- The four hooks of a sink. -/
inductive Hook | begin | warn | end' | comment
deriving DecidableEq, Repr

/-- `AggregateSink`'s four deques (sinks.py:16-21). -/
structure AggSink (E : Type) where
  begins : List E := []
  warns : List E := []
  ends : List E := []
  comments : List E := []

/-- `AggregateSink.on_begin/on_warn/on_end/on_comment` (sinks.py:23-33). -/
def AggSink.on {E : Type} (limit : Option Nat) (s : AggSink E) : Hook × E → AggSink E
  | (.begin, e) => { s with begins := push limit s.begins e }
  | (.warn, e) => { s with warns := push limit s.warns e }
  | (.end', e) => { s with ends := push limit s.ends e }
  | (.comment, e) => { s with comments := push limit s.comments e }

/-- The deque behind a hook. -/
def AggSink.deque {E : Type} (s : AggSink E) : Hook → List E
  | .begin => s.begins | .warn => s.warns | .end' => s.ends | .comment => s.comments

/-- An `AggregateSink` after a history. -/
def AggSink.run {E : Type} (limit : Option Nat) (evs : List (Hook × E)) : AggSink E :=
  evs.foldl (AggSink.on limit) {}

/-! ## Streams -/

/-- What an exception from `write` is to `emit_entry`: exactly an `IOError` with errno ESTALE, or something else
(emitters.py:101-104). -/
inductive Err | stale | other
deriving DecidableEq, Repr

/-- How one `stream.write(data)` goes.  `through` bytes leave the stream's buffer for the file; when it raises, the first
`kept` bytes of the data had been taken over by the stream.  A raw stream (`io.RawIOBase`, one of the accepted types,
emitters.py:20) may also take over only the first `kept` bytes and return; nobody looks at what `write` returns
(emitters.py:97, 113). -/
inductive WriteOut
  | ok (through : Nat)
  | short (kept through : Nat)
  | err (kept through : Nat) (e : Err)
deriving DecidableEq, Repr

/-- How one `stream.flush()` goes: everything reaches the file, or only `through` bytes do and it raises. -/
inductive FlushOut
  | ok
  | err (through : Nat)
deriving DecidableEq, Repr

/-- A `StreamEmitter` (emitters.py:62-92) with its stream: `opened` is false after `close` set the stream to None, `buf` is
the stream's buffer, `file` the contents of what is behind it.  `canReopen` says whether the stream's name is usable
(emitters.py:105-106) and `reopenStale` is the option (line 92).  Streams without a `flush` method are those whose
`write` passes everything through; for them `flush` has nothing to do. -/
structure Em (B : Type) where
  sep : List B
  reopenStale : Bool
  canReopen : Bool
  opened : Bool
  buf : List B
  file : List B

/-- `self.stream.write(data)`, returning the exception if any.  On a closed emitter this is `None.write`, an
AttributeError. -/
def write {B : Type} (e : Em B) (data : List B) (w : WriteOut) : Em B × Option Err :=
  if e.opened then
    match w with
    | .ok n => ({ e with file := e.file ++ (e.buf ++ data).take n, buf := (e.buf ++ data).drop n }, none)
    | .short k n =>
      ({ e with file := e.file ++ (e.buf ++ data.take k).take n, buf := (e.buf ++ data.take k).drop n }, none)
    | .err k n x =>
      ({ e with file := e.file ++ (e.buf ++ data.take k).take n, buf := (e.buf ++ data.take k).drop n }, some x)
  else (e, some .other)

/-- `StreamEmitter.flush` (emitters.py:119-126): never raises (internal notes are assumed not to raise). -/
def flush {B : Type} (e : Em B) (f : FlushOut) : Em B :=
  if e.opened then
    match f with
    | .ok => { e with file := e.file ++ e.buf, buf := [] }
    | .err n => { e with file := e.file ++ e.buf.take n, buf := e.buf.drop n }
  else e

/-- `open(name, 'ab')` (emitters.py:110): a new handle to the same file.  The old handle's buffer is lost. -/
def reopen {B : Type} (e : Em B) : Em B := { e with opened := true, buf := [] }

/-- What the operating system does during one `emit_entry`. -/
structure Fault where
  write : WriteOut
  flush : FlushOut := .ok
  openOk : Bool := true
  write2 : WriteOut := .ok 0
  flush2 : FlushOut := .ok
deriving DecidableEq, Repr

/-- `StreamEmitter.emit_entry` (emitters.py:94-115).  The second component tells whether it raises.  `entry` is `none`
when `encode` raises (line 95, outside the `try`). -/
def emitEntry {B : Type} (e : Em B) (entry : Option (List B)) (f : Fault) : Em B × Bool :=
  match entry with
  | none => (e, true)
  | some entry =>
    let data := if e.sep = [] then entry else entry ++ e.sep
    match write e data f.write with
    | (e, none) => (flush e f.flush, false)
    | (e, some x) =>
      if x = .stale ∧ e.reopenStale ∧ e.canReopen then
        if f.openOk then
          match write (reopen e) data f.write2 with
          | (e, none) => (flush e f.flush2, false)
          | (e, some _) => (e, true)
        else (e, true)
      else (e, false)

/-- `FileEmitter.close` (emitters.py:142-151): `closeOk` tells whether `stream.close()` succeeds; it flushes first. -/
def close {B : Type} (e : Em B) (f : FlushOut) (closeOk : Bool) : Em B :=
  if e.opened then
    let e := flush e f
    if closeOk then { e with file := e.file ++ e.buf, buf := [], opened := false } else e
  else e

/-- What can be done to a stream emitter. -/
inductive Op (B : Type)
  | emit (entry : Option (List B)) (f : Fault)
  | flush (f : FlushOut)
  | close (f : FlushOut) (closeOk : Bool)

/-- One operation; the flag tells whether it raises into the application. -/
def step {B : Type} (e : Em B) : Op B → Em B × Bool
  | .emit entry f => emitEntry e entry f
  | .flush f => (flush e f, false)
  | .close f ok => (close e f ok, false)

/-- A history of operations. -/
def run {B : Type} (e : Em B) (ops : List (Op B)) : Em B := ops.foldl (fun e op => (step e op).1) e

/-! ## Syslog -/

/-- The `syslog` priorities used (lower is more urgent): ERR 3, WARNING 4, NOTICE 5, INFO 6, DEBUG 7. -/
def LOG_ERR := 3
def LOG_WARNING := 4
def LOG_NOTICE := 5
def LOG_INFO := 6
def LOG_DEBUG := 7

/-- `SyslogEmitter.default_priority_map` (_syslog_emitter.py:8-22). -/
def defaultPriorityMap : List (Lvl.Level × List (String × Nat)) :=
  [(Lvl.DEBUG, [("begin", LOG_DEBUG), ("success", LOG_DEBUG), ("failure", LOG_INFO), ("warn", LOG_INFO),
      ("exception", LOG_NOTICE)]),
   (Lvl.INFO, [("begin", LOG_INFO), ("success", LOG_INFO), ("failure", LOG_NOTICE), ("warn", LOG_NOTICE),
      ("exception", LOG_WARNING)]),
   (Lvl.CRITICAL, [("begin", LOG_NOTICE), ("success", LOG_NOTICE), ("failure", LOG_WARNING), ("warn", LOG_WARNING),
      ("exception", LOG_ERR)])]

/-- `_get_syslog_priority` (_syslog_emitter.py:36-45): `none` is a KeyError.  `level` is what `get_level` returned; the
dictionary compares hashes, then keys. -/
def priority (h : String → Nat) (pm : List (Lvl.Level × List (String × Nat))) (eventName : String) (level : Lvl.Level)
    (status : String) : Option Nat :=
  let status := if eventName = "warn" then "warn" else if eventName = "begin" then "begin" else status
  (pm.find? fun p => Lvl.hash h p.1 = Lvl.hash h level ∧ Lvl.eq p.1 level).bind fun p => p.2.lookup status

/-- The emit hooks of `SyslogEmitter` (_syslog_emitter.py:47-56): there is none for comments, which makes
`SensibleSink.on_comment` (sensible.py:82) raise AttributeError, here `none`. -/
def syslogEmit (h : String → Nat) (pm : List (Lvl.Level × List (String × Nat))) (hook : Hook) (level : Lvl.Level)
    (status : String) : Option Nat :=
  match hook with
  | .begin => priority h pm "begin" level status
  | .warn => priority h pm "warn" level status
  | .end' => priority h pm "end" level status
  | .comment => none

end Verif.Emit
