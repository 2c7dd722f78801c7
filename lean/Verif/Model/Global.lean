import Verif.Model.Core
/-!
# The global context

`get_context` makes the global context when there is none yet, `set_context` replaces it (context.py:12-28); a logger made
without `context=` takes the global one and is registered with it (logger.py:84-85).  Each of the statements of `get_context`
is a step here, other threads may run in between.

Simplified: loggers are asynchronous, sinks do not raise, queues are not bounded and `flush` of a context is one step
(`Model/Copying.lean`, `Model/Concurrent.lean` and `Model/Weak.lean` have those parts); loggers are not collected.
-/
namespace Verif.Global

abbrev Tid := Nat
/-- Contexts, numbered in the order they are made. -/
abbrev Ctx := Nat
abbrev Ev := Nat

/-- What the context is wanted for. -/
inductive Cont
  /-- `get_context()` by the application -/
  | get
  /-- `Logger(...)` (logger.py:84-85) -/
  | log (l : LogId)
  /-- `get_context().flush()` -/
  | flush
deriving DecidableEq, Repr

/-- Where a thread is. -/
inductive PC
  | idle
  /-- about to test the global (context.py:16) -/
  | test (k : Cont)
  /-- about to make a context (context.py:17) -/
  | make (k : Cont)
  /-- about to store the context it made (context.py:17, 26) -/
  | store (k : Cont) (c : Ctx)
  /-- about to read the global and return it (context.py:19) -/
  | read (k : Cont)
deriving DecidableEq, Repr

inductive Act
  | get
  /-- `Logger(...)`, with `context=` or without -/
  | new (l : LogId) (c : Option Ctx)
  /-- `get_context().flush()` -/
  | flush
  /-- `set_context(c)` for a context made before, or None -/
  | set (c : Option Ctx)
  /-- `LithoxylContext()` by the application -/
  | mkctx
  /-- an event of a logger is published -/
  | publish (l : LogId) (e : Ev)
  | go
deriving DecidableEq, Repr

/-- The module global, the loggers with the context each is registered with, and the threads.  `res`: what the calls of
`get_context` have returned, in order, and for what. -/
structure Sys where
  glob : Option Ctx := none
  next : Ctx := 0
  ctx : LogId → Option Ctx := fun _ => none
  queue : LogId → List Ev := fun _ => []
  got : LogId → List Ev := fun _ => []
  pcs : List PC
  res : List (Tid × Cont × Option Ctx) := []

def upd {α : Type} (f : Nat → α) (l : Nat) (a : α) : Nat → α := fun m => if m = l then a else f m

def Sys.to (s : Sys) (t : Tid) (p : PC) : Sys := { s with pcs := s.pcs.set t p }

/-- `add_logger` (context.py:158-161); every logger is made once. -/
def register (s : Sys) (l : LogId) (c : Ctx) : Sys :=
  if s.ctx l = none then { s with ctx := upd s.ctx l (some c), queue := upd s.queue l [] } else s

/-- `context.flush()` (context.py:148-156). -/
def flushCtx (s : Sys) (c : Ctx) : Sys :=
  { s with
    queue := fun l => if s.ctx l = some c then [] else s.queue l
    got := fun l => if s.ctx l = some c then s.got l ++ s.queue l else s.got l }

/-- `get_context()` has returned; with None, what follows raises AttributeError. -/
def finish (s : Sys) (t : Tid) (k : Cont) : Sys :=
  let s' := { s.to t .idle with res := s.res ++ [(t, k, s.glob)] }
  match k, s.glob with
  | .log l, some c => register s' l c
  | .flush, some c => flushCtx s' c
  | _, _ => s'

/-- The next step of a thread in `get_context`. -/
def go (s : Sys) (t : Tid) : PC → Sys
  | .idle => s
  | .test k => s.to t (if s.glob = none then .make k else .read k)
  | .make k => { s.to t (.store k s.next) with next := s.next + 1 }
  | .store k c => { s.to t (.read k) with glob := some c }
  | .read k => finish s t k

/-- A call from application code. -/
def call (s : Sys) (t : Tid) : Act → Sys
  | .get => s.to t (.test .get)
  | .new l none => s.to t (.test (.log l))
  | .new l (some c) => if c < s.next then register s l c else s
  | .flush => s.to t (.test .flush)
  | .set none => { s with glob := none }
  | .set (some c) => if c < s.next then { s with glob := some c } else s
  | .mkctx => { s with next := s.next + 1 }
  | .publish l e => if s.ctx l = none then s else { s with queue := upd s.queue l (s.queue l ++ [e]) }
  | .go => s

/-- One step of thread `t`; impossible steps change nothing. -/
def step (s : Sys) (t : Tid) (a : Act) : Sys :=
  match s.pcs[t]? with
  | none => s
  | some p => if a = .go then go s t p else if p = .idle then call s t a else s

def run (s : Sys) (sched : List (Tid × Act)) : Sys := sched.foldl (fun s x => step s x.1 x.2) s

/-- `n` threads in application code. -/
def init (n : Nat) : Sys := { pcs := List.replicate n .idle }

end Verif.Global
