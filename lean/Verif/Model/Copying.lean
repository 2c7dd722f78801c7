import Verif.Model.Logger
/-!
# Copying the table of loggers while other threads change it

`flush`, `enable_async` and `disable_async` of a context begin with `sorted(list(self.loggers.items()))` (context.py:115,
141, 149).  `self.loggers` is a `weakref.WeakKeyDictionary`, whose `items` is a generator written in Python over the items of
a dict; other threads may run between any two of them.  A dict that has changed size since its iteration began makes the next
step of the iteration raise RuntimeError.  Loggers the garbage collector takes are removed from the dict only when no
iteration is under way (`_IterationGuard`); until then they are skipped.

The library modelled is CPython's `weakref.py` as of Python 3.6 to 3.13.  Simplified: dicts keep insertion order, and an entry
removed leaves no hole in the table, so that one removed and one added under an iteration may make it skip an entry, as in
CPython when the addition resizes the table; setting the
loggers' modes and flushing the loggers copied are one step (`Model/Modes.lean` has their parts); sinks do not raise.
-/
namespace Verif.Copying

abbrev Tid := Nat
abbrev Ev := Nat

/-- What the copy is for: the loop of `enable_async` over the loggers (context.py:114-117), that of `disable_async` (140-143),
or `context.flush` (148-156), called by `disable_async` (145) or not. -/
inductive Next
  | enable
  | modes
  | flush (off : Bool)
deriving DecidableEq, Repr

/-- Where a thread is. -/
inductive PC
  | idle
  /-- copying the table, which had `size` entries when it began; `i` entries seen, `acc` copied -/
  | copy (next : Next) (size i : Nat) (acc : List LogId)
deriving DecidableEq, Repr

/-- How a call ended. -/
inductive Outcome
  | returned
  | runtimeError
deriving DecidableEq, Repr

/-- The context and the threads.  `entries`: the dict behind `self.loggers`; `dead`: loggers collected whose entry is still
there.  `out`: how the last call of each thread ended, `none` before and during it. -/
structure Sys where
  entries : List LogId := []
  dead : List LogId := []
  ctxAsync : Bool := false
  /-- `disable_async` is registered with `atexit` -/
  atexit : Bool := false
  mode : LogId → Bool := fun _ => false
  queue : LogId → List Ev := fun _ => []
  got : LogId → List Ev := fun _ => []
  pcs : List PC
  out : Tid → Option Outcome := fun _ => none

inductive Act
  /-- `Logger(...)`: registered (context.py:158-161); `b` is the mode it gets -/
  | new (l : LogId) (b : Bool)
  /-- `context.remove_logger(l)` (context.py:163-168) -/
  | remove (l : LogId)
  /-- the garbage collector takes the logger -/
  | collect (l : LogId)
  /-- an event is published (logger.py:186-211, 241-246) -/
  | publish (l : LogId) (e : Ev)
  /-- `context.flush()` -/
  | flush
  /-- `context.enable_async()` -/
  | enable
  /-- `context.disable_async()` -/
  | disable
  /-- go on -/
  | go
deriving DecidableEq, Repr

def upd {α : Type} (f : Nat → α) (l : Nat) (a : α) : Nat → α := fun m => if m = l then a else f m

def Sys.to (s : Sys) (t : Tid) (p : PC) : Sys := { s with pcs := s.pcs.set t p }

/-- Some thread is copying. -/
def Sys.iterating (s : Sys) : Bool := s.pcs.any fun p => p ≠ .idle

/-- `_commit_removals`: when no iteration is under way the entries of collected loggers go. -/
def Sys.commit (s : Sys) : Sys :=
  if s.iterating then s else { s with entries := s.entries.filter (· ∉ s.dead), dead := [] }

/-- Thread `t` begins to copy the table. -/
def Sys.start (s : Sys) (t : Tid) (next : Next) : Sys := s.to t (.copy next s.entries.length 0 [])

/-- The copy is complete. -/
def finish (s : Sys) (t : Tid) (acc : List LogId) : Next → Sys
  -- context.py:117-124
  | .enable =>
    { (s.to t .idle).commit with
      mode := fun l => if l ∈ acc then false else s.mode l
      atexit := true
      out := upd s.out t (some .returned) }
  | .modes =>
    ({ s.to t .idle with mode := fun l => if l ∈ acc then false else s.mode l }.commit).start t (.flush true)
  | .flush off =>
    { (s.to t .idle).commit with
      queue := fun l => if l ∈ acc then [] else s.queue l
      got := fun l => if l ∈ acc then s.got l ++ s.queue l else s.got l
      ctxAsync := if off then false else s.ctxAsync
      out := upd s.out t (some .returned) }

/-- The next step of a thread that is copying: the size is compared first. -/
def go (s : Sys) (t : Tid) : PC → Sys
  | .idle => s
  | .copy next size i acc =>
    if s.entries.length ≠ size then { (s.to t .idle).commit with out := upd s.out t (some .runtimeError) }
    else
      match s.entries[i]? with
      | none => finish s t acc next
      | some l => s.to t (.copy next size (i + 1) (if l ∈ s.dead then acc else acc ++ [l]))

/-- A call from application code. -/
def call (s : Sys) (t : Tid) : Act → Sys
  | .new l b =>
    if l ∈ s.entries then s else { s with entries := s.entries ++ [l], mode := upd s.mode l b, queue := upd s.queue l [] }
  | .remove l => { s with entries := s.entries.filter (· ≠ l) }
  | .collect l =>
    if s.iterating then { s with dead := l :: s.dead } else { s with entries := s.entries.filter (· ≠ l) }
  | .publish l e =>
    if s.mode l then { s with queue := upd s.queue l (pushBounded QUEUE_LIMIT (s.queue l) e) }
    else { s with got := upd s.got l (s.got l ++ [e]) }
  | .flush => { s with out := upd s.out t none }.start t (.flush false)
  -- context.py:104
  | .enable => { s with out := upd s.out t none, ctxAsync := true }.start t .enable
  | .disable => { s with out := upd s.out t none }.start t .modes
  | .go => s

/-- One step of thread `t`; impossible steps change nothing. -/
def step (s : Sys) (t : Tid) (a : Act) : Sys :=
  match s.pcs[t]? with
  | none => s
  | some p => if a = .go then go s t p else if p = .idle then call s t a else s

def run (s : Sys) (sched : List (Tid × Act)) : Sys := sched.foldl (fun s x => step s x.1 x.2) s

/-- `n` threads in application code, no loggers yet. -/
def init (n : Nat) : Sys := { pcs := List.replicate n .idle }

end Verif.Copying
