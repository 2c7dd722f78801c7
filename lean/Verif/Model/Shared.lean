import Verif.Model.Core
/-!
# Threads that share an action

The interleaving model of `Action.begin`, `warn`, `success`, `failure` and `_end` (action.py:140-182, 227-243) for one
action used by any number of threads outside with blocks (`_is_trans` unset, `_defer_publish` false).  A schedule is any
list of atomic steps: a read or write of an attribute, making an event (its number comes from one counter,
action.py:328-395), `list.append`, and publishing.

Simplified: `exception` is left out (it publishes like `failure` after calling the on_exception hooks); publishing is one
step that appends to `out`, as it is for an asynchronous logger (logger.py:186-211).
-/
namespace Verif.Shared

abbrev Tid := Nat
/-- An event, by its number. -/
abbrev Ev := Nat

/-- What a thread does once `begin` has returned: nothing more, or the rest of `_end` with this status. -/
inductive Cont
  | ret
  | fin (st : Status)
deriving DecidableEq

inductive PC
  /-- application code -/
  | idle
  /-- in `_end`, at `if not self.begin_event` (action.py:233) -/
  | check (st : Status)
  /-- in `begin`, at `if not self.begin_event` (142) -/
  | test (k : Cont)
  /-- in `begin`, found none: about to make and store the event (146) -/
  | storeBegin (k : Cont)
  /-- at `self.logger.on_begin(self.begin_event)` (147), which reads the attribute again -/
  | pubBegin (k : Cont)
  /-- in `_end`, about to make and store the end event (237-238) -/
  | storeEnd (st : Status)
  /-- at `self.logger.on_end(self.end_event)` (240-241), which reads the attribute again -/
  | pubEnd
  /-- in `warn`, made the event `e` and appended it to `warn_events` (152-153), about to publish it (154) -/
  | pubWarn (e : Ev)
deriving DecidableEq

/-- What is published. -/
inductive Out
  | begin (e : Ev)
  | warn (e : Ev)
  | fin (e : Ev) (st : Status)
deriving DecidableEq

inductive Act
  | begin
  | warn
  /-- `success` or `failure` -/
  | fin (st : Status)
  /-- go on -/
  | go
deriving DecidableEq

/-- The action and the threads.  `out` is the history of what was published, `asked` that of the calls made. -/
structure Sys where
  next : Ev := 0
  beginEvent : Option Ev := none
  endEvent : Option (Ev × Status) := none
  warnEvents : List Ev := []
  pcs : List PC
  out : List Out := []
  asked : List Act := []

def Sys.to (s : Sys) (t : Tid) (p : PC) : Sys := { s with pcs := s.pcs.set t p }

/-- Where a thread goes when `begin` returns. -/
def Cont.pc : Cont → PC
  | .ret => .idle
  | .fin st => .storeEnd st

/-- A call from application code. -/
def call (s : Sys) (t : Tid) : Act → Sys
  | .begin => { s with asked := s.asked ++ [Act.begin] }.to t (.test .ret)
  | .warn =>
    { s with next := s.next + 1, warnEvents := s.warnEvents ++ [s.next], asked := s.asked ++ [Act.warn] }.to t (.pubWarn s.next)
  | .fin st => { s with asked := s.asked ++ [Act.fin st] }.to t (.check st)
  | .go => s

/-- The next step inside a call. -/
def go (s : Sys) (t : Tid) : PC → Sys
  | .idle => s
  | .check st => s.to t (if s.beginEvent.isNone then .test (.fin st) else .storeEnd st)
  | .test k => s.to t (if s.beginEvent.isNone then .storeBegin k else k.pc)
  | .storeBegin k => { s with next := s.next + 1, beginEvent := some s.next }.to t (.pubBegin k)
  | .pubBegin k =>
    match s.beginEvent with
    | none => s.to t k.pc                                   -- shown not to happen
    | some e => { s with out := s.out ++ [Out.begin e] }.to t k.pc
  | .storeEnd st => { s with next := s.next + 1, endEvent := some (s.next, st) }.to t .pubEnd
  | .pubEnd =>
    match s.endEvent with
    | none => s.to t .idle                                  -- shown not to happen
    | some (e, st) => { s with out := s.out ++ [Out.fin e st] }.to t .idle
  | .pubWarn e => { s with out := s.out ++ [Out.warn e] }.to t .idle

/-- One step of thread `t`; steps that are not possible change nothing. -/
def step (s : Sys) (t : Tid) (a : Act) : Sys :=
  match s.pcs[t]? with
  | none => s
  | some p => if a = .go then go s t p else if p = .idle then call s t a else s

def run (s : Sys) (sched : List (Tid × Act)) : Sys := sched.foldl (fun s p => step s p.1 p.2) s

/-- `n` threads, the action just made. -/
def init (n : Nat) : Sys := { pcs := List.replicate n .idle }

end Verif.Shared
