import Verif.Model.Core
/-!
# A rate sink shared by threads

`RateSink.on_end` (sinks.py:160-170) and `RateSink.get_total_counts` (sinks.py:212-237) in single steps, any number of threads.
Nothing serialises the calls: a synchronous logger calls its sinks from whatever thread publishes, and a sink "can be shared
across multiple loggers" (sinks.py:146), which flush under a lock each of their own.

The atomic steps are those of CPython: `dict.setdefault`, one lookup, one store, reading or writing an attribute,
`deque.append`.  A dict that has changed size since an iteration over it began makes the next step of the iteration raise
RuntimeError.  Simplified: loggers have names of their own (C57 has those that do not); the sums under `'__all__'` are left out;
reading an accumulator from the table and its count are one step; the timestamps (sinks.py:84) are left out.
-/
namespace Verif.SinkConc

abbrev Tid := Nat

/-- What an event is filed under: its logger, its action's name and its status. -/
structure Key where
  lg : LogId
  nm : Nat
  st : Nat
deriving DecidableEq, Repr

/-- Where a thread is. -/
inductive PC
  | idle
  /-- `self.acc_map.setdefault(ev.logger, {})` (sinks.py:162) -/
  | setLog (k : Key)
  /-- `name_time_map.setdefault(ev.name, {})` (163) -/
  | setName (k : Key)
  /-- `status_time_map[ev.status]` (165) -/
  | look (k : Key)
  /-- there is none: `RateAccumulator(...)` (167) -/
  | make (k : Key)
  /-- `status_time_map[ev.status] = acc` (168) -/
  | store (k : Key) (a : Nat)
  /-- in `acc.add`: read `self.total_count` (83) -/
  | load (k : Key) (a : Nat)
  /-- write it back plus one (83); then `on_end` returns -/
  | put (k : Key) (a : Nat) (v : Nat)
  /-- `get_total_counts`: the loop over loggers (220); `n` entries when it began, `i` seen -/
  | rLog (n i : Nat) (out : List (Key × Nat))
  /-- the loop over names (223) -/
  | rName (n i : Nat) (lg : LogId) (n' i' : Nat) (out : List (Key × Nat))
  /-- the loop over statuses (226) -/
  | rStat (n i : Nat) (lg : LogId) (n' i' : Nat) (nm : Nat) (n'' i'' : Nat) (out : List (Key × Nat))
deriving DecidableEq, Repr

/-- What a call of `get_total_counts` comes to. -/
inductive Res
  | counts (out : List (Key × Nat))
  | runtimeError
deriving DecidableEq, Repr

/-- The sink: the three levels of `acc_map` in insertion order, the accumulators; and the threads.  `made` is history: the
events `on_end` was called with; `res`: what the last `get_total_counts` of a thread came to. -/
structure Sys where
  logs : List LogId := []
  names : LogId → List Nat := fun _ => []
  stats : LogId → Nat → List Nat := fun _ _ => []
  acc : Key → Option Nat := fun _ => none
  next : Nat := 0
  total : Nat → Nat := fun _ => 0
  pcs : List PC
  made : List Key := []
  res : Tid → Option Res := fun _ => none

inductive Act
  /-- a logger calls `sink.on_end(event)` -/
  | onEnd (k : Key)
  /-- the application calls `sink.get_total_counts()` -/
  | counts
  | go
deriving DecidableEq, Repr

/-- A new key goes to the end of a dict, one that is there stays where it is. -/
def ins {α : Type} [DecidableEq α] (l : List α) (x : α) : List α := if x ∈ l then l else l ++ [x]

def Sys.to (s : Sys) (t : Tid) (p : PC) : Sys := { s with pcs := s.pcs.set t p }

/-- `get_total_counts` is over. -/
def Sys.ret (s : Sys) (t : Tid) (r : Res) : Sys := { s.to t .idle with res := fun u => if u = t then some r else s.res u }

/-- The next step of a thread. -/
def go (s : Sys) (t : Tid) : PC → Sys
  | .idle => s
  | .setLog k => { s.to t (.setName k) with logs := ins s.logs k.lg }
  | .setName k => { s.to t (.look k) with names := fun l => if l = k.lg then ins (s.names l) k.nm else s.names l }
  | .look k => s.to t (match s.acc k with | some a => .load k a | none => .make k)
  | .make k => { s.to t (.store k s.next) with next := s.next + 1 }
  | .store k a =>
    { s.to t (.load k a) with
      acc := fun j => if j = k then some a else s.acc j
      stats := fun l m => if l = k.lg ∧ m = k.nm then ins (s.stats l m) k.st else s.stats l m }
  | .load k a => s.to t (.put k a (s.total a))
  | .put k a v => { s.to t .idle with total := fun b => if b = a then v + 1 else s.total b }
  | .rLog n i out =>
    if s.logs.length ≠ n then s.ret t .runtimeError
    else match s.logs[i]? with
      | none => s.ret t (.counts out)
      | some lg => s.to t (.rName n (i + 1) lg (s.names lg).length 0 out)
  | .rName n i lg n' i' out =>
    if (s.names lg).length ≠ n' then s.ret t .runtimeError
    else match (s.names lg)[i']? with
      | none => s.to t (.rLog n i out)
      | some nm => s.to t (.rStat n i lg n' (i' + 1) nm (s.stats lg nm).length 0 out)
  | .rStat n i lg n' i' nm n'' i'' out =>
    if (s.stats lg nm).length ≠ n'' then s.ret t .runtimeError
    else match (s.stats lg nm)[i'']? with
      | none => s.to t (.rName n i lg n' i' out)
      | some st =>
        s.to t (.rStat n i lg n' i' nm n'' (i'' + 1) (out ++ [(⟨lg, nm, st⟩, ((s.acc ⟨lg, nm, st⟩).map s.total).getD 0)]))

/-- A call from application code, or from a logger. -/
def call (s : Sys) (t : Tid) : Act → Sys
  | .go => s
  | .onEnd k => { s.to t (.setLog k) with made := s.made ++ [k] }
  | .counts => { s.to t (.rLog s.logs.length 0 []) with res := fun u => if u = t then none else s.res u }

/-- One step of thread `t`; impossible steps change nothing. -/
def step (s : Sys) (t : Tid) (a : Act) : Sys :=
  match s.pcs[t]? with
  | none => s
  | some p => if a = .go then go s t p else if p = .idle then call s t a else s

def run (s : Sys) (sched : List (Tid × Act)) : Sys := sched.foldl (fun s x => step s x.1 x.2) s

/-- A new sink and `n` threads. -/
def init (n : Nat) : Sys := { pcs := List.replicate n .idle }

end Verif.SinkConc
