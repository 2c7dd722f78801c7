import Mathlib.Data.List.Sort
/-!
# A P2 accumulator shared by threads

`P2Accumulator.add` and `P2Accumulator._get_quantile` (quantile.py:173-193) in single steps, any number of threads; `QuantileSink`
uses such accumulators (sinks.py:321).  Until it has enough values for an estimator (quantile.py:166, 177) it keeps them in a temporary
`ReservoirAccumulator`; then it makes the estimator from those and forgets the temporary accumulator.

Simplified: what is done to one estimator or one temporary accumulator by one call is one step (`Model/ResConc.lean` has the steps of
the latter), so an estimator is known by the values it was made from and given since, and the temporary accumulator by the values in
it; the count, minimum and maximum of line 183 are left out (also in `Model/ResConc.lean`), and so is the rounding of stored values
(`Model/Quantile.lean`); points that are not tracked are not asked for.
-/
namespace Verif.P2Conc

abbrev Tid := Nat

variable {K : Type}

/-- Where a thread is. -/
inductive PC (K : Type)
  | idle
  /-- `add`: `if self._est is None` (quantile.py:174) -/
  | look (v : K)
  /-- `ta = self._tmp_acc` (175) -/
  | temp (v : K)
  /-- `ta.add(val)` (176); `has`: `ta` is the accumulator, not None -/
  | tadd (v : K) (has : Bool)
  /-- `if ta.count >= self._thresh` (177) -/
  | test
  /-- `P2Estimator(self._q_points, ta._data)` (178) -/
  | build
  /-- `self._est = ` that (178) -/
  | put (l : List K)
  /-- `self._tmp_acc = None` (179) -/
  | drop
  /-- `self._est.add(val)` (182) -/
  | feed (v : K)
  /-- `_get_quantile`: `self._est._get_quantile(q)` (191) -/
  | ask
  /-- `self._tmp_acc._get_quantile(q)` (193) -/
  | askTemp
deriving DecidableEq

/-- The accumulator: the values of its estimator, if it has one, those of its temporary accumulator, and whether it has forgotten
that; and the threads.  Histories: the values `add` was called with, those given to an estimator one by one, those whose `add`
raised; for every read the values it was computed from, or `none` if it raised (AttributeError). -/
structure Sys (K : Type) where
  est : Option (List K)
  tmp : List K
  gone : Bool
  pcs : List (PC K)
  calls : List K
  fed : List K
  failed : List K
  reads : List (Option (List K))

inductive Act (K : Type)
  /-- `acc.add(v)` -/
  | add (v : K)
  /-- `acc._get_quantile(q)`, `acc.median`, ... -/
  | read
  | go
deriving DecidableEq

def Sys.to (s : Sys K) (t : Tid) (p : PC K) : Sys K := { s with pcs := s.pcs.set t p }

variable [LinearOrder K]

/-- Ascending: what reading leaves in a reservoir (quantile.py:121-128). -/
def ascending (l : List K) : List K := l.mergeSort fun x y => decide (x ≤ y)

/-- The next step of a thread (the lines are given with `PC`).  `points` is the number of quantile points, `points + 2` the
threshold (quantile.py:167). -/
def go (points : Nat) (s : Sys K) (t : Tid) : PC K → Sys K
  | .idle => s
  | .look v => s.to t (if s.est = none then .temp v else .feed v)
  | .temp v => s.to t (.tadd v (!s.gone))
  | .tadd v true => { s.to t .test with tmp := s.tmp ++ [v] }
  | .tadd v false => { s.to t .idle with failed := s.failed ++ [v] }
  | .test => s.to t (if s.tmp.length ≥ points + 2 then .build else .idle)
  | .build => s.to t (.put s.tmp)
  | .put l => { s.to t .drop with est := some l }
  | .drop => { s.to t .idle with gone := true }
  | .feed v => { s.to t .idle with est := s.est.map (· ++ [v]), fed := s.fed ++ [v] }
  | .ask =>
    match s.est with
    | some l => { s.to t .idle with reads := s.reads ++ [some l] }
    | none => s.to t .askTemp
  | .askTemp =>
    if s.gone then { s.to t .idle with reads := s.reads ++ [none] }
    else { s.to t .idle with tmp := ascending s.tmp, reads := s.reads ++ [some s.tmp] }

omit [LinearOrder K] in
/-- A call. -/
def call (s : Sys K) (t : Tid) : Act K → Sys K
  | .go => s
  | .add v => { s.to t (.look v) with calls := s.calls ++ [v] }
  | .read => s.to t .ask

/-- A thread that is in a call can go on, one that is not can make a call. -/
def step (points : Nat) (s : Sys K) (t : Tid) (a : Act K) : Sys K :=
  match s.pcs[t]? with
  | none => s
  | some p => match a with
    | .go => go points s t p
    | a => match p with
      | .idle => call s t a
      | _ => s

omit [LinearOrder K] in
/-- A new accumulator (quantile.py:161-168) and `n` threads. -/
def init (n : Nat) : Sys K := ⟨none, [], false, List.replicate n .idle, [], [], [], []⟩

/-- Any schedule. -/
def run (points : Nat) (s : Sys K) (sched : List (Tid × Act K)) : Sys K :=
  sched.foldl (fun s x => step points s x.1 x.2) s

end Verif.P2Conc
