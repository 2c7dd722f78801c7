import Verif.Model.Quantile
/-!
# A quantile accumulator shared by threads

`ReservoirAccumulator.add` and `ReservoirAccumulator._get_quantile` (quantile.py:121-153) in single steps, any number of threads,
without a cap, as `QuantileSink` makes them (sinks.py:349).  Nothing serialises the calls: a synchronous logger calls its sinks from
whatever thread publishes, a sink can have many loggers, and the application reads quantiles when it likes.

The atomic steps are those of CPython: reading or writing an attribute, `array.append`, `sorted` of an array.  Simplified: the items
of an array that one quantile is computed from are read in one step; the check whether arrays have a method `sort` (they have none)
is left out; numbers are as in `Model/Quantile.lean`, `store` is what an array makes of a number.
-/
namespace Verif.ResConc

open Verif.Quant Verif.Accum

abbrev Tid := Nat

variable {K : Type} [Field K] [LinearOrder K] [IsStrictOrderedRing K] [FloorRing K]

/-- Where a thread is. -/
inductive PC (K : Type)
  | idle
  /-- `add`: read `self._data` (quantile.py:132) -/
  | load (v : K)
  /-- `.append(val)` to the array it was (132) -/
  | append (v : K) (a : Nat)
  /-- `self._is_sorted = False` (133) -/
  | flag (v : K)
  /-- read `self._count` (28) -/
  | rdCount (v : K)
  /-- write it back plus one (28) -/
  | wrCount (v : K) (c : Nat)
  /-- `if val < self._min` (29) -/
  | cmpMin (v : K)
  /-- `self._min = val` (30) -/
  | setMin (v : K)
  /-- `if val > self._max` (31) -/
  | cmpMax (v : K)
  /-- `self._max = val` (32) -/
  | setMax (v : K)
  /-- `_get_quantile`: `if self._is_sorted` in `_sort` (122) -/
  | test (q : K)
  /-- `array.array(self._typecode, sorted(self._data))` (127) -/
  | copy (q : K)
  /-- `self._data = ` the new array (127) -/
  | put (q : K) (b : Nat)
  /-- `self._is_sorted = True` (128) -/
  | mark (q : K)
  /-- `data = self._data` (148) -/
  | take (q : K)
  /-- `n = len(self._data)` (148) -/
  | size (q : K) (a : Nat)
  /-- the items (149-153); then `_get_quantile` returns -/
  | item (q : K) (a : Nat) (n : Nat)
deriving DecidableEq

/-- The accumulator (quantile.py:21-25, 106-119), arrays by identity; and the threads.  `calls` is history: the values `add` was
called with; `reads`: the quantiles read, with the values `add` had been called with by then. -/
structure Sys (K : Type) where
  arr : Nat → List K
  next : Nat
  data : Nat
  sorted : Bool
  count : Nat
  min : Ext K
  max : Ext K
  pcs : List (PC K)
  calls : List K
  reads : List (K × List K × Except Exc K)

inductive Act (K : Type)
  /-- a sink calls `acc.add(v)` -/
  | add (v : K)
  /-- the application calls `acc._get_quantile(q)` -/
  | read (q : K)
  | go
deriving DecidableEq

def Sys.to (s : Sys K) (t : Tid) (p : PC K) : Sys K := { s with pcs := s.pcs.set t p }

/-- What is computed from `data` and `n` (quantile.py:149-153). -/
def quantAt (data : List K) (n : Nat) (q : K) : Except Exc K :=
  let idx : K := q * ((n : K) - 1)
  let f := ⌊idx⌋
  let c := ⌈idx⌉
  if f = c then Quant.item data f
  else do
    let a ← Quant.item data f
    let b ← Quant.item data c
    return a * ((c : K) - idx) + b * (idx - (f : K))

/-- Ascending (`sorted`, quantile.py:127). -/
def ascending (l : List K) : List K := l.mergeSort fun x y => decide (x ≤ y)

/-- The next step of a thread (the lines are given with `PC`). -/
def go (store : K → K) (s : Sys K) (t : Tid) : PC K → Sys K
  | .idle => s
  | .load v => s.to t (.append v s.data)
  | .append v a => { s.to t (.flag v) with arr := fun b => if b = a then s.arr a ++ [store v] else s.arr b }
  | .flag v => { s.to t (.rdCount v) with sorted := false }
  | .rdCount v => s.to t (.wrCount v s.count)
  | .wrCount v c => { s.to t (.cmpMin v) with count := c + 1 }
  | .cmpMin v => s.to t (if fin v < s.min then .setMin v else .cmpMax v)
  | .setMin v => { s.to t (.cmpMax v) with min := fin v }
  | .cmpMax v => s.to t (if fin v > s.max then .setMax v else .idle)
  | .setMax v => { s.to t .idle with max := fin v }
  | .test q => s.to t (if s.sorted then .take q else .copy q)
  | .copy q =>
    { s.to t (.put q s.next) with
      arr := fun b => if b = s.next then ascending (s.arr s.data) else s.arr b
      next := s.next + 1 }
  | .put q b => { s.to t (.mark q) with data := b }
  | .mark q => { s.to t (.take q) with sorted := true }
  | .take q => s.to t (.size q s.data)
  | .size q a => s.to t (.item q a (s.arr s.data).length)
  | .item q a n => { s.to t .idle with reads := s.reads ++ [(q, s.calls, quantAt (s.arr a) n q)] }

/-- A call; points outside of (0, 1) raise ValueError at once (quantile.py:145-146). -/
def call (s : Sys K) (t : Tid) : Act K → Sys K
  | .go => s
  | .add v => { s.to t (.load v) with calls := s.calls ++ [v] }
  | .read q =>
    if 0 < q ∧ q < 1 then s.to t (.test q)
    else { s with reads := s.reads ++ [(q, s.calls, .error .value)] }

/-- A thread that is in a call can go on, one that is not can make a call. -/
def step (store : K → K) (s : Sys K) (t : Tid) (a : Act K) : Sys K :=
  match s.pcs[t]? with
  | none => s
  | some p => match a with
    | .go => go store s t p
    | a => match p with
      | .idle => call s t a
      | _ => s

/-- A new accumulator (quantile.py:106-116) and `n` threads. -/
def init (n : Nat) : Sys K := ⟨fun _ => [], 1, 0, true, 0, posInf, negInf, List.replicate n .idle, [], []⟩

/-- Any schedule. -/
def run (store : K → K) (s : Sys K) (sched : List (Tid × Act K)) : Sys K :=
  sched.foldl (fun s x => step store s x.1 x.2) s

end Verif.ResConc
