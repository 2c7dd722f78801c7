import Mathlib.Algebra.Order.Field.Basic
/-!
# `lithoxyl/actors.py`: the interval thread actor

Every attribute read or write that another thread can see is one step; a schedule is a list of labels
saying which thread goes next.  Waiting has no length: `_stopping.wait` and `join(timeout)` may end at any
moment, so every timing is one of the schedules.  Intervals are exact numbers of an ordered field (the code uses
floats).  The statistics (`get_stats`) are in `Model/ActorStats.lean`, except for the number of task calls.
-/
namespace Verif.Actor

/-- How one call of the task ends (actors.py:105-118): normally; with an `Exception`, after which the note
callback may itself raise; with SystemExit or KeyboardInterrupt; with another BaseException. -/
inductive Outcome
  | ok
  | exc (noteRaises : Bool)
  | exit
  | base
deriving DecidableEq, Repr

/-- Constructor arguments that matter later (actors.py:22-41). -/
structure Conf (K : Type) where
  orig : K
  max : K
  daemon : Bool

/-- `IntervalThreadActor.__init__` (actors.py:32-36): `interval=None` is 200; a missing or zero
`max_interval` is eight intervals. -/
def Conf.make {K : Type} [Field K] [DecidableEq K] (interval maxInterval : Option K) (daemon : Bool) : Conf K :=
  let i := interval.getD 200
  { orig := i
    max := match maxInterval with
      | none => i * 8
      | some m => if m = 0 then i * 8 else m
    daemon := daemon }

/-- The interval after a task call (actors.py:111-118). -/
def nextInterval {K : Type} [Field K] [LinearOrder K] (cf : Conf K) (i : K) : Outcome → K
  | .ok => Max.max (i - (cf.max - cf.orig) / 8) cf.orig
  | .exc false => Min.min (i * 2) cf.max
  | .exc true => i
  | .exit => i
  | .base => i

/-- Does the outcome leave the loop by an exception (actors.py:107-113)? -/
def lethal (daemon : Bool) : Outcome → Bool
  | .ok => false
  | .exc noteRaises => noteRaises
  | .exit => !daemon
  | .base => true

/-- Where an actor thread is (actors.py:98-124). -/
inductive Phase
  | unstarted   -- `Thread` object made, `start` not called
  | check       -- about to test `while not self._stopping.is_set()` (102)
  | ready       -- test passed, task not yet started (103-104)
  | running     -- inside `self.task()` (106)
  | waiting     -- inside `self._stopping.wait` (122)
  | leaving     -- loop left, about to run `finally` (123)
  | cleared     -- `finally` done, thread not yet finished
  | dead
deriving DecidableEq, Repr

/-- `Thread.is_alive`. -/
def Phase.alive : Phase → Bool
  | .unstarted => false
  | .dead => false
  | _ => true

/-- What a call of an actor method gave its caller. -/
inductive Res
  | nothing                  -- no call yet
  | returned                 -- `start` or `stop` returned
  | joined (alive : Bool)    -- `join` returned this
  | raised                   -- RuntimeError
deriving DecidableEq, Repr

/-- Where a thread that uses the actor is: between calls, or before the named line. -/
inductive Ctl
  | idle (last : Res)
  | start57    -- `if self.is_alive()`
  | start60    -- the pid and stopping test
  | start64    -- `self._pid = ...`, `self._stopping.clear()`
  | start66    -- `self._thread = Thread(...)`
  | start68    -- `self._thread.start()`
  | stop77     -- `if self.is_alive()`
  | stop78 (alive : Bool)   -- set or clear
  | join84 (timed : Bool)                 -- `if not self._thread`
  | join86 (t : Nat) (timed : Bool)       -- `self._thread.join`
  | join87                                -- `ret = self.is_alive()`
  | join88 (alive : Bool)                 -- clear if dead
deriving DecidableEq, Repr

/-- The calls a user can make. -/
inductive Op
  | start
  | stop
  | join (timed : Bool)
deriving DecidableEq, Repr

structure St (K : Type) where
  /-- the threads ever made, by number -/
  thr : List Phase := []
  /-- `self._thread` -/
  cur : Option Nat := none
  /-- `self._stopping` -/
  stopping : Bool := false
  /-- `os.getpid()` -/
  pid : Nat := 0
  /-- `self._pid` -/
  apid : Option Nat := none
  /-- `self.interval` -/
  interval : K
  /-- the users of the actor -/
  ctl : Nat → Ctl := fun _ => .idle .nothing
  /-- `self._task_call_count` -/
  calls : Nat := 0
  /-- outcomes of the finished task calls, latest first (not in the code) -/
  outs : List Outcome := []

/-- A new actor. -/
def init {K : Type} (cf : Conf K) : St K := { interval := cf.orig }

/-- One entry of a schedule. -/
inductive Lab
  /-- actor thread `i` goes on; if it is inside the task, the task ends with `o` -/
  | thr (i : Nat) (o : Outcome)
  /-- user `c` calls a method -/
  | call (c : Nat) (op : Op)
  /-- user `c` goes on -/
  | ctl (c : Nat)
  /-- a timed `join` of user `c` runs out -/
  | timeout (c : Nat)
  /-- user `c` forks and the history follows the child -/
  | fork (c : Nat)
deriving DecidableEq, Repr

variable {K : Type} [Field K] [LinearOrder K]

def St.phase (s : St K) (i : Nat) : Phase := s.thr.getD i .dead

/-- `is_alive` (actors.py:53-54). -/
def St.alive (s : St K) : Bool :=
  match s.cur with
  | none => false
  | some i => (s.phase i).alive

def St.setThr (s : St K) (i : Nat) (p : Phase) : St K := { s with thr := s.thr.set i p }
def St.setCtl (s : St K) (c : Nat) (x : Ctl) : St K :=
  { s with ctl := fun d => if d = c then x else s.ctl d }

/-- One step of an actor thread (actors.py:98-124). -/
def thrStep (cf : Conf K) (s : St K) (i : Nat) (o : Outcome) : St K :=
  match s.phase i with
  | .unstarted => s
  | .check => s.setThr i (if s.stopping then .leaving else .ready)
  | .ready => { s.setThr i .running with calls := s.calls + 1 }
  | .running =>
    { s.setThr i (if lethal cf.daemon o then .leaving else .waiting) with
      interval := nextInterval cf s.interval o, outs := o :: s.outs }
  | .waiting => s.setThr i .check
  | .leaving => { s.setThr i .cleared with stopping := false }
  | .cleared => s.setThr i .dead
  | .dead => s

/-- One step of a user inside a call (actors.py:56-90). -/
def ctlStep (s : St K) (c : Nat) : St K :=
  match s.ctl c with
  | .idle _ => s
  | .start57 => if s.alive then s.setCtl c (.idle .returned) else s.setCtl c .start60
  | .start60 =>
    if some s.pid = s.apid ∧ s.stopping = true then s.setCtl c (.idle .raised) else s.setCtl c .start64
  | .start64 => { s.setCtl c .start66 with apid := some s.pid, stopping := false }
  | .start66 => { s.setCtl c .start68 with thr := s.thr ++ [.unstarted], cur := some s.thr.length }
  | .start68 =>
    match s.cur with
    | none => s.setCtl c (.idle .raised)
    | some i =>
      if s.phase i = .unstarted then (s.setThr i .check).setCtl c (.idle .returned)
      else s.setCtl c (.idle .raised)
  | .stop77 => s.setCtl c (.stop78 s.alive)
  | .stop78 b => { s.setCtl c (.idle .returned) with stopping := b }
  | .join84 timed =>
    match s.cur with
    | none => s.setCtl c (.idle .raised)
    | some i => if s.phase i = .unstarted then s.setCtl c (.idle .raised) else s.setCtl c (.join86 i timed)
  | .join86 i _ => if s.phase i = .dead then s.setCtl c .join87 else s
  | .join87 => s.setCtl c (.join88 s.alive)
  | .join88 b =>
    let s := s.setCtl c (.idle (.joined b))
    if b then s else { s with stopping := false }

/-- One step of a schedule.  A step that is not possible does nothing. -/
def step (cf : Conf K) (s : St K) : Lab → St K
  | .thr i o => thrStep cf s i o
  | .call c op =>
    match s.ctl c with
    | .idle _ =>
      match op with
      | .start => s.setCtl c .start57
      | .stop => s.setCtl c .stop77
      | .join timed => s.setCtl c (.join84 timed)
    | _ => s
  | .ctl c => ctlStep s c
  | .timeout c =>
    match s.ctl c with
    | .join86 _ true => s.setCtl c .join87
    | _ => s
  | .fork c =>
    match s.ctl c with
    | .idle _ =>
      { s with
        thr := s.thr.map fun _ => .dead
        pid := s.pid + 1
        ctl := fun d => if d = c then s.ctl c else .idle .nothing }
    | _ => s

/-- A whole schedule. -/
def run (cf : Conf K) (s : St K) (ls : List Lab) : St K := ls.foldl (step cf) s

/-- The schedule of a call made while nobody else moves: the call and its steps. -/
def callAlone (c : Nat) (op : Op) : List Lab := .call c op :: List.replicate 5 (.ctl c)

end Verif.Actor
