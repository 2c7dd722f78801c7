import Verif.Model.Step
import Verif.Model.Signal
/-!
# The end of the process: `atexit` handlers and SIGTERM

`enable_async` registers `disable_async` with `atexit` (context.py:119-123) and installs `signal_sysexit`
(context.py:106-107, 171-175) so that a SIGTERM, too, ends in the exit handlers.  `atexit` runs its handlers last
registered first; an exception in one does not keep the others from running.  The background actor
(`Model/Actor.lean`) is not part of this model, and exit handlers register no further ones.
-/
namespace Verif.Exit

/-- A registered exit handler: one of the application's, making some calls; `context.disable_async` with its default
arguments; or `atexit_reissue_sigterm`. -/
inductive Reg
  | user (its : List Item)
  | disable
  | reissue

/-- How the process ended. -/
inductive End
  | status (n : Nat)
  | killed
deriving DecidableEq, Repr

/-- The process: lithoxyl's state, the exit handlers (last registered first), the SIGTERM disposition,
`_async_atexit_registered`, the handlers that have run (in order), and how it ended if it has. -/
structure Proc where
  world : World
  stack : List Reg
  disp : Signal.Handler
  registered : Bool
  ran : List Reg
  ended : Option End

/-- A fresh process. -/
def Proc.init : Proc := ⟨World.init, [], .dfl, false, [], none⟩

/-- What can happen before the end. -/
inductive Ev
  /-- any API call, with block entry or exit -/
  | item (it : Item)
  /-- `enable_async(update_loggers, update_sigterm)` on the main thread -/
  | enable (loggers sigterm : Bool)
  /-- `disable_async(update_loggers, update_sigterm)` on the main thread -/
  | disable (loggers sigterm : Bool)
  /-- the application's `atexit.register(f)`, where `f` makes the calls `its` -/
  | atexit (its : List Item)
  /-- the application's `signal.signal(SIGTERM, h)` -/
  | signal (h : Signal.Handler)
  /-- a SIGTERM arrives; if it makes `signal_sysexit` raise SystemExit, the application catches that and goes on -/
  | sigterm

/-- `enable_async` (context.py:91-125) without the actor. -/
def enable (p : Proc) (loggers sigterm : Bool) : Proc :=
  { p with
    world := enableAsync p.world loggers
    disp := if sigterm then (Signal.install p.disp).1 else p.disp
    stack := if p.registered then p.stack else .disable :: p.stack
    registered := true }

/-- `disable_async` (context.py:127-146) without the actor. -/
def disable (env : Env) (p : Proc) (loggers sigterm : Bool) : Proc :=
  { p with
    world := (disableAsync env p.world loggers).1
    disp := if sigterm then (Signal.uninstall false p.disp).1 else p.disp }

/-- One event in the life of the process.  SIGTERM with the default disposition kills it; lithoxyl's handler registers
`atexit_reissue_sigterm` (context.py:171-175); what a handler of the application does is not modelled. -/
def step (env : Env) (p : Proc) (e : Ev) : Proc :=
  match p.ended with
  | some _ => p
  | none =>
    match e with
    | .item it => { p with world := stepItem env p.world it }
    | .enable l s => enable p l s
    | .disable l s => disable env p l s
    | .atexit its => { p with stack := .user its :: p.stack }
    | .signal h => { p with disp := h }
    | .sigterm =>
      match p.disp with
      | .dfl => { p with ended := some .killed }
      | .ours => { p with stack := .reissue :: p.stack }
      | .user _ => p

/-- The life of a process. -/
def life (env : Env) (evs : List Ev) : Proc := evs.foldl (step env) Proc.init

/-- One exit handler runs.  `atexit_reissue_sigterm` (context.py:178-209): since Python 3 has no
`atexit._exithandlers`, line 197 raises AttributeError and the handler returns at once (205-208); the rest of it is not
reached.  The supported versions are 3.10 to 3.13 (pyproject.toml). -/
def handle (env : Env) (p : Proc) (r : Reg) : Proc :=
  let p := { p with ran := p.ran ++ [r] }
  match r with
  | .user its => { p with world := run env p.world its }
  | .disable => disable env p true true
  | .reissue => p

/-- The interpreter exits with status `n`: the handlers run, last registered first. -/
def finish (env : Env) (p : Proc) (n : Nat) : Proc :=
  { (p.stack.foldl (handle env) { p with stack := [] }) with ended := some (.status n) }

/-- The last thing that happens to a process: the program ends or calls `sys.exit(n)`, or a SIGTERM arrives and the
SystemExit it may cause is not caught. -/
inductive Last
  | exit (n : Nat)
  | sigterm

/-- The end of the process; with a handler of the application's a SIGTERM need not end it. -/
def last (env : Env) (p : Proc) (e : Last) : Proc :=
  match p.ended with
  | some _ => p
  | none =>
    match e with
    | .exit n => finish env p n
    | .sigterm =>
      match p.disp with
      | .dfl => { p with ended := some .killed }
      | .ours => finish env { p with stack := .reissue :: p.stack } 143
      | .user _ => p

end Verif.Exit
