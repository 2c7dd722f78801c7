/-!
# `lithoxyl/context.py`: the SIGTERM handler

Only the process's SIGTERM disposition is modelled, not the delivery of the signal.
-/
namespace Verif.Signal

/-- What `signal.getsignal(SIGTERM)` can give: the default, lithoxyl's `signal_sysexit`, or anything else (a
function of the user's, SIG_IGN, or None for a handler not installed from Python). -/
inductive Handler
  | dfl
  | ours
  | user (n : Nat)
deriving DecidableEq, Repr

/-- `install_sigterm_handler` (context.py:214-223): the new handler and the result. -/
def install (h : Handler) : Handler × Bool :=
  if h = .dfl then (.ours, true) else (h, false)

/-- `uninstall_sigterm_handler` (context.py:226-231): the new handler and the result. -/
def uninstall (force : Bool) (h : Handler) : Handler × Bool :=
  if force = true ∨ h = .ours then (.dfl, true) else (h, false)

/-- What can happen to the handler. -/
inductive Op
  /-- `install_sigterm_handler()`; `main` says whether on the main thread: elsewhere `signal.signal` raises ValueError -/
  | install (main : Bool)
  /-- `uninstall_sigterm_handler(force)` -/
  | uninstall (force main : Bool)
  /-- `enable_async(update_sigterm=...)` (context.py:106-107) -/
  | enable (updateSigterm main : Bool)
  /-- `disable_async(update_sigterm=...)` (context.py:133-134) -/
  | disable (updateSigterm main : Bool)
  /-- the user calls `signal.signal(SIGTERM, h)` -/
  | set (h : Handler)
deriving DecidableEq, Repr

/-- One of them; `signal.signal` off the main thread changes nothing. -/
def step (h : Handler) : Op → Handler
  | .install main => if main then (install h).1 else h
  | .uninstall force main => if main then (uninstall force h).1 else h
  | .enable b main => if b && main then (install h).1 else h
  | .disable b main => if b && main then (uninstall false h).1 else h
  | .set h' => h'

def run (h : Handler) (ops : List Op) : Handler := ops.foldl step h

end Verif.Signal
