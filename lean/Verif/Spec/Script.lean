import Verif.Model.Prog
/-!
# Scripts and their transcripts

A script is a sequential application written the documented way on one logger: with blocks around statements that warn, comment,
set data, say how the action ended, raise and catch.  `compile` makes it a program of `Model/Prog.lean`; `lines` says what its log
should be, without actions, loggers, sinks or clocks.
-/
namespace Verif

/-- A script.  `warn`, `set` and `finish` are calls on the action of the innermost block around them (on none outside). -/
inductive Script
  | skip
  | seq (p q : Script)
  | raise (e : Exc)
  /-- `try: p` / `except BaseException: q` -/
  | catch (p q : Script)
  /-- `act.warn(m)` -/
  | warn (m : String)
  /-- `act[k] = v` -/
  | set (k : String) (v : Val)
  /-- `act.success(m)`, `act.failure(m)` -/
  | finish (good : Bool) (m : Option String)
  /-- `log.comment(m)` -/
  | comment (m : String)
  /-- `with log.action(level, name, **data) as act: body`; with `reraise=False` if `swallow` -/
  | block (level : Int) (name : String) (data : Dict) (swallow : Bool) (body : Script)

/-- The keywords a block's action is made with are data. -/
def Script.Ok : Script → Prop
  | .seq p q => p.Ok ∧ q.Ok
  | .catch p q => p.Ok ∧ q.Ok
  | .block _ _ data _ p => (∀ kv ∈ data, kv.1 ≠ "reraise" ∧ kv.1 ≠ "parent_action") ∧ p.Ok
  | _ => True

/-- A program that ends with this outcome. -/
def Prog.leave : Option Exc → Prog
  | none => .done
  | some e => .raise e

/-- The script as a program: `l` is its logger, `c` the action of the block around it, `k` what comes after. -/
def Script.compile (l : LogId) : Script → Option ActId → (Option Exc → Prog) → Prog
  | .skip, _, k => k none
  | .seq p q, c, k => p.compile l c fun x => match x with | some e => k (some e) | none => q.compile l c k
  | .raise e, _, k => k (some e)
  | .catch p q, c, k => p.compile l c fun x => match x with | some _ => q.compile l c k | none => k none
  | .warn _, none, k => k none
  | .warn m, some a, k => .call (.warn a m [] []) fun _ r => k r.exc?
  | .set _ _, none, k => k none
  | .set key v, some a, k => .call (.setItem a key v) fun _ r => k r.exc?
  | .finish _ _, none, k => k none
  | .finish good m, some a, k =>
    .call (if good then .success a m [] [] else .failure a m [] []) fun _ r => k r.exc?
  | .comment m, _, k => .call (.comment l m [] []) fun _ r => k r.exc?
  | .block level name data swallow p, _, k =>
    .call (.newAction l level name (if swallow then ("reraise", .bool false) :: data else data)) fun _ r =>
      match r with
      | .newAct a => .block a (fun _ => p.compile l (some a) Prog.leave) fun _ x => k x
      | _ => k none

/-- A line of a log: what happened, how, in which action, inside which action, and the message template. -/
structure Line where
  kind : Kind
  status : Status
  name : String
  inside : Option String
  msg : String
deriving DecidableEq, Repr

/-- What matters of the block around a statement: its name, that of the block around it, whether the action has data, and what
was said last of how it ended. -/
structure Blk where
  name : String
  inside : Option String
  full : Bool
  said : Option (Status × String)
deriving DecidableEq, Repr

/-- The default message of an action that ended well or badly. -/
def defaultEnd (b : Blk) (good : Bool) : String :=
  b.name ++ (if good then " succeeded" else " failed") ++ (if b.full then " - ({data_map_repr})" else "")

/-- The transcript of a script in the block `b`: its lines, the block afterwards, the exception it ends with.  `text e name full`
is the message for an exception. -/
def Script.lines (text : Exc → String → Bool → String) : Script → Option Blk → List Line × Option Blk × Option Exc
  | .skip, b => ([], b, none)
  | .raise e, b => ([], b, some e)
  | .seq p q, b =>
    match p.lines text b with
    | (ls, b', some e) => (ls, b', some e)
    | (ls, b', none) => (ls ++ (q.lines text b').1, (q.lines text b').2)
  | .catch p q, b =>
    match p.lines text b with
    | (ls, b', none) => (ls, b', none)
    | (ls, b', some _) => (ls ++ (q.lines text b').1, (q.lines text b').2)
  | .warn m, b => (b.toList.map fun b => ⟨.warn, .warning, b.name, b.inside, m⟩, b, none)
  | .set _ _, b => ([], b.map fun b => { b with full := true }, none)
  | .finish good m, b =>
    ([], b.map fun b => { b with said := some (if good then .success else .failure,
      match m with | some m => if m = "" then defaultEnd b good else m | none => defaultEnd b good) }, none)
  | .comment m, b => ([⟨.comment, .comment, "_comment", b.map Blk.name, m⟩], b, none)
  | .block _ name data swallow p, b =>
    match p.lines text (some ⟨name, b.map Blk.name, !data.isEmpty, none⟩) with
    | (ls, b', x) =>
      let c := b'.getD ⟨name, none, false, none⟩
      let (st, msg) : Status × String :=
        match x, c.said with
        | some e, _ => (.exception, text e name c.full)
        | none, some s => s
        | none, none => (.success, defaultEnd c true)
      (⟨.begin, .begin, name, b.map Blk.name, name ++ " beginning"⟩ :: ls ++ [⟨.end_, st, name, b.map Blk.name, msg⟩], b,
        if swallow then none else x)

/-- What an event says, in a state: the names of its action and of that action's parent, its status and message. -/
def viewEv (w : World) (p : Kind × Event) : Option Line :=
  match w.acts p.2.act with
  | none => none
  | some x =>
    match x.parent with
    | none => some ⟨p.1, p.2.status, x.name, none, p.2.msg⟩
    | some a => (w.acts a).map fun y => ⟨p.1, p.2.status, x.name, some y.name, p.2.msg⟩

/-- The message for an exception, where it can be built. -/
def Env.text (env : Env) (e : Exc) (name : String) (full : Bool) : String :=
  match env.excText (some e) name full with
  | .ok s => s
  | .error _ => ""

end Verif
