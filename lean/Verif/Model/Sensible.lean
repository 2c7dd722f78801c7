import Verif.Model.Level
/-!
# `lithoxyl/sensible.py`: filter, sink, formatter

The template tokenizer and `str.format` (from boltons and Python) are parameters, so are the getters.
-/
namespace Verif.Sens

open Verif.Lvl

/-! ## SensibleFilter -/

/-- The events a filter sees, an end event by its status. -/
inductive Ev
  | begin
  | warn
  | success
  | failure
  | exception
  | comment
deriving DecidableEq, Repr

/-- A level argument: None or something to look up. -/
abbrev LevelArg := Option Key

/-- Python truth of a level argument: None, `''` and `0` are false; a `Level` has no `__bool__`. -/
def truthy : LevelArg → Bool
  | none => false
  | some (.str s) => s ≠ ""
  | some (.num n) => n ≠ 0
  | some _ => true

/-- `get_level(arg or MAX_LEVEL)` (sensible.py:94-101). -/
def argLevel (t : Table) (a : LevelArg) : Level :=
  match a with
  | some k => if truthy (some k) then getLevel t k else getLevel t (.level MAX_LEVEL)
  | none => getLevel t (.level MAX_LEVEL)

/-- The arguments of `SensibleFilter` (sensible.py:91-103): outer `none` means the keyword is not given. -/
structure FilterArgs where
  base : LevelArg := none
  begin : Option LevelArg := none
  success : Option LevelArg := none
  failure : Option LevelArg := none
  exception : Option LevelArg := none
  warn : Option LevelArg := none
  blockComments : Bool := false

structure Filter where
  begin : Level
  success : Level
  failure : Level
  exception : Level
  warn : Level
  blockComments : Bool
deriving DecidableEq, Repr

/-- `SensibleFilter.__init__` (sensible.py:91-109), apart from the verbose check. -/
def mkFilter (t : Table) (a : FilterArgs) : Filter :=
  let base := argLevel t a.base
  let lev := fun (x : Option LevelArg) => argLevel t (x.getD (some (.level base)))
  { begin := lev a.begin
    success := lev a.success
    failure := lev a.failure
    exception := lev a.exception
    warn := lev a.warn
    blockComments := a.blockComments }

/-- `on_begin`, `on_end`, `on_warn`, `on_comment` (sensible.py:111-139).  `verbose` is what the verbose check answers: the
given function, or whether the action's data map has a true value under the verbose flag (sensible.py:103-106). -/
def passes (f : Filter) (level : Level) (verbose : Bool) : Ev → Bool
  | .begin => if ge level f.begin then true else if verbose then true else false
  | .warn => if ge level f.warn then true else if verbose then true else false
  | .success => let ret := ge level f.success; if !ret then (if verbose then true else ret) else ret
  | .failure => let ret := ge level f.failure; if !ret then (if verbose then true else ret) else ret
  | .exception => let ret := ge level f.exception; if !ret then (if verbose then true else ret) else ret
  | .comment => !f.blockComments

/-! ## SensibleSink -/

/-- `EVENTS` (common.py:5). -/
def EVENTS : List String := ["begin", "warn", "end", "exception", "comment"]

/-- The kinds of event a logger hands to hooks. -/
inductive Kind
  | begin
  | warn
  | end'
  | comment
deriving DecidableEq, Repr

/-- The name a kind has in `on`. -/
def Kind.name : Kind → String
  | .begin => "begin"
  | .warn => "warn"
  | .end' => "end"
  | .comment => "comment"

/-- A sink: the hooks it has, its filters, formatter and emitter.  `none` is a raised exception. -/
structure Sink (E : Type) where
  hooks : List Kind
  filters : List (E → Option Bool)
  formatter : E → Option String

/-- `SensibleSink.__init__` (sensible.py:35-57); `none` is ValueError.  `on` as a single string is the list of it. -/
def mkSink {E : Type} (on : List String) (filters : List (E → Option Bool)) (formatter : E → Option String) :
    Option (Sink E) :=
  if on.any (fun e => !EVENTS.contains e) then none
  else some
    { hooks := [Kind.begin, .warn, .end', .comment].filter fun k => on.contains k.name
      filters, formatter }

/-- `all([f(event) for f in filters])` (sensible.py:60, 66, 72, 78): every filter is asked; `none` if one raises. -/
def allPass {E : Type} (e : E) : List (E → Option Bool) → Option Bool
  | [] => some true
  | f :: fs =>
    match f e with
    | none => none
    | some b =>
      match allPass e fs with
      | none => none
      | some c => some (b && c)

/-- `_on_begin`, `_on_warn`, `_on_end`, `_on_comment` (sensible.py:59-82), preceded by the logger's test that the hook
exists: the entries handed to the emitter. -/
def handle {E : Type} (s : Sink E) (k : Kind) (e : E) : List (Kind × E × String) :=
  if k ∈ s.hooks then
    if s.filters.isEmpty = false ∧ allPass e s.filters ≠ some true then []
    else
      match s.formatter e with
      | none => []
      | some entry => [(k, e, entry)]
  else []

/-- What the emitter gets over a history of events. -/
def emitted {E : Type} (s : Sink E) (evs : List (Kind × E)) : List (Kind × E × String) :=
  evs.flatMap fun x => handle s x.1 x.2

/-! ## GetterDict and the message formatter -/

/-- The end of a Python expression. -/
inductive Res (α : Type)
  | ok (a : α)
  | keyError
  | exc           -- another Exception
  | base          -- a BaseException that is not an Exception
deriving DecidableEq, Repr

/-- `GetterDict` lookup (sensible.py:142-161): keyword arguments, then the event's mapping (action.py:301-302, 273-274),
then the getters; a KeyError of a getter reads as None (`nothing`). -/
def lookup {V : Type} (nothing : V) (kwargs dataMap : String → Option V) (getters : String → Option (Res V))
    (key : String) : Res V :=
  match kwargs key with
  | some v => .ok v
  | none =>
    match dataMap key with
    | some v => .ok v
    | none =>
      match getters key with
      | none => .ok nothing
      | some .keyError => .ok nothing
      | some r => r

/-- One token of a template: literal text, or a field (sensible.py:249-265): its name, whether it is positional, its
default text and its quoter. -/
inductive Tok (V : Type)
  | lit (s : String)
  | field (name : String) (positional : Bool) (fmt : V → Res String) (fmtPos : List V → Res String)
      (default : String) (quoter : Option (String → Res String))

/-- One field rendered (sensible.py:290-298), before the `except` clause. -/
def renderField {V : Type} (look : String → Res V) (args : List V) (name : String) (positional : Bool)
    (fmt : V → Res String) (fmtPos : List V → Res String) (quoter : Option (String → Res String)) : Res String :=
  let seg : Res String :=
    if positional then fmtPos args
    else
      match look name with
      | .ok v => fmt v
      | .keyError => .keyError
      | .exc => .exc
      | .base => .base
  match seg with
  | .ok s =>
    match quoter with
    | none => .ok s
    | some q => q s
  | r => r

/-- The loop of `SensibleMessageFormatter.format` (sensible.py:281-302); `none` is a BaseException getting out. -/
def formatLoop {V : Type} (look : String → Res V) (args : List V) : List (Tok V) → String → Option String
  | [], acc => some acc
  | .lit s :: ts, acc => formatLoop look args ts (acc ++ s)
  | .field name pos fmt fmtPos default quoter :: ts, acc =>
    match renderField look args name pos fmt fmtPos quoter with
    | .ok seg => formatLoop look args ts (acc ++ seg)
    | .keyError => formatLoop look args ts (acc ++ default)
    | .exc => formatLoop look args ts (acc ++ default)
    | .base => none

/-- `SensibleMessageFormatter.format` (sensible.py:270-302). -/
def format {V : Type} (tokens : List (Tok V)) (nothing : V) (kwargs dataMap : String → Option V)
    (getters : String → Option (Res V)) (args : List V) : Option String :=
  formatLoop (lookup nothing kwargs dataMap getters) args tokens ""

/-! ## SensibleFormatter -/

/-- A template argument: not given, None, or text. -/
inductive TemplateArg
  | absent
  | none'
  | text (s : String)
deriving DecidableEq, Repr

/-- `to_unicode` (common.py:8-9) of a template argument: `str(None)` is `'None'`. -/
def toUnicode : Option String → String
  | none => "None"
  | some s => s

/-- The template `SensibleFormatter.__init__` (sensible.py:165-178) gives an event: its keyword, else the base; a false
one is the empty template. -/
def template (base : Option String) (kw : TemplateArg) : String :=
  match kw with
  | .absent => toUnicode base
  | .none' => ""
  | .text s => s

end Verif.Sens
