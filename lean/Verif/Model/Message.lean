import Verif.Model.Sensible
/-!
# `Event.message` (`lithoxyl/action.py`) and format-string parsing

`SensibleMessageFormatter` parses its template with `boltons.formatutils.tokenize_format_str`, which numbers anonymous fields
and then uses the standard library's `string.Formatter().parse`.  Both are modelled here, character by character.
-/
namespace Verif.Msg

open Verif.Sens

/-- A parsed template: literal text, or a field with its name, format spec and conversion. -/
inductive Piece
  | lit (s : List Char)
  | field (name spec : List Char) (conv : Option Char)
deriving DecidableEq, Repr

/-- `infer_positional_format_args` (boltons, called at sensible.py:248 through `tokenize_format_str`): doubled braces are
left alone; `{` before one of `: ! . [ }` gets the next number. -/
def infer (num : Nat → List Char) : Nat → List Char → List Char
  | _, [] => []
  | _, [c] => [c]
  | n, c :: d :: rest =>
    if c = '{' ∧ d = '{' then '{' :: '{' :: infer num n rest
    else if c = '}' ∧ d = '}' then '}' :: '}' :: infer num n rest
    else if c = '{' ∧ (d = ':' ∨ d = '!' ∨ d = '.' ∨ d = '[' ∨ d = '}') then
      '{' :: (num n ++ d :: infer num (n + 1) rest)
    else c :: infer num n (d :: rest)

/-- Where the standard parser is between two characters. -/
inductive PState
  | lit (acc : List Char)                 -- in literal text
  | opened (acc : List Char)              -- just after a `{`
  | closed (acc : List Char)              -- just after a `}` in literal text
  | name (acc : List Char)                -- in a field name
  | bracket (acc : List Char)             -- in a field name, inside `[ ]`
  | conv0 (nm : List Char)                -- just after `!`
  | conv1 (nm : List Char) (c : Char)     -- after the conversion character
  | spec (nm acc : List Char) (conv : Option Char) (depth : Nat)  -- in the format spec

/-- Literal text is only recorded if there is any (`if lit:` in `tokenize_format_str`). -/
def emitLit (s : List Char) : List Piece := if s = [] then [] else [.lit s]

/-- One character of a field name. -/
def nameChar (acc : List Char) (c : Char) : Option (List Piece × PState) :=
  if c = '{' then none
  else if c = '[' then some ([], .bracket (acc ++ [c]))
  else if c = '}' then some ([.field acc [] none], .lit [])
  else if c = ':' then some ([], .spec acc [] none 1)
  else if c = '!' then some ([], .conv0 acc)
  else some ([], .name (acc ++ [c]))

/-- One character for the parser; `none` is a ValueError. -/
def pstep : PState → Char → Option (List Piece × PState)
  | .lit acc, c =>
    if c = '{' then some ([], .opened acc)
    else if c = '}' then some ([], .closed acc)
    else some ([], .lit (acc ++ [c]))
  | .closed acc, c => if c = '}' then some (emitLit (acc ++ ['}']), .lit []) else none
  | .opened acc, c =>
    if c = '{' then some (emitLit (acc ++ ['{']), .lit [])
    else (nameChar [] c).map fun r => (emitLit acc ++ r.1, r.2)
  | .name acc, c => nameChar acc c
  | .bracket acc, c => some ([], if c = ']' then .name (acc ++ [c]) else .bracket (acc ++ [c]))
  | .conv0 nm, c => some ([], .conv1 nm c)
  | .conv1 nm conv, c =>
    if c = '}' then some ([.field nm [] (some conv)], .lit [])
    else if c = ':' then some ([], .spec nm [] (some conv) 1)
    else none
  | .spec nm acc conv depth, c =>
    if c = '{' then some ([], .spec nm (acc ++ [c]) conv (depth + 1))
    else if c = '}' then
      if depth ≤ 1 then some ([.field nm acc conv], .lit []) else some ([], .spec nm (acc ++ [c]) conv (depth - 1))
    else some ([], .spec nm (acc ++ [c]) conv depth)

/-- `string.Formatter().parse` run to the end (as `tokenize_format_str` does); `none` is a ValueError. -/
def parse : PState → List Char → Option (List Piece)
  | .lit acc, [] => some (emitLit acc)
  | _, [] => none
  | st, c :: cs =>
    match pstep st c with
    | none => none
    | some (out, st') => (parse st' cs).map (out ++ ·)

/-- `tokenize_format_str(fstr)` (sensible.py:248). -/
def tokenize (num : Nat → List Char) (s : List Char) : Option (List Piece) := parse (.lit []) (infer num 0 s)

/-- The formatter's token for a piece: `mkField` is the rest of `SensibleMessageFormatter.__init__` (sensible.py:249-268)
with `quoter=False`. -/
def toTok {V : Type} (mkField : List Char → List Char → Option Char → Tok V) : Piece → Tok V
  | .lit s => .lit (String.ofList s)
  | .field nm spec conv => mkField nm spec conv

/-- What reading a message depends on besides the event itself: the data map now, the built-in getters now. -/
structure Now (V : Type) where
  dataMap : String → Option V
  getters : String → Option (Res V)

/-- An event's message attributes: `raw_message`, `fargs` and the cache `_message` (action.py:299, 308-321). -/
structure Ev (V : Type) where
  raw : Option String
  fargs : List V
  cache : Option String := none

/-- What the formatter is made of: numbering, field construction, Python's None. -/
structure Fmt (V : Type) where
  num : Nat → List Char
  mkField : List Char → List Char → Option Char → Tok V
  nothing : V

/-- `SensibleMessageFormatter(raw, quoter=False).format(event, *fargs)` (action.py:318-319); `none` is an exception. -/
def render {V : Type} (f : Fmt V) (raw : String) (fargs : List V) (now : Now V) : Option String :=
  match tokenize f.num raw.toList with
  | none => none
  | some ps => format (ps.map (toTok f.mkField)) f.nothing (fun _ => none) now.dataMap now.getters fargs

/-- Reading `Event.message` (action.py:307-321): the result (`none` when it raises), and the event after it. -/
def message {V : Type} (f : Fmt V) (e : Ev V) (now : Now V) : Option String × Ev V :=
  let compute : Option String × Ev V :=
    match e.raw with
    | none => (some "", { e with cache := some "" })
    | some raw =>
      if '{' ∈ raw.toList then
        match render f raw e.fargs now with
        | none => (none, e)
        | some m => (some m, { e with cache := some m })
      else (some raw, { e with cache := some raw })
  match e.cache with
  | some m => if m = "" then compute else (some m, e)
  | none => compute

/-- The results of a series of reads, each with the data map and the getters of its time. -/
def reads {V : Type} (f : Fmt V) : Ev V → List (Now V) → List (Option String)
  | _, [] => []
  | e, now :: rest => (message f e now).1 :: reads f (message f e now).2 rest

/-! ## Default messages -/

/-- The message of an event that was given none (action.py:143-144, 163-167, 176-180): the action's name, and whether the
data map is empty. -/
inductive Default | begin | success | failure
deriving DecidableEq, Repr

def defaultMessage (d : Default) (name : String) (hasData : Bool) : String :=
  match d with
  | .begin => name ++ " beginning"
  | .success => if hasData then name ++ " succeeded - ({data_map_repr})" else name ++ " succeeded"
  | .failure => if hasData then name ++ " failed - ({data_map_repr})" else name ++ " failed"

end Verif.Msg
