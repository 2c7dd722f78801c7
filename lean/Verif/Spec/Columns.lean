import Verif.Spec.Shown
/-!
# What templates with columns should show

A column is written after the name of a field: `{level_name:<8}`, `{action_id:06d}`, `{duration_ms:>10.3f}`; or only how much is to
be shown: `{event_message:.80}`, `{duration_s:.2f}`.
-/
namespace Verif.Py

open Verif.Fields (Field)

/-- Where the text of a column stands. -/
inductive Side
  | left
  | right
  | middle
deriving DecidableEq, Repr

def Side.sign : Side → Char
  | .left => '<'
  | .right => '>'
  | .middle => '^'

/-- A column: where its text stands and what it is filled with, as far as said, and how wide it is at least. -/
structure Column where
  style : Option (Option Char × Side)
  width : Nat
deriving DecidableEq, Repr

def Column.written (c : Column) : List Char :=
  (match c.style with | none => [] | some (f, s) => f.toList ++ [s.sign]) ++ Tmpl.dec c.width

def Column.fill (c : Column) : Char :=
  match c.style with
  | some (some f, _) => f
  | _ => ' '

def Column.side (c : Column) (dflt : Side) : Side :=
  match c.style with
  | some (_, s) => s
  | none => dflt

/-- Text in a column; in the middle, an odd character of filling goes to the right. -/
def Column.place (c : Column) (dflt : Side) (s : List Char) : List Char :=
  let free := c.width - s.length
  match c.side dflt with
  | .left => s ++ List.replicate free c.fill
  | .right => List.replicate free c.fill ++ s
  | .middle => List.replicate (free / 2) c.fill ++ s ++ List.replicate ((free + 1) / 2) c.fill

/-- What may be said of a field in a template: a column, for text, for the first `k` characters of text, for whole numbers,
for numbers filled with zeros, or for numbers with `k` digits after the point; or no column, but the first `k` characters of text
(written with or without an `s`), or `k` digits after the point. -/
inductive Cell
  | plain (c : Column)
  | text (c : Column)
  | cut (c : Column) (k : Nat)
  | count (c : Column)
  | zeros (width : Nat)
  | fixed (c : Column) (k : Nat)
  | first (k : Nat)
  | firstText (k : Nat)
  | digits (k : Nat)
deriving DecidableEq, Repr

def Cell.written : Cell → List Char
  | .plain c => c.written
  | .text c => c.written ++ ['s']
  | .cut c k => c.written ++ '.' :: (Tmpl.dec k ++ ['s'])
  | .count c => c.written ++ ['d']
  | .zeros w => '0' :: (Tmpl.dec w ++ ['d'])
  | .fixed c k => c.written ++ '.' :: (Tmpl.dec k ++ ['f'])
  | .first k => '.' :: Tmpl.dec k
  | .firstText k => '.' :: (Tmpl.dec k ++ ['s'])
  | .digits k => '.' :: (Tmpl.dec k ++ ['f'])

def Column.Ok (c : Column) : Prop := 0 < c.width ∧ c.fill ≠ '{' ∧ c.fill ≠ '}'

def Cell.Ok : Cell → Prop
  | .plain c | .text c | .cut c _ | .count c => c.Ok
  | .zeros w => 0 < w
  | .fixed c k => c.Ok ∧ 0 < k
  | .first _ | .firstText _ => True
  | .digits k => 0 < k

/-- What a field tells: text, a whole number, or a time. -/
inductive Told
  | text (s : List Char)
  | count (n : Int)
  | real (x : ℚ)

/-- What field tells about event `e` in state `w`; `none` if it has nothing to tell.  A list has no notation in Python 3. -/
def tells (P : Foreign) (F : Facts) (w : World) (e : Event) : Field → Option Told
  | .loggerId => some (.count e.logger)
  | .actionId => some (.count e.act)
  | .levelNumber => (w.acts e.act).map fun x => .count x.level
  | .lineNumber => some (.count (F.lineno e.act))
  | .processId => some (.count F.pid)
  | .parentDepth => some (.count (parentDepth w.par e.act))
  | .beginTimestamp => (w.beginOf e.act).map fun b => .real (secs b.etime)
  | .endTimestamp => (w.endOf e.act).map fun d => .real (secs d.etime)
  | .durationS => some (.real (secs (lasted w e.act)))
  | .durationMs => some (.real (secs (lasted w e.act) * 1000))
  | .durationUs => some (.real (secs (lasted w e.act) * 1000000))
  | .importDeltaS => some (.real (secs (e.etime - F.names.importTime)))
  | .importDeltaMs => some (.real (secs (e.etime - F.names.importTime) * 1000))
  | .durationAuto => some (.text (chars (Dec.durationAuto (secs (lasted w e.act)))))
  | .excTbList => if P.v3 then none else (excOf w e.act).map fun _ => .text (P.str .seq)
  | f => (content P F w e f).map .text

/-- What is told, in a cell; `none` if it cannot be shown there: text is no number, and a time is no whole number. -/
def Cell.shows : Cell → Told → Option (List Char)
  | .plain c, .text s | .text c, .text s => some (c.place .left s)
  | .cut c k, .text s => some (c.place .left (s.take k))
  | .plain c, .count n | .count c, .count n => some (c.place .right (decimal n))
  | .zeros w, .count n =>
    some ((if n < 0 then ['-'] else []) ++ List.replicate (w - (decimal n).length) '0' ++ Tmpl.dec n.natAbs)
  | .fixed c k, .count n => some (c.place .right (chars (Dec.fixed k (n : ℚ))))
  | .fixed c k, .real x => some (c.place .right (chars (Dec.fixed k x)))
  | .first k, .text s | .firstText k, .text s => some (s.take k)
  | .digits k, .count n => some (chars (Dec.fixed k (n : ℚ)))
  | .digits k, .real x => some (chars (Dec.fixed k x))
  | _, _ => none

/-- A piece of a template: text, a built-in field, or a built-in field with a cell. -/
inductive Slot
  | bit (b : Bit)
  | cell (f : Field) (c : Cell)

def Slot.part : Slot → Tmpl.Part
  | .bit b => b.part
  | .cell f c => .name (nameOf f).toList none c.written

/-- What a piece shows: what is told, in its cell, and all that in quotes if it is free text; or the piece as it is written. -/
def Slot.shows (P : Foreign) (F : Facts) (w : World) (e : Event) : Slot → String
  | .bit b => b.shows P F w e
  | .cell f c =>
    match (tells P F w e f).bind c.shows with
    | some s => if free f then inQuotes s else String.ofList s
    | none => "{" ++ nameOf f ++ ":" ++ String.ofList c.written ++ "}"

/-- The fields with times. -/
def timed : Field → Bool
  | .beginTimestamp | .endTimestamp | .durationS | .durationMs | .durationUs | .importDeltaS | .importDeltaMs => true
  | _ => false

/-- Pieces under names the action has no data for (C38), with proper cells; cells for times say how to show them, and the list of
traceback lines has a cell in Python 3 (C120). -/
def Slot.Ok (P : Foreign) (w : World) (e : Event) : Slot → Prop
  | .bit (.lit _) => True
  | .bit (.field f) => w.dataOf e.act (nameOf f) = none ∧ (P.v3 = true → f ≠ .excTbList)
  | .cell f c => w.dataOf e.act (nameOf f) = none ∧ c.Ok ∧ (timed f = true → (∀ k, c ≠ .plain k) ∧ ∀ k, c ≠ .first k)

/-- How wide a piece is when what it shows fits in. -/
def Slot.width : Slot → Nat
  | .bit (.lit s) => s.length
  | .bit (.field _) => 0
  | .cell _ (.plain c) | .cell _ (.text c) | .cell _ (.cut c _) | .cell _ (.count c) | .cell _ (.fixed c _) => c.width
  | .cell _ (.zeros w) => w
  | .cell _ (.first _) | .cell _ (.firstText _) | .cell _ (.digits _) => 0

/-- A piece with something to show that fits into its column and is not quoted. -/
def Slot.Fits (P : Foreign) (F : Facts) (w : World) (e : Event) : Slot → Prop
  | .bit (.lit _) => True
  | .bit (.field _) => False
  | .cell f c => free f = false ∧ ∃ t s, tells P F w e f = some t ∧ c.shows t = some s ∧
      match t, c with
      | _, .first _ | _, .firstText _ | _, .digits _ => False
      | .text s, .cut _ k => min s.length k ≤ (Slot.cell f c).width
      | .text s, _ => s.length ≤ (Slot.cell f c).width
      | .count n, .fixed _ k => (Dec.fixed k (n : ℚ)).length ≤ (Slot.cell f c).width
      | .count n, _ => (decimal n).length ≤ (Slot.cell f c).width
      | .real x, .fixed _ k => (Dec.fixed k x).length ≤ (Slot.cell f c).width
      | .real _, _ => True

end Verif.Py
