import Verif.Props.Shown
import Verif.Spec.Columns
/-!
# Columns in templates (C138)
-/
namespace Verif.Py

open Verif.Fields (Field)
open Verif.Tmpl (dec Part write)

variable {P : Foreign} {F : Facts} {w : World} {e : Event}

/-! ## Format specs of cells -/

theorem takeNum_dec (n : Nat) (r : List Char) (hr : ∀ c ∈ r.head?, c.isDigit = false) :
    takeNum (dec n ++ r) = (some n, r) := by
  have h1 : (dec n ++ r).takeWhile Char.isDigit = dec n := by
    rw [List.takeWhile_append_of_pos (Tmpl.dec_digits n)]
    cases r with
    | nil => simp
    | cons c r => rw [List.takeWhile_cons_of_neg (by simpa using hr c rfl), List.append_nil]
  have h2 : (dec n ++ r).dropWhile Char.isDigit = r := by
    rw [List.dropWhile_append_of_pos (Tmpl.dec_digits n)]
    cases r with
    | nil => simp
    | cons c r => rw [List.dropWhile_cons_of_neg (by simpa using hr c rfl)]
  obtain ⟨c, s, hc⟩ := List.exists_cons_of_ne_nil (Tmpl.dec_ne_nil n)
  rw [takeNum, h1, h2]
  have h3 := Tmpl.readDec_dec n
  rw [hc] at h3 ⊢
  simp only [h3]

theorem dec_head (n : Nat) (h : 0 < n) : ∃ c r, dec n = c :: r ∧ c.isDigit = true ∧ c ≠ '0' := by
  induction n using Nat.strongRecOn with
  | ind n ih =>
    rw [dec]
    split
    · rename_i h10
      refine ⟨_, _, rfl, ?_⟩
      have : n = 1 ∨ n = 2 ∨ n = 3 ∨ n = 4 ∨ n = 5 ∨ n = 6 ∨ n = 7 ∨ n = 8 ∨ n = 9 := by omega
      rcases this with rfl | rfl | rfl | rfl | rfl | rfl | rfl | rfl | rfl <;> decide
    · obtain ⟨c, r, hc, h1, h2⟩ := ih (n / 10) (by omega) (by omega)
      exact ⟨c, r ++ [Tmpl.digit (n % 10)], by rw [hc]; rfl, h1, h2⟩

theorem isAlign_digit {c : Char} (h : c.isDigit = true) : isAlign c = false := by
  by_contra hc
  simp only [Bool.not_eq_false, isAlign, List.contains_iff_mem] at hc
  rw [show "<>=^".toList = ['<', '>', '=', '^'] from by decide] at hc
  simp only [List.mem_cons, List.not_mem_nil, or_false] at hc
  rcases hc with rfl | rfl | rfl | rfl <;> revert h <;> decide

theorem isAlign_sign (s : Side) : isAlign s.sign = true := by cases s <;> decide

/-- The second half of a spec: after its width. -/
def tail (fill align : Option Char) (zero : Bool) (width : Nat) (s : List Char) : Option Spec :=
  let (comma, s) := takeIf (· = ',') s
  let (dot, s) := takeIf (· = '.') s
  let (prec, s) := if dot.isSome then takeNum s else (none, s)
  if dot.isSome ∧ prec = none then none
  else match s with
    | [] => some ⟨fill, align, none, false, zero, width, comma.isSome, prec, none⟩
    | [t] => some ⟨fill, align, none, false, zero, width, comma.isSome, prec, some t⟩
    | _ => none

theorem sign_digit {c : Char} (h : c.isDigit = true) : "+- ".toList.contains c = false ∧ c ≠ '#' := by
  constructor
  · by_contra hc
    simp only [Bool.not_eq_false, List.contains_iff_mem] at hc
    rw [show "+- ".toList = ['+', '-', ' '] from by decide] at hc
    simp only [List.mem_cons, List.not_mem_nil, or_false] at hc
    rcases hc with rfl | rfl | rfl <;> revert h <;> decide
  · rintro rfl; revert h; decide

/-- The parts of a column's spec. -/
def Column.filler (c : Column) : Option Char := c.style.bind (·.1)
def Column.aligner (c : Column) : Option Char := c.style.map (·.2.sign)

theorem takeAlign_col (c : Column) (hw : 0 < c.width) (r : List Char) (hr : ∀ a ∈ r.head?, isAlign a = false) :
    takeAlign (c.written ++ r) = ((c.filler, c.aligner), dec c.width ++ r) := by
  obtain ⟨d, s, hd, hd1, -⟩ := dec_head c.width hw
  have had := isAlign_digit hd1
  rcases c with ⟨_ | ⟨_ | f, side⟩, width⟩
  · simp only [Column.written, List.nil_append, Column.filler, Column.aligner, Option.bind_none, Option.map_none] at *
    rw [hd, List.cons_append]
    cases hs : s ++ r with
    | nil => simp [takeAlign, had]
    | cons a t =>
      have haa : isAlign a = false := by
        cases s with
        | nil => simp only [List.nil_append] at hs; exact hr a (by simp [hs])
        | cons b s =>
          simp only [List.cons_append, List.cons.injEq] at hs
          refine isAlign_digit (Tmpl.dec_digits width a ?_)
          rw [hd, ← hs.1]; simp
      simp [takeAlign, had, haa]
  · simp only [Column.written, Option.toList_none, List.nil_append, Column.filler, Column.aligner, Option.bind_some, Option.map_some,
      List.cons_append] at *
    rw [hd, List.cons_append]
    simp [takeAlign, had, isAlign_sign]
  · simp only [Column.written, Option.toList_some, Column.filler, Column.aligner, Option.bind_some, Option.map_some,
      List.cons_append, List.nil_append] at *
    simp [takeAlign, isAlign_sign]

theorem parse_col (c : Column) (hw : 0 < c.width) (r : List Char) (hr : ∀ a ∈ r.head?, isAlign a = false ∧ a.isDigit = false) :
    parse (c.written ++ r) = tail c.filler c.aligner false c.width r := by
  obtain ⟨d, s, hd, hd1, hd0⟩ := dec_head c.width hw
  have h2 : ∀ p : Char → Bool, p d = false → takeIf p (dec c.width ++ r) = (none, dec c.width ++ r) := by
    intro p hp; rw [hd, List.cons_append, takeIf, hp]; rfl
  rw [parse, takeAlign_col c hw r fun a ha => (hr a ha).1]
  simp only [h2 _ (sign_digit hd1).1, h2 (fun x => decide (x = '#')) (by simpa using (sign_digit hd1).2),
    h2 (fun x => decide (x = '0')) (by simpa using hd0), takeNum_dec _ _ fun a ha => (hr a ha).2]
  rfl

theorem parse_zeros (n : Nat) (hw : 0 < n) : parse ('0' :: (dec n ++ ['d'])) = some ⟨none, none, none, false, true, n, false, none, some 'd'⟩ := by
  obtain ⟨d, s, hd, hd1, hd0⟩ := dec_head n hw
  have h1 : takeAlign ('0' :: (dec n ++ ['d'])) = ((none, none), '0' :: (dec n ++ ['d'])) := by
    rw [hd, List.cons_append]
    simp [takeAlign, isAlign_digit hd1, show isAlign '0' = false from by decide]
  have h2 : ∀ p : Char → Bool, p '0' = false → takeIf p ('0' :: (dec n ++ ['d'])) = (none, '0' :: (dec n ++ ['d'])) := by
    intro p hp; rw [takeIf, hp]; rfl
  rw [parse, h1]
  simp only [h2 (fun c => "+- ".toList.contains c) (by decide), h2 (fun x => decide (x = '#')) (by decide)]
  simp only [takeIf, decide_true, if_true, takeNum_dec n ['d'] (by simp)]
  simp

theorem parse_plain (c : Column) (hw : 0 < c.width) :
    parse c.written = some ⟨c.filler, c.aligner, none, false, false, c.width, false, none, none⟩ := by
  have := parse_col c hw [] (by simp)
  rw [List.append_nil] at this
  rw [this]
  simp [tail, takeIf]

theorem parse_typed (c : Column) (hw : 0 < c.width) (t : Char) (ht : isAlign t = false ∧ t.isDigit = false ∧ t ≠ ',' ∧ t ≠ '.') :
    parse (c.written ++ [t]) = some ⟨c.filler, c.aligner, none, false, false, c.width, false, none, some t⟩ := by
  rw [parse_col c hw [t] (by simp; exact ⟨ht.1, ht.2.1⟩)]
  simp [tail, takeIf, ht.2.2.1, ht.2.2.2]

theorem parse_fixed (c : Column) (hw : 0 < c.width) (k : Nat) :
    parse (c.written ++ '.' :: (dec k ++ ['f'])) = some ⟨c.filler, c.aligner, none, false, false, c.width, false, some k, some 'f'⟩ := by
  rw [parse_col c hw _ (by simp; decide)]
  simp [tail, takeIf, takeNum_dec k ['f'] (by simp)]

theorem parse_cut (c : Column) (hw : 0 < c.width) (k : Nat) :
    parse (c.written ++ '.' :: (dec k ++ ['s'])) = some ⟨c.filler, c.aligner, none, false, false, c.width, false, some k, some 's'⟩ := by
  rw [parse_col c hw _ (by simp; decide)]
  simp [tail, takeIf, takeNum_dec k ['s'] (by simp)]

theorem parse_bare (k : Nat) (r : List Char) (hr : ∀ a ∈ r.head?, a.isDigit = false) :
    parse ('.' :: (dec k ++ r)) = match r with
      | [] => some ⟨none, none, none, false, false, 0, false, some k, none⟩
      | [t] => some ⟨none, none, none, false, false, 0, false, some k, some t⟩
      | _ => none := by
  obtain ⟨d, s, hd⟩ := List.exists_cons_of_ne_nil (Tmpl.dec_ne_nil k)
  have hd1 : d.isDigit = true := Tmpl.dec_digits k d (by simp [hd])
  have h1 : takeAlign ('.' :: (dec k ++ r)) = ((none, none), '.' :: (dec k ++ r)) := by
    rw [hd, List.cons_append]
    simp [takeAlign, isAlign_digit hd1, show isAlign '.' = false from by decide]
  have h2 : ∀ p : Char → Bool, p '.' = false → takeIf p ('.' :: (dec k ++ r)) = (none, '.' :: (dec k ++ r)) := by
    intro p hp; rw [takeIf, hp]; rfl
  have h3 : takeNum ('.' :: (dec k ++ r)) = (none, '.' :: (dec k ++ r)) := by
    rw [takeNum, List.takeWhile_cons_of_neg (by decide)]
  rw [parse, h1]
  simp only [h2 (fun c => "+- ".toList.contains c) (by decide), h2 (fun x => decide (x = '#')) (by decide),
    h2 (fun x => decide (x = '0')) (by decide), h2 (fun x => decide (x = ',')) (by decide), h3]
  simp only [takeIf, decide_true, if_true, takeNum_dec k r hr, Option.isSome_some]
  rcases r with _ | ⟨t, _ | ⟨u, r⟩⟩ <;> simp

/-! ## Filling up -/

theorem place_pad (c : Column) (dflt : Side) (sign s : List Char) (sp : Spec) (hf : sp.fill = c.filler) (ha : sp.align = c.aligner)
    (hz : sp.zero = false) :
    pad sp.filled (sp.aligned dflt.sign) c.width sign s = c.place dflt (sign ++ s) := by
  have h1 : sp.filled = c.fill := by
    rw [Spec.filled, hf, hz, Column.filler, Column.fill]
    rcases c with ⟨_ | ⟨_ | f, side⟩, width⟩ <;> rfl
  have h2 : sp.aligned dflt.sign = (c.side dflt).sign := by
    rw [Spec.aligned, ha, hz, Column.aligner, Column.side]
    rcases c with ⟨_ | ⟨_ | f, side⟩, width⟩ <;> rfl
  rw [h1, h2, pad, Column.place, ← List.length_append]
  have h3 : ∀ n : Nat, n - n / 2 = (n + 1) / 2 := by intro n; omega
  cases c.side dflt
  · simp [Side.sign]
  · simp [Side.sign]
  · simp [Side.sign, h3]

theorem fmtStr_col (c : Column) (sp : Spec) (hf : sp.fill = c.filler) (ha : sp.align = c.aligner) (hz : sp.zero = false)
    (hw : sp.width = c.width) (hs : sp.sign = none) (h4 : sp.alt = false) (h5 : sp.comma = false)
    (ht : sp.type = none ∨ sp.type = some 's') (s : List Char) :
    fmtStr sp s = .ok (String.ofList (c.place .left (match sp.prec with | some n => s.take n | none => s))) := by
  have h2 : sp.aligned '<' = (c.side .left).sign := by
    rw [Spec.aligned, ha, hz, Column.aligner, Column.side]
    rcases c with ⟨_ | ⟨_ | f, side⟩, width⟩ <;> rfl
  have h3 : sp.aligned '<' ≠ '=' := by rw [h2]; cases c.side .left <;> decide
  rw [fmtStr, if_pos ⟨ht, hs, h4, h5, h3⟩, hw]
  have := place_pad c .left [] (match sp.prec with | some n => s.take n | none => s) sp hf ha hz
  rw [List.nil_append] at this
  rw [← this]; rfl

theorem fmtInt_col (c : Column) (sp : Spec) (hf : sp.fill = c.filler) (ha : sp.align = c.aligner) (hz : sp.zero = false)
    (hw : sp.width = c.width) (hs : sp.sign = none) (h4 : sp.alt = false) (h5 : sp.comma = false) (h6 : sp.prec = none)
    (ht : sp.type = none ∨ sp.type = some 'd') (n : Int) :
    fmtInt P sp n = .ok (String.ofList (c.place .right (decimal n))) := by
  have h : signOf sp (n < 0) = if n < 0 then ['-'] else [] := by
    rw [signOf, hs]; by_cases h : n < 0 <;> simp [h]
  rw [decimal, ← place_pad c .right _ _ sp hf ha hz, ← h, ← hw]
  rcases ht with ht | ht <;> simp [fmtInt, ht, h4, h5, h6, Side.sign]

theorem fmtFlt_col (c : Column) (sp : Spec) (hf : sp.fill = c.filler) (ha : sp.align = c.aligner) (hz : sp.zero = false)
    (hw : sp.width = c.width) (hs : sp.sign = none) (h4 : sp.alt = false) (h5 : sp.comma = false) {k : Nat} (h6 : sp.prec = some k)
    (hk : k ≠ 0) (ht : sp.type = some 'f') (x : ℚ) :
    fmtFlt P sp x = .ok (String.ofList (c.place .right (chars (Dec.fixed k x)))) := by
  have h : signOf sp (x < 0) = if x < 0 then ['-'] else [] := by
    rw [signOf, hs]; by_cases h : x < 0 <;> simp [h]
  rw [← fixed_text k hk, ← place_pad c .right _ _ sp hf ha hz, ← h, ← hw]
  simp [fmtFlt, ht, h4, h5, h6, Side.sign]

/-- What is told, as a Python value. -/
def Told.val : Told → Val
  | .text s => .str s
  | .count n => .int n
  | .real x => .flt x

theorem written_ne (c : Cell) : c.written ≠ [] := by
  have : ∀ k : Column, k.written ≠ [] := by
    intro k h
    rw [Column.written, List.append_eq_nil_iff] at h
    exact Tmpl.dec_ne_nil _ h.2
  cases c <;> simp [Cell.written, this]

/-- What a cell shows of what is told. -/
theorem format_cell (c : Cell) (hc : c.Ok) (t : Told) (hp : ∀ x, t = .real x → (∀ k, c ≠ .plain k) ∧ ∀ k, c ≠ .first k) :
    format P t.val c.written = match c.shows t with | some s => .ok (String.ofList s) | none => .exc := by
  cases c with
  | plain c =>
    rw [Cell.written, format, parse_plain c hc.1]
    cases t with
    | text s => exact fmtStr_col c _ rfl rfl rfl rfl rfl rfl rfl (.inl rfl) s
    | count n => exact fmtInt_col c _ rfl rfl rfl rfl rfl rfl rfl rfl (.inl rfl) n
    | real x => exact absurd rfl ((hp x rfl).1 c)
  | text c =>
    rw [Cell.written, format, parse_typed c hc.1 's' (by decide)]
    cases t with
    | text s => exact fmtStr_col c _ rfl rfl rfl rfl rfl rfl rfl (.inr rfl) s
    | count n => simp [Told.val, fmtInt, Cell.shows]
    | real x => simp [Told.val, fmtFlt, Cell.shows]
  | cut c k =>
    rw [Cell.written, format, parse_cut c hc.1 k]
    cases t with
    | text s => exact fmtStr_col c _ rfl rfl rfl rfl rfl rfl rfl (.inr rfl) s
    | count n => simp [Told.val, fmtInt, Cell.shows]
    | real x => simp [Told.val, fmtFlt, Cell.shows]
  | count c =>
    rw [Cell.written, format, parse_typed c hc.1 'd' (by decide)]
    cases t with
    | text s => simp [Told.val, fmtStr, Cell.shows]
    | count n => exact fmtInt_col c _ rfl rfl rfl rfl rfl rfl rfl rfl (.inr rfl) n
    | real x => simp [Told.val, fmtFlt, Cell.shows]
  | zeros n =>
    rw [Cell.written, format, parse_zeros n hc]
    cases t with
    | text s => simp [Told.val, fmtStr, Cell.shows]
    | count m => by_cases h : m < 0 <;> simp [Told.val, fmtInt, Cell.shows, Spec.aligned, Spec.filled, pad, signOf, h, decimal, Nat.add_comm]
    | real x => simp [Told.val, fmtFlt, Cell.shows]
  | fixed c k =>
    rw [Cell.written, format, parse_fixed c hc.1.1 k]
    have hk : k ≠ 0 := by have := hc.2; omega
    cases t with
    | text s => simp [Told.val, fmtStr, Cell.shows]
    | count n => exact fmtFlt_col c _ rfl rfl rfl rfl rfl rfl rfl rfl hk rfl (n : ℚ)
    | real x =>
      simp only [Told.val]
      rw [if_neg (by simp)]
      exact fmtFlt_col c _ rfl rfl rfl rfl rfl rfl rfl rfl hk rfl x
  | first k =>
    have h := parse_bare k [] (by simp)
    rw [List.append_nil] at h
    rw [Cell.written, format, h]
    cases t with
    | text s => simp [Told.val, fmtStr, Cell.shows, Spec.aligned, pad]
    | count n => simp [Told.val, fmtInt, Cell.shows]
    | real x => exact absurd rfl ((hp x rfl).2 k)
  | firstText k =>
    rw [Cell.written, format, parse_bare k ['s'] (by simp)]
    cases t with
    | text s => simp [Told.val, fmtStr, Cell.shows, Spec.aligned, pad]
    | count n => simp [Told.val, fmtInt, Cell.shows]
    | real x => simp [Told.val, fmtFlt, Cell.shows]
  | digits k =>
    rw [Cell.written, format, parse_bare k ['f'] (by simp)]
    have hk : k ≠ 0 := by have : 0 < k := hc; omega
    cases t with
    | text s => simp [Told.val, fmtStr, Cell.shows]
    | count n =>
      have h := fixed_text k hk (n : ℚ)
      simp only [Told.val, fmtInt, Cell.shows]
      rw [← h]
      by_cases h0 : n < 0 <;> simp [fmtFlt, Spec.aligned, pad, signOf, h0]
    | real x =>
      have h := fixed_text k hk x
      simp only [Told.val, Cell.shows]
      rw [if_neg (by simp), ← h]
      by_cases h0 : x < 0 <;> simp [fmtFlt, Spec.aligned, pad, signOf, h0]

/-! ## Fields in cells -/

/-- What a field tells is what its getter returns. -/
theorem tells_of {x : Act} (hx : w.acts e.act = some x) (hl : e.logger = x.logger) {f : Field} (hf : f ≠ .excTbList) :
    pyRes F w f (Fields.read F.names w e f) = match tells P F w e f with | some t => .ok t.val | none => .exc := by
  have hb : w.beginOf e.act = x.beginEv := by simp [World.beginOf, hx]
  have hd : w.endOf e.act = x.endEv := by simp [World.endOf, hx]
  have he : excOf w e.act = x.excEvs.getLast? := by simp [excOf, hx]
  have hdur : lasted w e.act = x.duration := by
    simp only [lasted, hb, hd, Act.duration]
    cases x.beginEv <;> cases x.endEv <;> rfl
  rw [Fields.read, hx]
  cases f <;> simp only [Fields.getter, pyRes, pyOf, content, tells, hx, hb, hd, he, hdur, hl, Option.map_some, Option.bind_some, Told.val]
  case excTbList => exact absurd rfl hf
  case statusChar =>
    cases hk : e.kind <;> simp only [Fields.statusChar, hk]
    case end_ => rw [← statusChar_eq hk]; simp only [Fields.statusChar, hk, Option.map_some]
    all_goals simp
  case levelChar => cases (F.names.upper (F.names.level x.level)).toList <;> simp
  case dataMap => cases F.names.jsonOk x.data <;> simp
  case durationMs => norm_num
  case durationUs => norm_num
  all_goals first
    | (cases x.beginEv <;> simp [Fields.attr]; done)
    | (cases x.endEv <;> simp [Fields.attr]; done)
    | (cases x.excEvs.getLast? <;> simp [Fields.attr]; done)
    | (simp; done)

theorem tells_timed {f : Field} {x : ℚ} (h : tells P F w e f = some (.real x)) : timed f = true := by
  cases f <;> simp [tells, timed] at h ⊢

/-- A field in a cell: the value a getter returns, formatted. -/
theorem text_cell {x : Act} (hx : w.acts e.act = some x) (hl : e.logger = x.logger) {f : Field} {c : Cell} (hc : c.Ok)
    (ht : timed f = true → (∀ k, c ≠ .plain k) ∧ ∀ k, c ≠ .first k) :
    (match pyRes F w f (Fields.read F.names w e f) with
      | .ok v => format P v c.written
      | .keyError => .keyError
      | .exc => .exc
      | .base => .base) = (match (tells P F w e f).bind c.shows with | some s => Sens.Res.ok (String.ofList s) | none => .exc) := by
  by_cases hf : f = .excTbList
  · subst hf
    have he : excOf w e.act = x.excEvs.getLast? := by simp [excOf, hx]
    simp only [Fields.read, hx, Fields.getter, tells, he]
    cases x.excEvs.getLast? with
    | none => cases P.v3 <;> simp [Fields.attr, pyRes]
    | some v =>
      have h := format_cell (P := P) c hc (.text (P.str .seq)) (by simp)
      cases h3 : P.v3 with
      | true =>
        simp only [Fields.attr, pyRes, pyOf, if_true, Option.bind_none, format, h3, true_and]
        split
        · rfl
        · rw [if_pos (written_ne c)]
      | false =>
        simp only [Fields.attr, pyRes, pyOf, Option.map_some, Option.bind_some, format, h3, Told.val] at h ⊢
        simpa using h
  · rw [tells_of (P := P) hx hl hf]
    cases h : tells P F w e f with
    | none => rfl
    | some t =>
      simp only [Option.bind_some]
      exact format_cell c hc t fun y hy => ht (tells_timed (hy ▸ h))

/-- One piece of an entry. -/
theorem cell_shows {x : Act} (hx : w.acts e.act = some x) (hl : e.logger = x.logger) {f : Field} {c : Cell} (hc : c.Ok)
    (hd : w.dataOf e.act (nameOf f) = none) (ht : timed f = true → (∀ k, c ≠ .plain k) ∧ ∀ k, c ≠ .first k) :
    Part.entry (conf P F w e) Tmpl.jsonQuoter (fun _ => none) (fun k => (w.dataOf e.act k).map .app) []
      (.name (nameOf f).toList none c.written) = (Slot.cell f c).shows P F w e := by
  have hdef := defs_of (P := P) (F := F) (w := w) (e := e) f
  have htx := text_cell (P := P) (F := F) hx hl hc ht
  have hkey : pyRes F w f (Fields.read F.names w e f) ≠ .keyError := by
    have := read_ne_key (F := F) (w := w) (e := e) f
    unfold pyRes
    split <;> simp_all
  have htext : Part.text (conf P F w e) (fun _ => none) (fun k => (w.dataOf e.act k).map .app) [] (.name (nameOf f).toList none c.written) =
      (match (tells P F w e f).bind c.shows with | some s => Sens.Res.ok (String.ofList s) | none => .exc) := by
    rw [← htx]
    simp only [Part.text, String.ofList_toList, Tmpl.named, hd, Option.map_none, hdef, if_neg (written_ne c)]
    generalize pyRes F w f (Fields.read F.names w e f) = r at *
    cases r with
    | ok v => simp [conf, fmt]
    | keyError => exact absurd rfl hkey
    | exc => rfl
    | base => rfl
  have hq : Part.quoted (conf P F w e) (.name (nameOf f).toList none c.written) = free f := by
    simp only [Part.quoted, String.ofList_toList, hdef]
  rw [Part.entry, htext, hq, Slot.shows]
  cases (tells P F w e f).bind c.shows with
  | none =>
    simp only [Part.write, Tmpl.field, if_neg (written_ne c)]
    apply String.toList_inj.1
    simp
  | some s =>
    simp only [Tmpl.jsonQuoter, Tmpl.orWritten, inQuotes, String.toList_ofList]

theorem numbered_slots (t : List Slot) : ∀ n, Tmpl.numbered n (t.map Slot.part) = t.map Slot.part := by
  induction t with
  | nil => intro n; rfl
  | cons b t ih =>
    intro n
    rcases b with (_ | _) | _ <;> simp [Slot.part, Bit.part, Tmpl.numbered, ih]

theorem col_plain (c : Column) (hc : c.Ok) : ∀ a ∈ c.written, a ≠ '{' ∧ a ≠ '}' := by
  intro a ha
  have hdig : ∀ n, a ∈ dec n → a ≠ '{' ∧ a ≠ '}' := by
    intro n h
    have := Tmpl.dec_digits n a h
    constructor <;> (rintro rfl; revert this; decide)
  rcases c with ⟨_ | ⟨_ | f, side⟩, width⟩ <;> simp only [Column.written, List.nil_append, Option.toList_none, Option.toList_some,
    List.mem_append, List.mem_cons, List.not_mem_nil, or_false] at ha
  · exact hdig _ ha
  · rcases ha with rfl | ha
    · cases side <;> decide
    · exact hdig _ ha
  · rcases ha with (rfl | rfl) | ha
    · exact hc.2
    · cases side <;> decide
    · exact hdig _ ha

theorem cell_plain (c : Cell) (hc : c.Ok) : ∀ a ∈ c.written, a ≠ '{' ∧ a ≠ '}' := by
  intro a ha
  have hdig : ∀ n, a ∈ dec n → a ≠ '{' ∧ a ≠ '}' := by
    intro n h
    have := Tmpl.dec_digits n a h
    constructor <;> (rintro rfl; revert this; decide)
  cases c <;> simp only [Cell.written, List.mem_append, List.mem_cons, List.not_mem_nil, or_false] at ha
  case plain c => exact col_plain c hc a ha
  case text c =>
    rcases ha with ha | rfl
    · exact col_plain c hc a ha
    · decide
  case cut c k =>
    rcases ha with ha | rfl | ha | rfl
    · exact col_plain c hc a ha
    · decide
    · exact hdig _ ha
    · decide
  case count c =>
    rcases ha with ha | rfl
    · exact col_plain c hc a ha
    · decide
  case zeros n =>
    rcases ha with rfl | ha | rfl
    · decide
    · exact hdig _ ha
    · decide
  case fixed c k =>
    rcases ha with ha | rfl | ha | rfl
    · exact col_plain c hc.1 a ha
    · decide
    · exact hdig _ ha
    · decide
  case first k =>
    rcases ha with rfl | ha
    · decide
    · exact hdig _ ha
  case firstText k =>
    rcases ha with rfl | ha | rfl
    · decide
    · exact hdig _ ha
    · decide
  case digits k =>
    rcases ha with rfl | ha | rfl
    · decide
    · exact hdig _ ha
    · decide

/-- **C138.**  Whenever a published event is rendered with a template of text, built-in fields, and built-in fields in columns, each
column holds what its field tells, on the side and with the filling and the number of digits asked for, and all that in quotes if
it is free text; or it shows itself as written, if the field has nothing to tell or not what the column is for. -/
theorem C138_columns {env : Env} (hP : P.Calm) (hr : Reachable env w) {k : Kind} (he : (k, e) ∈ w.pub) (t : List Slot)
    (ht : ∀ s ∈ t, s.Ok P w e) :
    entry P F (write (t.map Slot.part)) w e = .ok (String.join (t.map (Slot.shows P F w e))) := by
  obtain ⟨-, -, x, hx, hl, -⟩ := hr.evInv.pub k e he
  rw [entry, Tmpl.C89_entry (conf_calm hP) (q := Tmpl.jsonQuoter) (by intro s; simp [Tmpl.jsonQuoter]), numbered_slots, List.map_map]
  · congr 2
    apply List.map_congr_left
    intro b hb
    have hok := ht b hb
    match b, hok with
    | .bit (.lit s), _ => rfl
    | .bit (.field f), hok => exact part_shows hx hl hok.1 hok.2
    | .cell f c, hok => exact cell_shows hx hl hok.2.1 hok.1 hok.2.2
  · intro p hp
    obtain ⟨b, hb, rfl⟩ := List.mem_map.1 hp
    have hok := ht b hb
    match b, hok with
    | .bit (.lit s), _ => trivial
    | .bit (.field f), _ =>
      have := name_ok _ (name_mem f)
      exact ⟨this.1, this.2, by simp, rfl⟩
    | .cell f c, hok =>
      have := name_ok _ (name_mem f)
      exact ⟨this.1, this.2, by simp, Tmpl.balanced_plain (cell_plain c hok.2.1)⟩

/-- **C138, widths.**  A column is as wide as it is said to be, or as its text if that is longer, and holds the text in one piece. -/
theorem C138_width (c : Column) (dflt : Side) (s : List Char) :
    (c.place dflt s).length = max c.width s.length ∧ s <:+: c.place dflt s := by
  unfold Column.place
  cases c.side dflt <;> simp only [List.length_append, List.length_replicate]
  · exact ⟨by omega, List.prefix_append _ _ |>.isInfix⟩
  · exact ⟨by omega, List.suffix_append _ _ |>.isInfix⟩
  · exact ⟨by omega, _, _, rfl⟩

theorem decimal_length (n : Int) : (decimal n).length = (if n < 0 then 1 else 0) + (dec n.natAbs).length := by
  rw [decimal, List.length_append]; split <;> rfl

theorem fits_length {s : Slot} (h : s.Fits P F w e) : (s.shows P F w e).length = s.width := by
  match s, h with
  | .bit (.lit s), _ => simp [Slot.shows, Bit.shows, Slot.width]
  | .bit (.field _), h => exact h.elim
  | .cell f c, ⟨hq, t, s, h1, h2, h3⟩ =>
    have hl : ∀ (c : Column) d s, s.length ≤ c.width → (c.place d s).length = c.width := by
      intro c d s h; rw [(C138_width c d s).1]; omega
    simp only [Slot.shows, h1, Option.bind_some, h2, hq, Bool.false_eq_true, if_false, String.length_ofList]
    cases c <;> cases t <;> simp only [Cell.shows, Option.some.injEq, reduceCtorEq] at h2 <;> subst h2 <;>
      simp only [Slot.width] at h3 ⊢
    all_goals first
      | exact hl _ _ _ h3
      | exact hl _ _ _ (by simpa [chars] using h3)
      | exact hl _ _ _ (by rw [List.length_take, Nat.min_comm]; exact h3)
      | skip
    rename_i m n
    have := decimal_length n
    simp only [List.length_append, List.length_replicate]
    have h4 : (if n < 0 then ['-'] else [] : List Char).length = if n < 0 then 1 else 0 := by split <;> rfl
    rw [h4]
    omega

/-- **C138, lined up.**  As long as everything fits, what follows a column starts at the same place in every entry. -/
theorem C138_lined_up {env : Env} (hP : P.Calm) (hr : Reachable env w) {k : Kind} (he : (k, e) ∈ w.pub) (t r : List Slot)
    (ht : ∀ s ∈ t ++ r, s.Ok P w e) (hf : ∀ s ∈ t, s.Fits P F w e) :
    ∃ a b : String, entry P F (write ((t ++ r).map Slot.part)) w e = .ok (a ++ b) ∧
      a.length = (t.map Slot.width).sum ∧ entry P F (write (r.map Slot.part)) w e = .ok b := by
  refine ⟨String.join (t.map (Slot.shows P F w e)), String.join (r.map (Slot.shows P F w e)), ?_, ?_, ?_⟩
  · rw [C138_columns hP hr he _ ht, List.map_append]
    congr 1
    apply String.toList_inj.1
    simp
  · have : ∀ t : List Slot, (∀ s ∈ t, s.Fits P F w e) → (String.join (t.map (Slot.shows P F w e))).length = (t.map Slot.width).sum := by
      intro t
      induction t with
      | nil => intro _; rfl
      | cons a t ih =>
        intro h
        have h1 := fits_length (h a (by simp))
        have h2 := ih fun s hs => h s (by simp [hs])
        simp only [List.map_cons, List.sum_cons, ← h1, ← h2, ← String.length_toList]
        simp
    exact this t hf
  · exact C138_columns hP hr he r fun s hs => ht s (by simp [hs])

/-! ## A case -/

/-- `{level_name_upper:-<6}|{action_name:^14}|{duration_us:>9.1f}|{process_id:05d}|{exc_type:4d}|{level_name:3.2s}|{level_name:.3}{duration_ms:.2f}` -/
def sampleCols : List Slot := [.cell .levelNameUpper (.plain ⟨some (some '-', .left), 6⟩), .bit (.lit ['|']),
  .cell .actionName (.plain ⟨some (none, .middle), 14⟩), .bit (.lit ['|']), .cell .durationUs (.fixed ⟨some (none, .right), 9⟩ 1),
  .bit (.lit ['|']), .cell .processId (.zeros 5), .bit (.lit ['|']), .cell .excType (.count ⟨none, 4⟩),
  .bit (.lit ['|']), .cell .levelName (.cut ⟨none, 3⟩ 2), .bit (.lit ['|']), .cell .levelName (.first 3),
  .cell .durationMs (.digits 2)]

example : String.ofList (write (sampleCols.map Slot.part)) =
    "{level_name_upper:-<6}|{action_name:^14}|{duration_us:>9.1f}|{process_id:05d}|{exc_type:4d}|{level_name:3.2s}|{level_name:.3}{duration_ms:.2f}" := by decide +kernel

/-- The case meets the hypotheses of the theorems, and what is shown is what one expects. -/
example : ∃ k e, (k, e) ∈ sampleW.pub ∧ e.kind = .end_ ∧ (∀ s ∈ sampleCols, s.Ok sampleP sampleW e) ∧
    (∀ s ∈ sampleCols.take 2, s.Fits sampleP sampleF sampleW e) ∧
    entry sampleP sampleF (write (sampleCols.map Slot.part)) sampleW e =
      .ok "INFO--|\"  pay \\\"bob\\\"   \"|     10.0|00042|{exc_type:4d}|in |inf0.01" := by
  obtain ⟨q, hq⟩ : ∃ q, sampleW.pub.find? (fun q => q.1 = .end_) = some q := Option.isSome_iff_exists.1 (by decide +kernel)
  have hm := List.mem_of_find?_eq_some hq
  have hk := (sampleW_reachable.evInv.pub q.1 q.2 hm).1
  have hq1 : q.1 = .end_ := by simpa using List.find?_some hq
  have hp : ∀ q ∈ sampleW.pub, ∀ s ∈ sampleCols, s.Ok sampleP sampleW q.2 := by
    have : ∀ q ∈ sampleW.pub, ∀ f ∈ [Field.levelNameUpper, .actionName, .durationUs, .processId, .excType, .levelName, .durationMs],
      sampleW.dataOf q.2.act (nameOf f) = none := by decide +kernel
    intro q hq s hs
    simp only [sampleCols, List.mem_cons, List.not_mem_nil, or_false] at hs
    rcases hs with rfl | rfl | rfl | rfl | rfl | rfl | rfl | rfl | rfl | rfl | rfl | rfl | rfl | rfl <;>
      first
        | exact trivial
        | exact ⟨this q hq _ (by decide), by unfold Cell.Ok; try unfold Column.Ok; decide, by simp [timed]⟩
        | exact ⟨this q hq _ (by decide), ⟨by unfold Column.Ok; decide, by decide⟩, by simp⟩
  refine ⟨q.1, q.2, hm, hk.trans hq1, hp q hm, ?_, ?_⟩
  · obtain ⟨-, -, x, hx, -⟩ := sampleW_reachable.evInv.pub q.1 q.2 hm
    intro s hs
    simp only [sampleCols, List.take_succ_cons, List.take_zero, List.mem_cons, List.not_mem_nil, or_false] at hs
    rcases hs with rfl | rfl
    · refine ⟨rfl, .text "INFO".toList, _, ?_, rfl, ?_⟩
      · simp only [tells, content, show sampleW.acts q.2.act = some x from hx, Option.map_some, sampleF]
      · decide
    · trivial
  · rw [C138_columns sampleP_calm sampleW_reachable hm sampleCols (hp q hm)]
    have : ∀ q ∈ sampleW.pub, q.1 = .end_ → sampleCols.map (Slot.shows sampleP sampleF sampleW q.2) =
      ["INFO--", "|", "\"  pay \\\"bob\\\"   \"", "|", "     10.0", "|", "00042", "|", "{exc_type:4d}", "|", "in ", "|", "inf", "0.01"] := by decide +kernel
    rw [this q hm hq1]
    exact congrArg Sens.Res.ok (by decide +kernel)

end Verif.Py
