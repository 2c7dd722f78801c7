import Verif.Spec.Shown
import Verif.Spec.Samples
import Verif.Props.Entry
import Verif.Props.Decimal
import Verif.Lemmas.Grow
/-!
# C120: what entries show for the built-in fields
-/
namespace Verif.Py

open Verif.Fields (Field FVal)
open Verif.Tmpl (Part write builtinMap)

variable {P : Foreign} {F : Facts} {w : World} {e : Event}

/-! ## The specs -/

theorem fixed_sign (k : Nat) (x : ℚ) : Dec.fixed k x = (if x < 0 then [45] else []) ++ Dec.fixed k |x| := by
  have h : ¬ |x| < 0 := not_lt.2 (abs_nonneg x)
  simp only [Dec.fixed, abs_abs, if_neg h, List.nil_append]

theorem format_s (s : List Char) : format P (.str s) ['s'] = .ok (String.ofList s) := by
  rw [format, show parse ['s'] = some ⟨none, none, none, false, false, 0, false, none, some 's'⟩ from by decide]
  simp [fmtStr, Spec.aligned, Spec.filled, pad]

theorem format_9 (s : List Char) : format P (.str s) ['>', '9', 's'] = .ok (String.ofList (List.replicate (9 - s.length) ' ' ++ s)) := by
  rw [format, show parse ['>', '9', 's'] = some ⟨none, some '>', none, false, false, 9, false, none, some 's'⟩ from by decide]
  simp [fmtStr, Spec.aligned, Spec.filled, pad]

theorem format_d (n : Int) : format P (.int n) ['d'] = .ok (String.ofList (decimal n)) := by
  rw [format, show parse ['d'] = some ⟨none, none, none, false, false, 0, false, none, some 'd'⟩ from by decide]
  simp only [fmtInt, Spec.aligned, Spec.filled, pad, signOf, decimal]
  by_cases h : n < 0 <;> simp [h]

theorem format_g (x : ℚ) : format P (.flt x) ['.', '1', '4', 'g'] =
    .ok (String.ofList ((if x < 0 then ['-'] else []) ++ P.g 14 |x|)) := by
  rw [format, show parse ['.', '1', '4', 'g'] = some ⟨none, none, none, false, false, 0, false, some 14, some 'g'⟩ from by decide]
  simp only [fmtFlt, Spec.aligned, Spec.filled, pad, signOf]
  by_cases h : x < 0 <;> simp [h]

theorem fixed_text (k : Nat) (hk : k ≠ 0) (x : ℚ) :
    (if x < 0 then ['-'] else []) ++ fixedDigits k x = chars (Dec.fixed k x) := by
  rw [fixed_sign, fixedDigits, if_neg hk, chars, List.map_append]
  by_cases h : x < 0 <;> simp [h]

theorem format_f3 (x : ℚ) : format P (.flt x) ['.', '3', 'f'] = .ok (String.ofList (chars (Dec.fixed 3 x))) := by
  rw [format, show parse ['.', '3', 'f'] = some ⟨none, none, none, false, false, 0, false, some 3, some 'f'⟩ from by decide,
    ← fixed_text 3 (by decide) x]
  simp only [fmtFlt, Spec.aligned, Spec.filled, pad, signOf]
  by_cases h : x < 0 <;> simp [h]

theorem format_06 (x : ℚ) : format P (.flt x) ['0', '.', '6', 'f'] = .ok (String.ofList (chars (Dec.fixed 6 x))) := by
  rw [format, show parse ['0', '.', '6', 'f'] = some ⟨none, none, none, false, true, 0, false, some 6, some 'f'⟩ from by decide,
    ← fixed_text 6 (by decide) x]
  simp only [fmtFlt, Spec.aligned, Spec.filled, pad, signOf]
  by_cases h : x < 0 <;> simp [h]

theorem format_04 (x : ℚ) : format P (.flt x) ['0', '.', '4', 'f'] = .ok (String.ofList (chars (Dec.fixed 4 x))) := by
  rw [format, show parse ['0', '.', '4', 'f'] = some ⟨none, none, none, false, true, 0, false, some 4, some 'f'⟩ from by decide,
    ← fixed_text 4 (by decide) x]
  simp only [fmtFlt, Spec.aligned, Spec.filled, pad, signOf]
  by_cases h : x < 0 <;> simp [h]

/-! ## The fields -/

/-- The spec a field is declared with. -/
def specOf : Field → List Char
  | .loggerId | .actionId | .levelNumber | .lineNumber | .processId | .parentDepth => ['d']
  | .beginTimestamp | .endTimestamp => ['.', '1', '4', 'g']
  | .durationS | .durationMs | .durationUs => ['.', '3', 'f']
  | .durationAuto => ['>', '9', 's']
  | .importDeltaS => ['0', '.', '6', 'f']
  | .importDeltaMs => ['0', '.', '4', 'f']
  | _ => ['s']

theorem name_mem (f : Field) : (nameOf f, f) ∈ LineOf.fieldNames := by
  cases f with
  | isoBegin v => cases v <;> simp [LineOf.fieldNames, nameOf]
  | isoEnd v => cases v <;> simp [LineOf.fieldNames, nameOf]
  | _ => simp [LineOf.fieldNames, nameOf]

theorem defs_of (f : Field) :
    (conf P F w e).defs (nameOf f) = some ⟨specOf f, free f, some (pyRes F w f (Fields.read F.names w e f))⟩ := by
  have : ∀ p ∈ LineOf.fieldNames, ∀ (g : Field → Sens.Res Val),
      builtinMap (fun k => match LineOf.fieldNames.find? fun b => b.1 = k with
        | some b => g b.2
        | none => .exc) p.1 = some ⟨specOf p.2, free p.2, some (g p.2)⟩ := by
    unfold LineOf.fieldNames
    simp only [List.forall_mem_cons]
    refine ⟨?_, ?_, ?_, ?_, ?_, ?_, ?_, ?_, ?_, ?_, ?_, ?_, ?_, ?_, ?_, ?_, ?_, ?_, ?_, ?_, ?_, ?_, ?_, ?_, ?_, ?_, ?_, ?_, ?_,
      ?_, ?_, ?_, ?_, ?_, ?_, ?_, ?_, ?_, ?_, ?_, ?_, ?_, ?_, ?_, ?_, ?_, ?_, ?_, ?_, ?_, ?_, ?_⟩ <;>
    first | (intro g; rfl) | simp
  exact this (nameOf f, f) (name_mem f) fun f => pyRes F w f (Fields.read F.names w e f)

theorem statusChar_eq {x : Act} (hk : e.kind = .end_) :
    (Fields.statusChar x e).toList = [if x.isTrans then (initial e.status).toUpper else initial e.status] := by
  unfold Fields.statusChar
  rw [hk]
  cases e.status <;> cases x.isTrans <;> decide

theorem secs_neg (t : Int) : secs t < 0 ↔ t < 0 := by
  unfold secs
  rw [div_neg_iff]
  constructor
  · rintro (⟨h, h'⟩ | ⟨h, h'⟩)
    · norm_num at h'
    · exact_mod_cast h
  · intro h; right; exact ⟨by exact_mod_cast h, by norm_num⟩

/-- What a field with something to tell is given as, and how it comes out. -/
theorem text_of {x : Act} (hx : w.acts e.act = some x) (hl : e.logger = x.logger) {f : Field}
    (hf : P.v3 = true → f ≠ .excTbList) :
    (match pyRes F w f (Fields.read F.names w e f) with
      | .ok v => format P v (specOf f)
      | .keyError => .keyError
      | .exc => .exc
      | .base => .base) = (match content P F w e f with | some s => Sens.Res.ok (String.ofList s) | none => .exc) := by
  have hb : w.beginOf e.act = x.beginEv := by simp [World.beginOf, hx]
  have hd : w.endOf e.act = x.endEv := by simp [World.endOf, hx]
  have he : excOf w e.act = x.excEvs.getLast? := by simp [excOf, hx]
  have hdur : lasted w e.act = x.duration := by
    simp only [lasted, hb, hd, Act.duration]
    cases x.beginEv <;> cases x.endEv <;> rfl
  rw [Fields.read, hx]
  cases f <;> simp only [Fields.getter, pyRes, pyOf, content, specOf, hx, hb, hd, he, hdur, hl, format_s, format_d, format_f3, format_06, format_04,
    format_9, Option.map_some, Option.bind_some]
  case statusChar =>
    cases hk : e.kind <;> simp only [Fields.statusChar, hk]
    case end_ => rw [← statusChar_eq hk]; simp only [Fields.statusChar, hk]
    all_goals decide
  case levelChar => cases (F.names.upper (F.names.level x.level)).toList <;> simp [format_s]
  case dataMap => cases F.names.jsonOk x.data <;> simp [format_s]
  case excTbList =>
    have h3 : ¬ (P.v3 = true) := fun h => hf h rfl
    cases x.excEvs.getLast? with
    | none => simp [Fields.attr]
    | some v => simp [Fields.attr, format, parse, fmtStr, h3, takeAlign, isAlign, takeIf, takeNum, Spec.aligned, Spec.filled, pad]
  case durationAuto =>
    simp only [Dec.showAuto, Dec.right9, chars, List.map_append, List.map_replicate, List.length_map]
  case durationMs => norm_num
  case durationUs => norm_num
  all_goals first
    | (cases x.beginEv <;> simp [Fields.attr, format_s, format_g, stamp, secs_neg]; done)
    | (cases x.endEv <;> simp [Fields.attr, format_s, format_g, stamp, secs_neg]; done)
    | (cases x.excEvs.getLast? <;> simp [Fields.attr, format_s]; done)
    | (simp [format_d]; done)

theorem fmt_ne_base (hP : P.Calm) (p : List Char) (cv : Option Char) (s : List Char) (o : List Val) (v : Val) :
    fmt P p cv s o v ≠ .base := by
  have h1 : ∀ sp s, fmtStr sp s ≠ .base := by intro sp s; unfold fmtStr; split <;> simp
  have h2 : ∀ sp x, fmtFlt P sp x ≠ .base := by
    intro sp x; unfold fmtFlt
    split
    · exact hP.exotic _ _
    · split <;> first | exact hP.exotic _ _ | simp
  have h3 : ∀ sp n, fmtInt P sp n ≠ .base := by
    intro sp n; unfold fmtInt
    split
    case h_1 | h_2 =>
      split
      · simp
      · split
        · exact hP.exotic _ _
        · simp
    all_goals first | exact h2 _ _ | exact hP.exotic _ _ | simp
  unfold fmt
  split
  · unfold format
    split
    · simp
    · split <;> first | exact h1 _ _ | exact h3 _ _ | exact hP.exotic _ _ | skip
      all_goals split <;> first | (simp; done) | exact h1 _ _ | exact h2 _ _ | exact hP.exotic _ _
  · exact hP.other _ _ _ _ _

theorem read_ne_base (f : Field) : Fields.read F.names w e f ≠ .base := by
  unfold Fields.read
  cases w.acts e.act with
  | none => simp
  | some x =>
    cases f <;> simp only [Fields.getter, Fields.attr] <;> first | (simp; done) | (split <;> simp)

theorem read_ne_key (f : Field) : Fields.read F.names w e f ≠ .keyError := by
  unfold Fields.read
  cases w.acts e.act with
  | none => simp
  | some x =>
    cases f <;> simp only [Fields.getter, Fields.attr] <;> first | (simp; done) | (split <;> simp)

theorem conf_calm (hP : P.Calm) : (conf P F w e).Calm where
  fmt := fmt_ne_base hP
  getter := by
    intro k f h
    simp only [conf, builtinMap, Option.map_eq_some_iff] at h
    obtain ⟨b, -, rfl⟩ := h
    simp only [Tmpl.mkDef, ne_eq, Option.some.injEq]
    split
    · rename_i b' _
      have := read_ne_base (F := F) (w := w) (e := e) b'.2
      unfold pyRes
      split <;> simp_all
    · simp
  numbers := by
    intro i
    by_contra h
    obtain ⟨f, hf⟩ := Option.ne_none_iff_exists'.1 h
    have := (Tmpl.builtin_names _ (conf P F w e).nothing (fmt P) _ f hf).1
    rw [String.toList_ofList] at this
    rw [List.all_eq_true.2 (Tmpl.dec_digits i)] at this
    cases this

/-- One field of an entry. -/
theorem part_shows {x : Act} (hx : w.acts e.act = some x) (hl : e.logger = x.logger) {f : Field}
    (hd : w.dataOf e.act (nameOf f) = none) (hf : P.v3 = true → f ≠ .excTbList) :
    Part.entry (conf P F w e) Tmpl.jsonQuoter (fun _ => none) (fun k => (w.dataOf e.act k).map .app) []
      (.name (nameOf f).toList none []) = shows P F w e f := by
  have hdef := defs_of (P := P) (F := F) (w := w) (e := e) f
  have ht := text_of (P := P) (F := F) hx hl hf
  have hkey : pyRes F w f (Fields.read F.names w e f) ≠ .keyError := by
    have := read_ne_key (F := F) (w := w) (e := e) f
    unfold pyRes
    split <;> simp_all
  have htext : Part.text (conf P F w e) (fun _ => none) (fun k => (w.dataOf e.act k).map .app) [] (.name (nameOf f).toList none []) =
      (match content P F w e f with | some s => Sens.Res.ok (String.ofList s) | none => .exc) := by
    rw [← ht]
    simp only [Part.text, String.ofList_toList, Tmpl.named, hd, Option.map_none, hdef, if_true, Option.map_some, Option.getD_some]
    generalize pyRes F w f (Fields.read F.names w e f) = r at *
    cases r with
    | ok v => simp [conf, fmt]
    | keyError => exact absurd rfl hkey
    | exc => rfl
    | base => rfl
  have hq : Part.quoted (conf P F w e) (.name (nameOf f).toList none []) = free f := by
    simp only [Part.quoted, String.ofList_toList, hdef]
  rw [Part.entry, htext, hq, shows]
  cases content P F w e f with
  | none =>
    simp only [Part.write, Tmpl.field]
    apply String.toList_inj.1
    simp
  | some s =>
    simp only [Tmpl.jsonQuoter, Tmpl.orWritten, inQuotes, String.toList_ofList]

theorem numbered_bits (t : List Bit) : ∀ n, Tmpl.numbered n (t.map Bit.part) = t.map Bit.part := by
  induction t with
  | nil => intro n; rfl
  | cons b t ih => intro n; cases b <;> simp [Bit.part, Tmpl.numbered, ih]

theorem name_ok : ∀ p ∈ LineOf.fieldNames, (∀ c ∈ p.1.toList, Tmpl.Ordinary c) ∧ ∃ c ∈ p.1.toList, c.isDigit = false := by
  unfold Tmpl.Ordinary
  decide +kernel

theorem entry_parts (hP : P.Calm) (t : List Bit) :
    entry P F (write (t.map Bit.part)) w e = .ok (String.join (t.map fun b =>
      Part.entry (conf P F w e) Tmpl.jsonQuoter (fun _ => none) (fun k => (w.dataOf e.act k).map .app) [] b.part)) := by
  rw [entry, Tmpl.C89_entry (conf_calm hP) (q := Tmpl.jsonQuoter) (by intro s; simp [Tmpl.jsonQuoter]), numbered_bits, List.map_map]
  · rfl
  · intro p hp
    obtain ⟨b, hb, rfl⟩ := List.mem_map.1 hp
    cases b with
    | lit s => trivial
    | field f =>
      have := name_ok _ (name_mem f)
      exact ⟨this.1, this.2, by simp, rfl⟩

/-- **C120.**  Whenever a published event is rendered with a template of text and built-in fields, each field shows what it tells,
in the notation that is its own, and quoted if it is free text; or its own name in braces, if it has nothing to tell.  In Python 3
not so for `exc_tb_list`. -/
theorem C120_shown_partial {env : Env} (hP : P.Calm) (hr : Reachable env w) {k : Kind} (he : (k, e) ∈ w.pub) (t : List Bit)
    (ht : Plain w e t) (h3 : P.v3 = true → Bit.field .excTbList ∉ t) :
    entry P F (write (t.map Bit.part)) w e = .ok (String.join (t.map (Bit.shows P F w e))) := by
  obtain ⟨-, -, x, hx, hl, -⟩ := hr.evInv.pub k e he
  rw [entry_parts hP t]
  congr 2
  apply List.map_congr_left
  intro b hb
  cases b with
  | lit s => rfl
  | field f => exact part_shows hx hl (ht f hb) fun h hf => h3 h (hf ▸ hb)

/-- C120 fails in Python 3: `exc_tb_list` shows its own name even though an exception was recorded. -/
theorem C120_tb_list_violated {env : Env} (hP : P.Calm) (h3 : P.v3 = true) (hr : Reachable env w) {k : Kind} (he : (k, e) ∈ w.pub)
    (hd : w.dataOf e.act "exc_tb_list" = none) :
    entry P F "{exc_tb_list}".toList w e = .ok "{exc_tb_list}" := by
  obtain ⟨-, -, x, hx, hl, -⟩ := hr.evInv.pub k e he
  have hx' : w.acts e.act = some x := hx
  have := entry_parts (P := P) (F := F) (w := w) (e := e) hP [.field .excTbList]
  rw [show "{exc_tb_list}".toList = write ([Bit.field .excTbList].map Bit.part) from by decide +kernel, this]
  have hdef : (conf P F w e).defs "exc_tb_list" = _ := defs_of (P := P) (F := F) (w := w) (e := e) .excTbList
  have htext : ∃ r, Part.text (conf P F w e) (fun _ => none) (fun k => (w.dataOf e.act k).map .app) []
      (.name "exc_tb_list".toList none []) = r ∧ ∀ s, r ≠ .ok s := by
    refine ⟨_, rfl, ?_⟩
    intro s
    simp only [Part.text, String.ofList_toList, Tmpl.named, hd, Option.map_none, hdef, if_true, Option.map_some, Option.getD_some]
    rw [Fields.read, hx']
    simp only [Fields.getter]
    cases x.excEvs.getLast? with
    | none => simp [Fields.attr, pyRes]
    | some ev =>
      simp only [Fields.attr, pyRes, pyOf, conf, fmt, specOf]
      rw [if_pos (by simp), format]
      split
      · simp
      · simp [h3]
  obtain ⟨r, h1, h2⟩ := htext
  simp only [List.map_cons, List.map_nil, Bit.part, nameOf, Part.entry, h1]
  cases r with
  | ok s => exact absurd rfl (h2 s)
  | _ => exact congrArg Sens.Res.ok (by decide +kernel)

/-- **C120, names.**  These are all the names there are: every built-in field has one of its own, and the formatter knows no others. -/
theorem C120_names : (∀ f g : Field, nameOf f = nameOf g → f = g) ∧
    ∀ name, ((conf P F w e).defs name).isSome ↔ ∃ f, nameOf f = name := by
  have huniq : (LineOf.fieldNames.map (·.1)).Nodup := by decide +kernel
  have hinj := List.inj_on_of_nodup_map huniq
  refine ⟨?_, ?_⟩
  · intro f g h
    have := hinj (name_mem f) (name_mem g) h
    exact congrArg Prod.snd this
  · intro name
    constructor
    · intro h
      obtain ⟨d, hd⟩ := Option.isSome_iff_exists.1 h
      simp only [conf, builtinMap, Option.map_eq_some_iff] at hd
      obtain ⟨b, hb, -⟩ := hd
      have h1 := List.mem_of_find?_eq_some hb
      have h2 : b.1 = name := by simpa using List.find?_some hb
      have h3 : name ∈ LineOf.fieldNames.map (·.1) := by
        rw [← h2, show LineOf.fieldNames.map (·.1) = Tmpl.builtins.map (·.1) from by decide]
        exact List.mem_map.2 ⟨b, h1, rfl⟩
      obtain ⟨p, hp, rfl⟩ := List.mem_map.1 h3
      have hall : ∀ p ∈ LineOf.fieldNames, nameOf p.2 = p.1 := by decide +kernel
      exact ⟨p.2, hall p hp⟩
    · rintro ⟨f, rfl⟩
      rw [defs_of]; rfl

/-! ## Cases -/

/-- Python 3, with formatting beyond the model left out. -/
def sampleP : Foreign where
  v3 := true
  g _ _ := []
  str _ := "[]".toList
  exotic _ _ := .exc
  other _ _ _ _ _ := .exc

theorem sampleP_calm : sampleP.Calm := ⟨fun _ _ => by simp [sampleP], fun _ _ _ _ _ => by simp [sampleP]⟩

def sampleF : Facts where
  names := ⟨fun _ => "main", fun _ => "info", fun _ => "INFO", 0, fun _ => true⟩
  guid _ := "0a1b".toList
  moduleName _ := "app".toList
  modulePath _ := "app.py".toList
  funcName _ := "pay".toList
  lineno _ := 7
  excType _ := "ValueError".toList
  excMsg _ := "no".toList
  excTb _ := "".toList
  json _ := "{}".toList
  repr _ := "{}".toList
  pid := 42
  zone := ⟨3600, 7200, fun _ => false⟩
  offset _ := 3600
  message _ e := e.msg

/-- An action with a failing with block. -/
def sampleW : World := (run Sample.quiet World.init
  (Sample.setup ++ [Sample.mk "pay \"bob\"", .enter 0, .exit 0 (some Sample.boom)]))

def sampleT : List Bit := [.field .statusChar, .lit [' '], .field .levelNameUpper, .lit [' '], .field .actionName, .lit " took ".toList,
  .field .durationUs, .lit "us ".toList, .field .excType, .lit ['/'], .field .processId]

theorem sampleW_reachable : Reachable Sample.quiet sampleW := ⟨_, rfl⟩

/-- The case meets the hypotheses of `C120_shown_partial`, and what is shown is what one expects. -/
example : ∃ k e, (k, e) ∈ sampleW.pub ∧ e.kind = .end_ ∧ Plain sampleW e sampleT ∧ Bit.field .excTbList ∉ sampleT ∧
    entry sampleP sampleF (write (sampleT.map Bit.part)) sampleW e =
      .ok "E INFO \"pay \\\"bob\\\"\" took 10.000us ValueError/42" := by
  obtain ⟨q, hq⟩ : ∃ q, sampleW.pub.find? (fun q => q.1 = .end_) = some q := Option.isSome_iff_exists.1 (by decide +kernel)
  have hm := List.mem_of_find?_eq_some hq
  have hk := (sampleW_reachable.evInv.pub q.1 q.2 hm).1
  have hq1 : q.1 = .end_ := by simpa using List.find?_some hq
  have hp : ∀ q ∈ sampleW.pub, Plain sampleW q.2 sampleT := by
    have : ∀ q ∈ sampleW.pub, ∀ f ∈ [Field.statusChar, .levelNameUpper, .actionName, .durationUs, .excType, .processId],
      sampleW.dataOf q.2.act (nameOf f) = none := by decide +kernel
    intro q hq f hf
    exact this q hq f (by simpa [sampleT] using hf)
  have hn : Bit.field .excTbList ∉ sampleT := by simp [sampleT]
  refine ⟨q.1, q.2, hm, hk.trans hq1, hp q hm, hn, ?_⟩
  rw [C120_shown_partial sampleP_calm sampleW_reachable hm sampleT (hp q hm) fun _ => hn]
  have : ∀ q ∈ sampleW.pub, q.1 = .end_ → sampleT.map (Bit.shows sampleP sampleF sampleW q.2) =
    ["E", " ", "INFO", " ", "\"pay \\\"bob\\\"\"", " took ", "10.000", "us ", "ValueError", "/",
      "42"] := by decide +kernel
  rw [this q hm hq1]
  exact congrArg Sens.Res.ok (by decide +kernel)

/-- C120 fails. -/
theorem C120_violated : ¬ Shown := by
  intro h
  obtain ⟨q, hq⟩ : ∃ q, sampleW.pub.find? (fun q => q.1 = .end_) = some q := Option.isSome_iff_exists.1 (by decide +kernel)
  have hm := List.mem_of_find?_eq_some hq
  have hd : ∀ q ∈ sampleW.pub, sampleW.dataOf q.2.act "exc_tb_list" = none := by decide +kernel
  have h1 := h Sample.quiet sampleP sampleF sampleP_calm sampleW sampleW_reachable q.1 q.2 hm [.field .excTbList]
    (by intro f hf; simp only [List.mem_singleton, Bit.field.injEq] at hf; subst hf; exact hd q hm)
  rw [show write ([Bit.field .excTbList].map Bit.part) = "{exc_tb_list}".toList from by decide +kernel,
    C120_tb_list_violated sampleP_calm rfl sampleW_reachable hm (hd q hm)] at h1
  have h2 : ∀ q ∈ sampleW.pub, String.join ([Bit.field .excTbList].map (Bit.shows sampleP sampleF sampleW q.2)) = "\"[]\"" := by
    decide +kernel
  rw [h2 q hm] at h1
  exact absurd h1 (by decide +kernel)

end Verif.Py
