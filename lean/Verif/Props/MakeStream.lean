import Verif.Model.MakeStream
/-!
# C119: a stream emitter that could be made writes its entries

The full statement is false of the code: streams that cannot take bytes are accepted when they have no `mode`
(`io.StringIO`, which the class's own documentation names; replaced standard streams), or when they are binary and opened
for reading; every entry is then dropped, and nobody is told.  And streams that take bytes are refused when their `mode` is a
number (`gzip.GzipFile`).
-/
namespace Verif.Mk

/-! ## Specification -/

/-- The encoding an emitter uses: the one asked for, else that of the stream object passed in, else UTF-8. -/
def wantedEncoding (arg : Arg) (encoding : Option String) : String :=
  match encoding, arg with
  | some e, _ => e
  | none, .obj ⟨some e, _, _, _, _⟩ => e
  | none, _ => "UTF-8"

/-- The stream meant by the argument: `'stdout'` and `'stderr'` mean the process's streams, their binary buffer if they
have one. -/
def Means {B : Type} (y : Sys B) (arg : Arg) (o : Obj) : Prop :=
  match arg with
  | .obj p => o = p
  | .stdout => y.stdout.buffer = some o ∨ (y.stdout.buffer = none ∧ o = y.stdout.self)
  | .stderr => y.stderr.buffer = some o ∨ (y.stderr.buffer = none ∧ o = y.stderr.self)

/-- The bytes of the separator: those given, or the encoded string, the system's line separator by default. -/
def SepIs {B : Type} (y : Sys B) (enc : String) (s : Sep B) (b : List B) : Prop :=
  match s with
  | .bytes c => b = c
  | .str t => y.encode enc "strict" t = some b
  | .none => y.encode enc "strict" y.linesep = some b

/-- The stream passes for a binary stream that can be written: it can be written, and its `mode`, if it has one that says
anything, is a string with a `b`. -/
def Passes (o : Obj) : Prop :=
  (o.listed = true ∨ o.hasWrite = true) ∧
    (o.mode = .absent ∨ o.mode = .str [] ∨ o.mode = .num 0 ∨ ∃ s, o.mode = .str s ∧ 'b' ∈ s)

/-- What the entries are as bytes, each followed by the separator. -/
def Written {B : Type} (y : Sys B) (enc err : String) (sep : List B) : List String → List B → Prop
  | [], out => out = []
  | t :: ts, out => ∃ b rest, y.encode enc err t = some b ∧ Written y enc err sep ts rest ∧ out = b ++ sep ++ rest

/-! ## Proofs -/

theorem wanted_eq (arg : Arg) (encoding : Option String) :
    pickEncoding arg encoding = wantedEncoding arg encoding := by
  cases encoding with
  | some e => cases arg <;> rfl
  | none =>
    cases arg with
    | stdout => rfl
    | stderr => rfl
    | obj o => obtain ⟨enc, _, _, _, _⟩ := o; cases enc <;> rfl

theorem means_iff {B : Type} (y : Sys B) (arg : Arg) (o : Obj) : Means y arg o ↔ o = arg.resolve y := by
  cases arg with
  | obj p => rfl
  | stdout =>
    simp only [Means, Arg.resolve, sysStream]
    cases y.stdout.buffer <;> simp [eq_comm]
  | stderr =>
    simp only [Means, Arg.resolve, sysStream]
    cases y.stderr.buffer <;> simp [eq_comm]

theorem sepIs_iff {B : Type} (y : Sys B) (enc : String) (s : Sep B) (b : List B) :
    SepIs y enc s b ↔ makeSep y enc s = some b := by
  cases s <;> simp [SepIs, makeSep, eq_comm]

theorem badMode_none (m : Mode) :
    badMode m = none ↔ m = .absent ∨ m = .str [] ∨ m = .num 0 ∨ ∃ s, m = .str s ∧ 'b' ∈ s := by
  cases m with
  | absent => simp [badMode]
  | str s =>
    simp only [badMode]
    by_cases h : s = []
    · simp [h]
    · by_cases hb : 'b' ∈ s <;> simp [h, hb]
  | num n =>
    simp only [badMode]
    by_cases h : n = 0 <;> simp [h]

/-- **C119**, first part: an emitter is made exactly when the encoding and the error handler exist, the stream passes for a
writable binary one and the separator can be encoded; it then writes to the stream that was meant, with the settings that
were asked for. -/
theorem C119_made_partial {B : Type} (y : Sys B) (arg : Arg) (encoding : Option String) (kw : Kwargs B) (e : Em B) :
    make y arg encoding kw = .ok e ↔
      y.known (wantedEncoding arg encoding) = true ∧ y.handler (kw.errors.getD "backslashreplace") = true ∧
      Passes e.stream ∧ Means y arg e.stream ∧ SepIs y (wantedEncoding arg encoding) kw.sep e.sep ∧
      e.encoding = wantedEncoding arg encoding ∧ e.errors = kw.errors.getD "backslashreplace" ∧
      e.reopenStale = kw.reopenStale.getD true ∧ e.out = [] := by
  rw [means_iff, sepIs_iff]
  unfold Passes
  rw [← badMode_none]
  simp only [make, wanted_eq]
  by_cases h1 : y.known (wantedEncoding arg encoding) = true
  · by_cases h2 : y.handler (kw.errors.getD "backslashreplace") = true
    · simp only [h1, h2, Bool.not_true, Bool.false_eq_true, if_false, true_and]
      by_cases h3 : (arg.resolve y).listed = true ∨ (arg.resolve y).hasWrite = true
      · have h3' : (!(arg.resolve y).listed && !(arg.resolve y).hasWrite) = false := by
          rcases h3 with h | h <;> simp [h]
        rw [h3']
        simp only [Bool.false_eq_true, if_false]
        cases h4 : badMode (arg.resolve y).mode with
        | some r =>
          simp only [reduceCtorEq, false_iff]
          rintro ⟨⟨_, h⟩, hs, _⟩
          rw [hs, h4] at h; cases h
        | none =>
          cases h5 : makeSep y (wantedEncoding arg encoding) kw.sep with
          | none => simp
          | some sep =>
            obtain ⟨s, en, er, se, rs, out⟩ := e
            simp only [Except.ok.injEq, Em.mk.injEq, Option.some.injEq]
            constructor
            · rintro ⟨rfl, rfl, rfl, rfl, rfl, rfl⟩
              exact ⟨⟨h3, h4⟩, rfl, rfl, rfl, rfl, rfl, rfl⟩
            · rintro ⟨_, rfl, rfl, rfl, rfl, rfl, rfl⟩
              exact ⟨rfl, rfl, rfl, rfl, rfl, rfl⟩
      · have h3' : (!(arg.resolve y).listed && !(arg.resolve y).hasWrite) = true := by
          rw [not_or] at h3; simp [h3.1, h3.2]
        rw [h3']
        simp only [if_true, reduceCtorEq, false_iff]
        rintro ⟨⟨h, _⟩, hs, _⟩
        rw [hs] at h; exact h3 h
    · simp [h1, h2]
  · simp [h1]

/-- What each refusal says about the arguments. -/
def Refusal.Because {B : Type} (y : Sys B) (arg : Arg) (encoding : Option String) (kw : Kwargs B) : Refusal → Prop
  | .encoding => y.known (wantedEncoding arg encoding) = false
  | .errors => y.handler (kw.errors.getD "backslashreplace") = false
  | .noWrite => ∃ o, Means y arg o ∧ o.listed = false ∧ o.hasWrite = false
  | .textMode => ∃ o s, Means y arg o ∧ o.mode = .str s ∧ s ≠ [] ∧ 'b' ∉ s
  | .modeType => ∃ o n, Means y arg o ∧ o.mode = .num n ∧ n ≠ 0
  | .sep => ∀ b, ¬ SepIs y (wantedEncoding arg encoding) kw.sep b

/-- **C119**: a refusal is never mistaken about its reason. -/
theorem C119_refusal_partial {B : Type} (y : Sys B) (arg : Arg) (encoding : Option String) (kw : Kwargs B) (r : Refusal)
    (h : make y arg encoding kw = .error r) : r.Because y arg encoding kw := by
  simp only [make, wanted_eq] at h
  by_cases h1 : y.known (wantedEncoding arg encoding) = true
  · by_cases h2 : y.handler (kw.errors.getD "backslashreplace") = true
    · simp only [h1, h2, Bool.not_true, Bool.false_eq_true, if_false] at h
      by_cases h3 : (!(arg.resolve y).listed && !(arg.resolve y).hasWrite) = true
      · rw [if_pos h3] at h
        cases h
        simp only [Bool.and_eq_true, Bool.not_eq_true'] at h3
        exact ⟨_, (means_iff ..).2 rfl, h3⟩
      · rw [if_neg h3] at h
        cases hm : (arg.resolve y).mode with
        | absent =>
          simp only [hm, badMode] at h
          cases h5 : makeSep y (wantedEncoding arg encoding) kw.sep with
          | none =>
            rw [h5] at h; cases h
            intro b hb; rw [sepIs_iff, h5] at hb; cases hb
          | some b => rw [h5] at h; cases h
        | str s =>
          simp only [hm, badMode] at h
          by_cases hs : s = []
          · rw [if_pos hs] at h
            cases h5 : makeSep y (wantedEncoding arg encoding) kw.sep with
            | none =>
              rw [h5] at h; cases h
              intro b hb; rw [sepIs_iff, h5] at hb; cases hb
            | some b => rw [h5] at h; cases h
          · rw [if_neg hs] at h
            by_cases hb : 'b' ∈ s
            · rw [if_pos hb] at h
              cases h5 : makeSep y (wantedEncoding arg encoding) kw.sep with
              | none =>
                rw [h5] at h; cases h
                intro b hb; rw [sepIs_iff, h5] at hb; cases hb
              | some b => rw [h5] at h; cases h
            · rw [if_neg hb] at h; cases h
              exact ⟨_, s, (means_iff ..).2 rfl, hm, hs, hb⟩
        | num n =>
          simp only [hm, badMode] at h
          by_cases hs : n = 0
          · rw [if_pos hs] at h
            cases h5 : makeSep y (wantedEncoding arg encoding) kw.sep with
            | none =>
              rw [h5] at h; cases h
              intro b hb; rw [sepIs_iff, h5] at hb; cases hb
            | some b => rw [h5] at h; cases h
          · rw [if_neg hs] at h; cases h
            exact ⟨_, n, (means_iff ..).2 rfl, hm, hs⟩
    · simp only [h1, h2, Bool.not_true, Bool.false_eq_true, if_false, Bool.not_false, if_true] at h
      cases h; simpa [Refusal.Because] using h2
  · rw [if_pos (by simp [h1])] at h
    cases h; simpa [Refusal.Because] using h1

theorem emits_takes {B : Type} (y : Sys B) : ∀ (ts : List String) (e : Em B), e.stream.takesBytes = true →
    (∀ t ∈ ts, y.encode e.encoding e.errors t ≠ none) →
    (∃ o, (emits y e ts).1 = { e with out := e.out ++ o } ∧ Written y e.encoding e.errors e.sep ts o) ∧
      ∀ r ∈ (emits y e ts).2, r = false
  | [], e, _, _ => ⟨⟨[], by simp [emits], rfl⟩, by simp [emits]⟩
  | t :: ts, e, hb, hen => by
    obtain ⟨b, hb'⟩ := Option.ne_none_iff_exists'.1 (hen t (by simp))
    have he : emit y e t = ({ e with out := e.out ++ (b ++ e.sep) }, false) := by
      simp only [emit, hb', hb, if_true]
      by_cases hs : e.sep = []
      · simp [hs]
      · simp [hs]
    obtain ⟨⟨o, h1, h2⟩, h3⟩ := emits_takes y ts { e with out := e.out ++ (b ++ e.sep) } hb
      (fun t' ht' => hen t' (by simp [ht']))
    refine ⟨⟨b ++ e.sep ++ o, ?_, b, o, hb', h2, rfl⟩, ?_⟩
    · simp only [emits, he, h1, List.append_assoc]
    · simp only [emits, he, List.mem_cons]
      rintro r (rfl | h)
      · rfl
      · exact h3 r h

/-- **C119**, second part: an emitter whose stream takes bytes writes every entry, encoded as asked for, in order, each
followed by the separator; no call raises unless an entry cannot be encoded. -/
theorem C119_written_partial {B : Type} (y : Sys B) (arg : Arg) (encoding : Option String) (kw : Kwargs B) (e : Em B)
    (hm : make y arg encoding kw = .ok e) (hb : e.stream.takesBytes = true) (ts : List String)
    (hen : ∀ t ∈ ts, y.encode (wantedEncoding arg encoding) (kw.errors.getD "backslashreplace") t ≠ none) :
    (∃ sep, SepIs y (wantedEncoding arg encoding) kw.sep sep ∧
      Written y (wantedEncoding arg encoding) (kw.errors.getD "backslashreplace") sep ts (emits y e ts).1.out) ∧
    ∀ r ∈ (emits y e ts).2, r = false := by
  obtain ⟨_, _, _, _, h5, h6, h7, _, h9⟩ := (C119_made_partial y arg encoding kw e).1 hm
  rw [← h6, ← h7] at hen
  obtain ⟨⟨o, h1, h2⟩, h3⟩ := emits_takes y ts e hb hen
  refine ⟨⟨e.sep, h5, ?_⟩, h3⟩
  rw [h1, h9, ← h6, ← h7]
  simpa using h2

/-- What is left over of the keyword arguments has no effect: a misspelt option is not noticed. -/
theorem C119_ignored {B : Type} (y : Sys B) (arg : Arg) (encoding : Option String) (kw : Kwargs B) (others : List String) :
    make y arg encoding { kw with others := others } = make y arg encoding kw := rfl

/-! ## What is wrong -/

/-- The full statement: whatever emitter could be made, its stream has every entry, unless an entry cannot be encoded. -/
def C119_full : Prop :=
  ∀ (y : Sys Nat) (arg : Arg) (encoding : Option String) (kw : Kwargs Nat) (e : Em Nat), make y arg encoding kw = .ok e →
    ∀ ts : List String, (∀ t ∈ ts, y.encode e.encoding e.errors t ≠ none) →
      Written y e.encoding e.errors e.sep ts (emits y e ts).1.out

/-- Whenever the stream will not take bytes, everything is lost and no call raises. -/
theorem C119_dropped {B : Type} (y : Sys B) : ∀ (ts : List String) (e : Em B), e.stream.takesBytes = false →
    (∀ t ∈ ts, y.encode e.encoding e.errors t ≠ none) →
    (emits y e ts).1.out = e.out ∧ ∀ r ∈ (emits y e ts).2, r = false
  | [], e, _, _ => ⟨rfl, by simp [emits]⟩
  | t :: ts, e, hb, hen => by
    obtain ⟨b, hb'⟩ := Option.ne_none_iff_exists'.1 (hen t (by simp))
    have he : emit y e t = (e, false) := by simp [emit, hb', hb]
    obtain ⟨h1, h2⟩ := C119_dropped y ts e hb (fun t' ht' => hen t' (by simp [ht']))
    refine ⟨by simp only [emits, he, h1], ?_⟩
    simp only [emits, he, List.mem_cons]
    rintro r (rfl | h)
    · rfl
    · exact h2 r h

namespace Sample

/-- `io.StringIO()`. -/
def stringIO : Obj := ⟨none, false, true, .absent, false⟩
/-- `io.BytesIO()`. -/
def bytesIO : Obj := ⟨none, true, true, .absent, true⟩
/-- `open(path, 'rb')`. -/
def reading : Obj := ⟨none, false, true, .str ['r', 'b'], false⟩
/-- `gzip.open(path, 'wb')`. -/
def gzip : Obj := ⟨none, false, true, .num 2, true⟩
/-- `sys.stdout.buffer`. -/
def stdoutBuffer : Obj := ⟨none, true, true, .str ['w', 'b'], true⟩
/-- `sys.stdout`: a text stream. -/
def console : Obj := ⟨some "utf-8", false, true, .str ['w'], false⟩

/-- A small system: three encodings, characters coded by their number, ASCII with replacement. -/
def sys : Sys Nat where
  known e := e = "UTF-8" || e = "utf-8" || e = "ascii"
  handler e := e = "strict" || e = "backslashreplace"
  encode enc err t :=
    if enc = "ascii" && err = "strict" && t.toList.any (fun c => decide (127 < c.toNat)) then none
    else some (t.toList.map (·.toNat))
  linesep := "\n"
  stdout := ⟨console, some stdoutBuffer⟩
  stderr := ⟨console, some stdoutBuffer⟩

def good : Em Nat := ⟨bytesIO, "UTF-8", "backslashreplace", [10], true, []⟩
theorem good_made : make sys (.obj bytesIO) none {} = .ok good := by rfl
example : make sys (.obj bytesIO) none {} = .ok good :=
  (C119_made_partial sys (.obj bytesIO) none {} good).2
    ⟨by decide, by decide, ⟨.inl rfl, .inl rfl⟩, rfl, rfl, rfl, rfl, rfl, rfl⟩
example : ∃ sep, SepIs sys "UTF-8" Sep.none sep ∧
    Written sys "UTF-8" "backslashreplace" sep ["a", "b"] (emits sys good ["a", "b"]).1.out :=
  (C119_written_partial sys (.obj bytesIO) none {} good good_made rfl ["a", "b"] (by decide)).1
example : (emits sys good ["a", "b"]).1.out = [97, 10, 98, 10] := by decide

/-- The standard streams, passed themselves, are refused; the shortcut takes the buffer. -/
example : make sys (.obj console) none {} = .error .textMode := rfl
example : make sys .stdout none {} = .ok ⟨stdoutBuffer, "UTF-8", "backslashreplace", [10], true, []⟩ := rfl

example : Refusal.textMode.Because sys (.obj console) none {} := C119_refusal_partial sys _ none {} _ rfl
example : make sys (.obj bytesIO) (some "ascii") { sep := .str "ÿ" } = .error .sep := rfl

def lost : Em Nat := ⟨stringIO, "UTF-8", "backslashreplace", [10], true, []⟩
example : (emits sys lost ["a", "b"]).1.out = [] ∧ ∀ r ∈ (emits sys lost ["a", "b"]).2, r = false :=
  C119_dropped sys _ lost rfl (by decide)

end Sample

/-- A `StringIO` is accepted, and everything written to it is dropped silently. -/
theorem C119_violated : ¬ C119_full := by
  intro h
  have := h Sample.sys (.obj Sample.stringIO) none {} Sample.lost rfl ["a"] (by decide)
  obtain ⟨b, rest, h1, _, h2⟩ := this
  cases h1; cases h2

/-- A binary file opened for reading is accepted, too. -/
theorem C119_reading_violated : ¬ C119_full := by
  intro h
  obtain ⟨b, rest, h1, _, h2⟩ := h Sample.sys (.obj Sample.reading) none {}
    ⟨Sample.reading, "UTF-8", "backslashreplace", [10], true, []⟩ rfl ["a"] (by decide)
  cases h1; cases h2

/-- `StreamEmitter('stdout')` made while the process's standard output is replaced by a `StringIO` (as
`contextlib.redirect_stdout` and test runners do) drops everything silently. -/
theorem C119_redirected_violated :
    ∃ e, make { Sample.sys with stdout := ⟨Sample.stringIO, none⟩ } .stdout none {} = .ok e ∧
      emits { Sample.sys with stdout := ⟨Sample.stringIO, none⟩ } e ["a"] = (e, [false]) ∧ e.out = [] :=
  ⟨Sample.lost, rfl, rfl, rfl⟩

/-- A compressed file opened for writing bytes takes entries, and is refused. -/
theorem C119_refused_violated :
    Sample.gzip.takesBytes = true ∧ make Sample.sys (.obj Sample.gzip) none {} = .error .modeType := ⟨rfl, rfl⟩

end Verif.Mk
