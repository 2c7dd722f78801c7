import Verif.Model.Encoding
/-!
# C93: encoding settings
-/
namespace Verif.Enc

/-- There is an encoding called ASCII, and it cannot encode U+00DD. -/
def Codecs.Ascii (k : Codecs) : Prop := ∃ can, k.encoding "ascii" = some can ∧ can 0xdd = false

/-- **C93.**  An emitter can be made exactly if its encoding and its error handler exist. -/
theorem C93_made (k : Codecs) (hk : k.Ascii) (enc err : String) :
    (makeEmitter k enc err).isSome ↔ (k.encoding enc).isSome ∧ (k.handler err).isSome := by
  obtain ⟨can, h1, h2⟩ := hk
  simp only [makeEmitter, check, encode]
  cases k.encoding enc with
  | none => simp
  | some f =>
    simp only [List.all_nil, if_true, h1, List.all_cons, h2, Bool.false_and, Bool.false_eq_true, if_false]
    cases k.handler err with
    | none => simp
    | some b => cases b <;> simp

/-- C93: an emitter that was made never fails to find its encoding or error handler, whatever it is given to write. -/
theorem C93_emits (k : Codecs) (hk : k.Ascii) (enc err : String) (e : String × String) (h : makeEmitter k enc err = some e)
    (text : List Nat) : emitEncode k e text ≠ .lookupError := by
  have hs := (C93_made k hk enc err).1 (by rw [h]; rfl)
  have he : e = (enc, err) := by
    simp only [makeEmitter] at h; split at h <;> simp_all
  subst he
  obtain ⟨f, hf⟩ := Option.isSome_iff_exists.1 hs.1
  obtain ⟨b, hb⟩ := Option.isSome_iff_exists.1 hs.2
  simp only [emitEncode, encode, hf, hb]
  split
  · simp
  · cases b <;> simp

/-- C93: with an error handler that finds replacements, nothing an emitter is given fails to be encoded. -/
theorem C93_lenient (k : Codecs) (hk : k.Ascii) (enc err : String) (e : String × String) (h : makeEmitter k enc err = some e)
    (hl : k.handler err = some false) (text : List Nat) : emitEncode k e text = .ok := by
  have hs := (C93_made k hk enc err).1 (by rw [h]; rfl)
  have he : e = (enc, err) := by
    simp only [makeEmitter] at h; split at h <;> simp_all
  subst he
  obtain ⟨f, hf⟩ := Option.isSome_iff_exists.1 hs.1
  simp only [emitEncode, encode, hf, hl]
  split <;> rfl

/-- C93: which error is raised tells what is wrong: the encoding, or else the error handler. -/
theorem C93_errors (k : Codecs) (hk : k.Ascii) (enc err : String) :
    (check k enc err true = .encodingError ↔ k.encoding enc = none) ∧
    (check k enc err true = .errorsError ↔ k.encoding enc ≠ none ∧ k.handler err = none) := by
  obtain ⟨can, h1, h2⟩ := hk
  simp only [check, encode]
  cases k.encoding enc with
  | none => simp
  | some f =>
    simp only [List.all_nil, if_true, h1, List.all_cons, h2, Bool.false_and, Bool.false_eq_true, if_false]
    cases k.handler err with
    | none => simp
    | some b => cases b <;> simp

/-- **C93, the answer.**  When it does not raise, the check returns False for settings that are not found, if asked not to raise,
True for an error handler that fails on what cannot be encoded, and None for one that finds replacements. -/
theorem C93_answer (k : Codecs) (hk : k.Ascii) (enc err : String) (reraise : Bool) :
    (check k enc err reraise = .false ↔ reraise = false ∧ (k.encoding enc = none ∨ k.handler err = none)) ∧
    (check k enc err reraise = .true ↔ k.encoding enc ≠ none ∧ k.handler err = some true) ∧
    (check k enc err reraise = .none ↔ k.encoding enc ≠ none ∧ k.handler err = some false) := by
  obtain ⟨can, h1, h2⟩ := hk
  simp only [check, encode]
  cases k.encoding enc with
  | none => cases reraise <;> simp
  | some f =>
    simp only [List.all_nil, if_true, h1, List.all_cons, h2, Bool.false_and, Bool.false_eq_true, if_false]
    cases k.handler err with
    | none => cases reraise <;> simp
    | some b => cases b <;> simp

/-- A usual set of codecs. -/
def usual : Codecs where
  encoding := fun s => if s = "ascii" then some (· < 128) else if s = "UTF-8" then some fun c => c < 0xd800 || 0xe000 ≤ c else none
  handler := fun s => if s = "strict" then some true else if s = "replace" ∨ s = "backslashreplace" then some false else none

/-- C93 fails without exceptions: asked to return whether the settings are valid, the check returns None, which is false, for
valid ones with an error handler that finds replacements, among them the default one. -/
theorem C93_returns_violated :
    check usual "UTF-8" "backslashreplace" false = .none ∧ (makeEmitter usual "UTF-8" "backslashreplace").isSome := by decide

example : usual.Ascii := ⟨_, rfl, by decide⟩
example : makeEmitter usual "UTF-8" "backslashreplace" = some ("UTF-8", "backslashreplace") ∧
    makeEmitter usual "UTF-9" "strict" = none ∧ makeEmitter usual "ascii" "nosuch" = none := by decide
example : emitEncode usual ("ascii", "strict") [0xe9] = .unicodeError := by decide

theorem usual_ascii : usual.Ascii := ⟨_, rfl, by decide⟩
example := C93_made usual usual_ascii "UTF-8" "replace"
example := C93_emits usual usual_ascii "ascii" "strict" ("ascii", "strict") (by decide) [0xe9]
example : emitEncode usual ("ascii", "replace") [0xe9] = .ok :=
  C93_lenient usual usual_ascii "ascii" "replace" _ (by decide) (by decide) [0xe9]
example := C93_answer usual usual_ascii "UTF-8" "strict" false
example := C93_errors usual usual_ascii "UTF-9" "strict"

end Verif.Enc
