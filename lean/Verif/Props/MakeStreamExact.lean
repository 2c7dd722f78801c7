import Verif.Props.MakeStream
/-!
# C119: exactly what a stream emitter writes, and which calls raise

Whatever emitter could be made: a call raises exactly if its entry cannot be encoded, whether or not the stream takes bytes;
the stream has the entries that can be encoded, each followed by the separator, in order, if it takes bytes, and otherwise
nothing.
-/
namespace Verif.Mk

theorem emits_exact {B : Type} (y : Sys B) : ∀ (ts : List String) (e : Em B),
    (emits y e ts).2 = ts.map (fun t => (y.encode e.encoding e.errors t).isNone) ∧
    ∃ o, (emits y e ts).1 = { e with out := e.out ++ o } ∧
      (e.stream.takesBytes = true → Written y e.encoding e.errors e.sep
        (ts.filter fun t => (y.encode e.encoding e.errors t).isSome) o) ∧
      (e.stream.takesBytes = false → o = [])
  | [], e => ⟨rfl, [], by simp [emits], fun _ => rfl, fun _ => rfl⟩
  | t :: ts, e => by
    cases hc : y.encode e.encoding e.errors t with
    | none =>
      have he : emit y e t = (e, true) := by simp [emit, hc]
      obtain ⟨h1, o, h2, h3, h4⟩ := emits_exact y ts e
      refine ⟨by simp [emits, he, h1, hc], o, by simp [emits, he, h2], fun hb => ?_, h4⟩
      simpa [hc] using h3 hb
    | some b =>
      by_cases hb : e.stream.takesBytes = true
      · have he : emit y e t = ({ e with out := e.out ++ (b ++ e.sep) }, false) := by
          simp only [emit, hc, hb, if_true]
          by_cases hs : e.sep = [] <;> simp [hs]
        obtain ⟨h1, o, h2, h3, -⟩ := emits_exact y ts { e with out := e.out ++ (b ++ e.sep) }
        refine ⟨by simp [emits, he, h1, hc], b ++ e.sep ++ o, by simp [emits, he, h2], fun _ => ?_, fun h => by simp [hb] at h⟩
        simp only [List.filter_cons, hc, Option.isSome_some, if_true]
        exact ⟨b, o, hc, h3 hb, rfl⟩
      · have hb' : e.stream.takesBytes = false := by simpa using hb
        have he : emit y e t = (e, false) := by simp [emit, hc, hb']
        obtain ⟨h1, o, h2, -, h4⟩ := emits_exact y ts e
        exact ⟨by simp [emits, he, h1, hc], o, by simp [emits, he, h2], fun h => absurd h hb, h4⟩

/-- **C119**, exactly: the calls that raise are those whose entry cannot be encoded; the stream has the other entries, or, if it
does not take bytes, none. -/
theorem C119_exact {B : Type} (y : Sys B) (arg : Arg) (encoding : Option String) (kw : Kwargs B) (e : Em B)
    (hm : make y arg encoding kw = .ok e) (ts : List String) :
    let encode := y.encode (wantedEncoding arg encoding) (kw.errors.getD "backslashreplace")
    (emits y e ts).2 = ts.map (fun t => (encode t).isNone) ∧
    (e.stream.takesBytes = true → ∃ sep, SepIs y (wantedEncoding arg encoding) kw.sep sep ∧
      Written y (wantedEncoding arg encoding) (kw.errors.getD "backslashreplace") sep
        (ts.filter fun t => (encode t).isSome) (emits y e ts).1.out) ∧
    (e.stream.takesBytes = false → (emits y e ts).1.out = []) := by
  obtain ⟨_, _, _, _, h5, h6, h7, _, h9⟩ := (C119_made_partial y arg encoding kw e).1 hm
  obtain ⟨h1, o, h2, h3, h4⟩ := emits_exact y ts e
  simp only [← h6, ← h7]
  refine ⟨h1, fun hb => ⟨e.sep, h6 ▸ h5, ?_⟩, fun hb => by simp [h2, h9, h4 hb]⟩
  have := h3 hb
  rw [h2, h9]
  simpa using this

namespace Sample

/-- ASCII, and no way around characters it does not have. -/
def strictAscii : Em Nat := ⟨bytesIO, "ascii", "strict", [10], true, []⟩
theorem strictAscii_made : make sys (.obj bytesIO) (some "ascii") { errors := some "strict" } = .ok strictAscii := by rfl
example : (emits sys strictAscii ["a", "ÿ", "b"]).2 = [false, true, false] :=
  (C119_exact sys _ _ _ _ strictAscii_made ["a", "ÿ", "b"]).1.trans (by decide)
example : (emits sys strictAscii ["a", "ÿ", "b"]).1.out = [97, 10, 98, 10] := by decide

/-- Also a stream that takes no bytes raises for such entries, and only for them. -/
def strictLost : Em Nat := ⟨stringIO, "ascii", "strict", [10], true, []⟩
example : (emits sys strictLost ["a", "ÿ", "b"]).2 = [false, true, false] :=
  (C119_exact sys (.obj stringIO) (some "ascii") { errors := some "strict" } strictLost rfl ["a", "ÿ", "b"]).1.trans (by decide)

end Sample

end Verif.Mk
