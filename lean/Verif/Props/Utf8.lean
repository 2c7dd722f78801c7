import Verif.Model.Utf8
import Verif.Spec.Utf8
import Verif.Props.Json
/-!
# C91: encoded text is text again
-/
namespace Verif.Utf8

theorem decode_one {a : Nat} (h : a < 0x80) (rest : List Nat) : decode (a :: rest) = (decode rest).map (a :: ·) := by
  rw [decode.eq_def]; simp only [if_pos h]

theorem decode_char {c : Nat} (h : Scalar c) (rest : List Nat) :
    decode (encodeChar c ++ rest) = (decode rest).map (c :: ·) := by
  unfold Scalar at h
  unfold encodeChar
  split
  · rename_i h1
    simp only [List.singleton_append]; exact decode_one h1 rest
  rename_i h1
  split
  · rename_i h2
    simp only [List.cons_append, List.nil_append]
    rw [decode, if_neg (by omega), if_neg (by omega), if_pos (by omega)]
    have hc : (0xc0 + c / 64 - 0xc0) * 64 + (0x80 + c % 64 - 0x80) = c := by omega
    simp only [hc]
    rw [if_pos ⟨by simp [cont]; omega, by omega⟩]
  rename_i h2
  rw [if_neg (by omega)]
  split
  · rename_i h3
    simp only [List.cons_append, List.nil_append]
    rw [decode, if_neg (by omega), if_neg (by omega), if_neg (by omega), if_pos (by omega)]
    have hc : (0xe0 + c / 4096 - 0xe0) * 4096 + (0x80 + c / 64 % 64 - 0x80) * 64 + (0x80 + c % 64 - 0x80) = c := by omega
    simp only [hc]
    rw [if_pos ⟨by simp [cont]; omega, by simp [cont]; omega, by omega, h⟩]
  · simp only [List.cons_append, List.nil_append]
    rw [decode, if_neg (by omega), if_neg (by omega), if_neg (by omega), if_neg (by omega)]
    have hc : (0xf0 + c / 262144 - 0xf0) * 262144 + (0x80 + c / 4096 % 64 - 0x80) * 4096 +
        (0x80 + c / 64 % 64 - 0x80) * 64 + (0x80 + c % 64 - 0x80) = c := by omega
    simp only [hc]
    rw [if_pos ⟨by simp [cont]; omega, by simp [cont]; omega, by simp [cont]; omega, by omega, h⟩]

theorem decode_encode_append (s : List Nat) (h : ∀ c ∈ s, Scalar c) (rest : List Nat) :
    decode (encode s ++ rest) = (decode rest).map (s ++ ·) := by
  induction s with
  | nil => simp [encode]
  | cons c s ih =>
    have := ih fun c hc => h c (by simp [hc])
    simp only [encode, List.flatMap_cons, List.append_assoc] at this ⊢
    rw [decode_char (h c (by simp)), this, Option.map_map]
    rfl

/-- **C91.**  Encoded text decodes to itself, if it has no surrogates. -/
theorem C91_decode_partial (s : List Nat) (h : ∀ c ∈ s, Scalar c) : decode (encode s) = some s := by
  have := decode_encode_append s h []
  simpa [decode] using this

/-- C91: what several entries encode to, one after the other, is what their concatenation encodes to. -/
theorem C91_append (s t : List Nat) : encode (s ++ t) = encode s ++ encode t := by simp [encode]

/-- C91: bytes below 128 of encoded text are characters of the text, or of the escape `\udxxx` for a surrogate; so a
separator such as a line break is found in the encoded text exactly where it is in the text. -/
theorem C91_ascii (s : List Nat) (b : Nat) (hb : b < 0x80) (hs : ∀ c ∈ s, Scalar c) : b ∈ encode s ↔ b ∈ s := by
  induction s with
  | nil => simp [encode]
  | cons c s ih =>
    have ih' := ih fun c hc => hs c (by simp [hc])
    have hc := hs c (by simp)
    simp only [encode, List.flatMap_cons, List.mem_append, List.mem_cons] at ih' ⊢
    rw [ih']
    refine or_congr_left ?_
    unfold Scalar at hc
    unfold encodeChar
    split
    · simp
    split
    · simp only [List.mem_cons, List.not_mem_nil, or_false]; omega
    rw [if_neg (by omega)]
    split
    · simp only [List.mem_cons, List.not_mem_nil, or_false]; omega
    · simp only [List.mem_cons, List.not_mem_nil, or_false]; omega

/-- Every text is encoded, surrogates included, and what it is encoded to is valid UTF-8. -/
theorem u4_ascii {c : Nat} : ∀ b ∈ Json.u4 c, b < 0x80 := fun b hb => by
  have := Json.u4_printable c b hb; omega

theorem decode_ascii_append {l : List Nat} (h : ∀ b ∈ l, b < 0x80) (rest : List Nat) :
    decode (l ++ rest) = (decode rest).map (l ++ ·) := by
  induction l with
  | nil => simp
  | cons b l ih =>
    rw [List.cons_append, decode_one (h b (by simp)), ih fun b hb => h b (by simp [hb]), Option.map_map]
    rfl

/-- What a reader sees for a text: surrogates as `\udxxx`. -/
def seen (s : List Nat) : List Nat := s.flatMap fun c => if Scalar c then [c] else Json.u4 c

/-- C91: every text, surrogates or not, is encoded to valid UTF-8; surrogates are seen as `\udxxx`. -/
theorem C91_valid (s : List Nat) (h : ∀ c ∈ s, c < 0x110000) : decode (encode s) = some (seen s) := by
  have : ∀ rest, decode (encode s ++ rest) = (decode rest).map (seen s ++ ·) := by
    intro rest
    induction s with
    | nil => simp [encode, seen]
    | cons c s ih =>
      have ih := ih fun c hc => h c (by simp [hc])
      have hc := h c (by simp)
      simp only [encode, seen, List.flatMap_cons, List.append_assoc] at ih ⊢
      by_cases hs : Scalar c
      · rw [decode_char hs, ih, Option.map_map, if_pos hs]; rfl
      · have hs' := hs
        unfold Scalar at hs'
        have he : encodeChar c = Json.u4 c := by
          unfold encodeChar
          rw [if_neg (by omega), if_neg (by omega), if_pos (by omega)]
        rw [he, decode_ascii_append u4_ascii, ih, Option.map_map, if_neg hs]; rfl
  have := this []
  simpa [decode] using this

/-- C91 fails for surrogates: two different texts give the same bytes. -/
theorem C91_violated : encode [0xd800] = encode [92, 117, 100, 56, 48, 48] ∧ [0xd800] ≠ [92, 117, 100, 56, 48, 48] := by decide

example : encode [0x68, 0xe9, 0x20ac, 0x1f600] = [0x68, 0xc3, 0xa9, 0xe2, 0x82, 0xac, 0xf0, 0x9f, 0x98, 0x80] := by decide
example : decode (encode [0x68, 0xe9, 0x20ac, 0x1f600, 10]) = some [0x68, 0xe9, 0x20ac, 0x1f600, 10] :=
  C91_decode_partial _ (by decide)
example : decode [0xc0, 0x80] = none ∧ decode [0xed, 0xa0, 0x80] = none := by decide

theorem pairs_encode16 (s : List Nat) (h : ∀ c ∈ s, c < 0x10000) (rest : List Nat) :
    pairs ((s.flatMap fun c => [c % 256, c / 256]) ++ rest) = s ++ pairs rest := by
  induction s with
  | nil => rfl
  | cons c s ih =>
    have := ih fun x hx => h x (by simp [hx])
    simp only [List.flatMap_cons, List.cons_append, List.nil_append, List.append_assoc]
    rw [pairs, this]
    congr 1
    omega

/-- C91 for UTF-16: a text encoded at once decodes; of two texts encoded one after the other the second is preceded by a stray
character U+FEFF. -/
theorem C91_utf16 (s t : List Nat) (hs : ∀ c ∈ s, c < 0x10000) (ht : ∀ c ∈ t, c < 0x10000) :
    decode16 (encode16 s) = s ∧ decode16 (encode16 s ++ encode16 t) = s ++ 0xfeff :: t := by
  have h1 := pairs_encode16 s hs
  have h2 := pairs_encode16 t ht
  refine ⟨?_, ?_⟩
  · have := h1 []
    simpa [encode16, decode16, pairs] using this
  · have := h1 ([0xff, 0xfe] ++ t.flatMap fun c => [c % 256, c / 256])
    have h3 := h2 []
    simp only [List.append_nil] at h3
    simpa [encode16, decode16, pairs, h3] using this

/-- C91 fails for UTF-16: entries and separators are encoded one by one, each with a byte order mark, and the file does not
read back as the entries: `a`, line break, `b`, line break has three stray characters. -/
theorem C91_utf16_violated :
    decode16 (encode16 [0x61] ++ encode16 [10] ++ encode16 [0x62] ++ encode16 [10]) =
      [0x61, 0xfeff, 10, 0xfeff, 0x62, 0xfeff, 10] ∧
    decode16 (encode16 [0x61, 10, 0x62, 10]) = [0x61, 10, 0x62, 10] := by decide

example := C91_utf16 [0x61, 0x20ac] [10] (by decide) (by decide)
example := C91_ascii [0x68, 0xe9, 0x0a] 0x0a (by decide) (by decide)
/-- A lone surrogate among them. -/
example := C91_valid [0x68, 0xd800, 0x1f600] (by decide)

end Verif.Utf8
