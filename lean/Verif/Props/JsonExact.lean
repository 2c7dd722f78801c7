import Verif.Props.Json
/-!
# C39: exactly what quoting loses
-/
namespace Verif.Json

theorem join_cons_pair {h l : Nat} (rest : List Nat) (hp : isHigh h = true ∧ isLow l = true) :
    joinPairs (h :: l :: rest) = (0x10000 + (h - 0xd800) * 1024 + (l - 0xdc00)) :: joinPairs rest := by
  rw [joinPairs, if_pos (by simp [hp])]

/-- Joining the halves of pairs changes nothing in what is written. -/
theorem encode_join : ∀ s : List Nat, (joinPairs s).flatMap encodeChar = s.flatMap encodeChar
  | [] => rfl
  | [c] => rfl
  | h :: l :: rest => by
    rw [joinPairs]
    split
    · rename_i hp
      simp only [isHigh, isLow, Bool.and_eq_true, decide_eq_true_eq] at hp
      have e1 : encodeChar h = u4 h := by
        unfold encodeChar
        rw [if_neg (by omega), if_neg (by omega), if_neg (by omega), if_neg (by omega), if_neg (by omega), if_neg (by omega),
          if_neg (by omega), if_neg (by omega), if_pos (by omega)]
      have e2 : encodeChar l = u4 l := by
        unfold encodeChar
        rw [if_neg (by omega), if_neg (by omega), if_neg (by omega), if_neg (by omega), if_neg (by omega), if_neg (by omega),
          if_neg (by omega), if_neg (by omega), if_pos (by omega)]
      have e3 : encodeChar (0x10000 + (h - 0xd800) * 1024 + (l - 0xdc00)) = u4 h ++ u4 l := by
        unfold encodeChar
        rw [if_neg (by omega), if_neg (by omega), if_neg (by omega), if_neg (by omega), if_neg (by omega), if_neg (by omega),
          if_neg (by omega), if_neg (by omega), if_neg (by omega)]
        have a : 0xd800 + (0x10000 + (h - 0xd800) * 1024 + (l - 0xdc00) - 0x10000) / 1024 % 1024 = h := by omega
        have b : 0xdc00 + (0x10000 + (h - 0xd800) * 1024 + (l - 0xdc00) - 0x10000) % 1024 = l := by omega
        rw [a, b]
      simp only [List.flatMap_cons, e1, e2, e3, encode_join rest, List.append_assoc]
    · rw [List.flatMap_cons, encode_join (l :: rest)]; simp only [List.flatMap_cons]

/-- Joined text has no pair left to join. -/
theorem joined : ∀ s : List Nat, (∀ c ∈ s, c < 0x110000) → Text (joinPairs s)
  | [], _ => ⟨by simp [joinPairs], by simp [joinPairs]⟩
  | [c], h => ⟨by simpa [joinPairs] using h, by simp [joinPairs]⟩
  | h :: l :: rest, hb => by
    rw [joinPairs]
    split
    · rename_i hp
      have hp' := hp
      simp only [isHigh, isLow, Bool.and_eq_true, decide_eq_true_eq] at hp'
      obtain ⟨i1, i2⟩ := joined rest fun c hc => hb c (by simp [hc])
      refine ⟨?_, ?_⟩
      · intro c hc
        rcases List.mem_cons.1 hc with e | hc
        · have := hb h (by simp); rw [e]; omega
        · exact i1 c hc
      · rw [List.isChain_cons]
        refine ⟨fun y _ => ?_, i2⟩
        rintro ⟨h1, -⟩
        simp only [isHigh, Bool.and_eq_true, decide_eq_true_eq] at h1
        omega
    · rename_i hp
      obtain ⟨i1, i2⟩ := joined (l :: rest) fun c hc => hb c (by simp [List.mem_cons.1 hc])
      refine ⟨?_, ?_⟩
      · intro c hc
        rcases List.mem_cons.1 hc with rfl | hc
        · exact hb c (by simp)
        · exact i1 c hc
      · rw [List.isChain_cons]
        refine ⟨fun y hy => ?_, i2⟩
        rintro ⟨h1, h2⟩
        -- the first of the joined rest is the low half itself, or no low half
        cases rest with
        | nil =>
          simp only [joinPairs, List.head?_cons, Option.mem_def, Option.some.injEq] at hy
          subst hy; exact hp (by simp [h1, h2])
        | cons m rest =>
          rw [joinPairs] at hy
          split at hy
          · simp only [List.head?_cons, Option.mem_def, Option.some.injEq] at hy
            subst hy
            simp only [isLow, Bool.and_eq_true, decide_eq_true_eq] at h2
            omega
          · simp only [List.head?_cons, Option.mem_def, Option.some.injEq] at hy
            subst hy; exact hp (by simp [h1, h2])

/-- Text without such pairs is left alone by joining, and only such text is. -/
theorem join_eq_iff (s : List Nat) (hb : ∀ c ∈ s, c < 0x110000) : joinPairs s = s ↔ Text s := by
  constructor
  · intro h
    have := joined s hb
    rwa [h] at this
  · intro h
    have h1 : loads (dumps s ++ []) = some (s, []) := C39_read_back_partial s h []
    have h2 : loads (dumps (joinPairs s) ++ []) = some (joinPairs s, []) := C39_read_back_partial _ (joined s hb) []
    have h3 : dumps (joinPairs s) = dumps s := by simp only [dumps, encode_join]
    rw [h3, h1] at h2
    simpa using h2.symm

/-- **C39, exactly.**  For every text Python can hold: what is read back from a quoted value is the text with the halves of surrogate
pairs joined, whatever follows it; so it is the text itself if and only if the text has no two such halves next to each other; and two
texts are quoted alike if and only if they are the same once joined. -/
theorem C39_exact (s : List Nat) (hs : ∀ c ∈ s, c < 0x110000) (rest : List Nat) :
    loads (dumps s ++ rest) = some (joinPairs s, rest) ∧
    (loads (dumps s ++ rest) = some (s, rest) ↔ s.IsChain fun a b => ¬ (isHigh a = true ∧ isLow b = true)) ∧
    ∀ t : List Nat, (∀ c ∈ t, c < 0x110000) → (dumps s = dumps t ↔ joinPairs s = joinPairs t) := by
  have h3 : ∀ u, dumps (joinPairs u) = dumps u := fun u => by simp only [dumps, encode_join]
  have h1 : ∀ u, (∀ c ∈ u, c < 0x110000) → ∀ r, loads (dumps u ++ r) = some (joinPairs u, r) := by
    intro u hu r
    rw [← h3 u]; exact C39_read_back_partial _ (joined u hu) r
  refine ⟨h1 s hs rest, ?_, fun t ht => ⟨fun h => ?_, fun h => ?_⟩⟩
  · rw [h1 s hs]
    simp only [Option.some.injEq, Prod.mk.injEq, and_true]
    rw [join_eq_iff s hs, Text]
    exact and_iff_right hs
  · have a := h1 s hs []
    rw [h, h1 t ht] at a
    simpa using a.symm
  · rw [← h3 s, ← h3 t, h]

/-- Two halves next to each other are read back as one character. -/
example : loads (dumps [0x41, 0xd83d, 0xde00, 0xd83d]) = some ([0x41, 0x1f600, 0xd83d], []) := by decide

end Verif.Json
