import Verif.Model.Json
import Verif.Spec.Json
import Mathlib.Data.List.Infix
import Mathlib.Data.List.Forall2
/-!
# C39: quoted values
-/
namespace Verif.Json

open Guid (hexc)

theorem hexVal_hexc {d : Nat} (h : d < 16) : hexVal (hexc d) = some d := by
  unfold hexc hexVal
  by_cases h10 : d < 10
  · rw [if_pos h10, if_pos (by omega)]; congr 1; omega
  · rw [if_neg h10, if_neg (by omega), if_pos (by omega)]; congr 1; omega

/-- One character as units of at most 16 bits. -/
def units (c : Nat) : List Nat :=
  if c < 0x10000 then [c] else [0xd800 + (c - 0x10000) / 1024 % 1024, 0xdc00 + (c - 0x10000) % 1024]

/-- The four-digit escape is read back. -/
theorem readUnits_u4 {n : Nat} (h : n < 0x10000) (rest : List Nat) :
    readUnits (u4 n ++ rest) = (readUnits rest).map fun r => (n :: r.1, r.2) := by
  simp only [u4, List.cons_append, List.nil_append]
  rw [readUnits]
  simp only [hexVal_hexc (Nat.mod_lt _ (show 0 < 16 by decide))]
  have : n / 4096 % 16 * 4096 + n / 256 % 16 * 256 + n / 16 % 16 * 16 + n % 16 = n := by omega
  rw [this]

theorem readUnits_char {c : Nat} (h : c < 0x110000) (rest : List Nat) :
    readUnits (encodeChar c ++ rest) = (readUnits rest).map fun r => (units c ++ r.1, r.2) := by
  unfold encodeChar units
  split
  · rename_i e; subst e; simp [readUnits, simpleEscape]
  split
  · rename_i e; subst e; simp [readUnits, simpleEscape]
  split
  · rename_i e; subst e; simp [readUnits, simpleEscape]
  split
  · rename_i e; subst e; simp [readUnits, simpleEscape]
  split
  · rename_i e; subst e; simp [readUnits, simpleEscape]
  split
  · rename_i e; subst e; simp [readUnits, simpleEscape]
  split
  · rename_i e; subst e; simp [readUnits, simpleEscape]
  split
  · rename_i h1 h2 _ _ _ _ _ h3
    rw [if_pos (by omega)]
    simp only [List.cons_append, List.nil_append]
    rw [readUnits, if_neg (by omega)]
    · exact fun h => h2 h
    · intro a b c d rest h; exact absurd h h1
    · intro a b h; exact absurd h h1
  split
  · rename_i h4
    simpa using readUnits_u4 h4 rest
  · rw [List.append_assoc, readUnits_u4 (by omega), readUnits_u4 (by omega)]
    simp [Function.comp_def]

theorem readUnits_body : ∀ (s : List Nat), (∀ c ∈ s, c < 0x110000) → ∀ rest,
    readUnits (s.flatMap encodeChar ++ 34 :: rest) = some (s.flatMap units, rest) := by
  intro s
  induction s with
  | nil => intro _ rest; simp [readUnits]
  | cons c s ih =>
    intro h rest
    rw [List.flatMap_cons, List.append_assoc, readUnits_char (h c (by simp)),
      ih (fun c hc => h c (by simp [hc]))]
    simp

theorem joinPairs_units : ∀ (s : List Nat), Text s → joinPairs (s.flatMap units) = s := by
  intro s
  induction s with
  | nil => intro _; rfl
  | cons c s ih =>
    intro ⟨hb, hc⟩
    have ih' := ih ⟨fun c hc => hb c (by simp [hc]), hc.tail⟩
    have hcb := hb c (by simp)
    rw [List.flatMap_cons]
    by_cases h16 : c < 0x10000
    · have hu : units c = [c] := by simp [units, h16]
      rw [hu]
      cases s with
      | nil => rfl
      | cons d s =>
        have hnd : ¬ (isHigh c = true ∧ isLow d = true) := by
          cases hc with | cons_cons h _ => exact h
        have hex : ∃ u us, (d :: s).flatMap units = u :: us ∧ ¬ (isHigh c = true ∧ isLow u = true) := by
          rw [List.flatMap_cons]
          by_cases hd : d < 0x10000
          · exact ⟨d, _, by simp [units, hd]; rfl, hnd⟩
          · refine ⟨0xd800 + (d - 0x10000) / 1024 % 1024, _, by simp [units, hd]; rfl, ?_⟩
            rintro ⟨_, hl⟩
            simp only [isLow, Bool.and_eq_true, decide_eq_true_eq] at hl
            omega
        obtain ⟨u, us, hus, hnu⟩ := hex
        rw [hus] at ih' ⊢
        rw [List.cons_append, List.nil_append, joinPairs, if_neg (by simpa using hnu), ih']
    · have hu : units c = [0xd800 + (c - 0x10000) / 1024 % 1024, 0xdc00 + (c - 0x10000) % 1024] := by
        simp [units, h16]
      rw [hu]
      simp only [List.cons_append, List.nil_append]
      have e : 0x10000 + (0xd800 + (c - 0x10000) / 1024 % 1024 - 0xd800) * 1024 +
          (0xdc00 + (c - 0x10000) % 1024 - 0xdc00) = c := by omega
      rw [joinPairs, if_pos, ih', e]
      · simp only [isHigh, isLow, Bool.and_eq_true, decide_eq_true_eq]; omega

/-- C39: a quoted value is read back, whatever follows it. -/
theorem C39_read_back_partial (s : List Nat) (hs : Text s) (rest : List Nat) : loads (dumps s ++ rest) = some (s, rest) := by
  simp only [dumps, List.append_assoc, List.cons_append, loads, List.nil_append, readUnits_body s hs.1, Option.map_some,
    joinPairs_units s hs]

/-- C39: quoting is injective; even when text follows, the value is determined. -/
theorem C39_injective_partial (s t : List Nat) (hs : Text s) (ht : Text t) (u v : List Nat) (h : dumps s ++ u = dumps t ++ v) :
    s = t ∧ u = v := by
  have h1 := C39_read_back_partial s hs u
  rw [h, C39_read_back_partial t ht v] at h1
  simp only [Option.some.injEq, Prod.mk.injEq] at h1
  exact ⟨h1.1.symm, h1.2.symm⟩

example := C39_injective_partial [97, 34] [97, 34] ⟨by decide, by decide⟩ ⟨by decide, by decide⟩ [32] [32] rfl

theorem u4_printable (n : Nat) : ∀ c ∈ u4 n, 32 ≤ c ∧ c ≤ 126 := by
  intro c hc
  have : ∀ d, d < 16 → 32 ≤ hexc d ∧ hexc d ≤ 126 := by
    intro d hd; unfold hexc; split <;> omega
  simp only [u4, List.mem_cons, List.not_mem_nil, or_false] at hc
  rcases hc with rfl | rfl | rfl | rfl | rfl | rfl
  · decide
  · decide
  all_goals exact this _ (Nat.mod_lt _ (by decide))

/-- C39: the output is printable ASCII, so in particular it has no line break or other control character. -/
theorem C39_printable (s : List Nat) : ∀ c ∈ dumps s, 32 ≤ c ∧ c ≤ 126 := by
  intro c hc
  simp only [dumps, List.mem_append, List.mem_cons, List.mem_flatMap, List.not_mem_nil, or_false] at hc
  rcases hc with (rfl | ⟨x, _, hx⟩) | rfl
  · decide
  · unfold encodeChar at hx
    repeat' split at hx
    all_goals
      first
      | (simp only [List.mem_cons, List.not_mem_nil, or_false] at hx; omega)
      | exact u4_printable _ _ hx
      | (rcases List.mem_append.1 hx with h | h <;> exact u4_printable _ _ h)
  · decide

example : 34 ∈ dumps [10, 233] ∧ 92 ∈ dumps [10, 233] := by decide

/-- C39: printable ASCII without quotes and backslashes is shown as it is, between quotes. -/
theorem C39_plain (s : List Nat) (hs : ∀ c ∈ s, 32 ≤ c ∧ c ≤ 126 ∧ c ≠ 34 ∧ c ≠ 92) : dumps s = 34 :: s ++ [34] := by
  have h : s.flatMap encodeChar = s := by
    induction s with
    | nil => rfl
    | cons c s ih =>
      obtain ⟨h1, h2, h3, h4⟩ := hs c (by simp)
      have : encodeChar c = [c] := by
        unfold encodeChar
        rw [if_neg h4, if_neg h3, if_neg (by omega), if_neg (by omega), if_neg (by omega), if_neg (by omega), if_neg (by omega),
          if_pos ⟨h1, h2⟩]
      rw [List.flatMap_cons, this, ih fun c hc => hs c (by simp [hc])]; rfl
  unfold dumps
  rw [h]

example : dumps [97, 32, 123, 125] = [34, 97, 32, 123, 125, 34] := C39_plain _ (by decide)

/-- Literal segments and quoted values in turn: the first segment, then for each value the value and the next segment. -/
def entry (first : List Nat) : List (List Nat × List Nat) → List Nat
  | [] => first
  | (value, next) :: rest => first ++ dumps value ++ entry next rest

/-- C39: an entry of quoted fields between fixed literals determines the values of all the fields. -/
theorem C39_entry_partial (lits : List (List Nat)) : ∀ (first : List Nat) (vs ws : List (List Nat)), (∀ v ∈ vs, Text v) →
    (∀ w ∈ ws, Text w) → vs.length = lits.length → ws.length = lits.length →
    entry first (vs.zip lits) = entry first (ws.zip lits) → vs = ws := by
  induction lits with
  | nil => intro _ vs ws _ _ hv hw _; simp at hv hw; simp [hv, hw]
  | cons l lits ih =>
    intro first vs ws hvs hws hv hw h
    cases vs with
    | nil => simp at hv
    | cons v vs =>
      cases ws with
      | nil => simp at hw
      | cons w ws =>
        simp only [List.zip_cons_cons, entry, List.append_assoc, List.append_cancel_left_eq] at h
        obtain ⟨h1, h2⟩ := C39_injective_partial v w (hvs v (by simp)) (hws w (by simp)) _ _ h
        rw [h1, ih l vs ws (fun v hv => hvs v (by simp [hv])) (fun v hv => hws v (by simp [hv])) (by simpa using hv)
          (by simpa using hw) h2]

/-- The reader really stops at the end of the value: a quote in it does not end it. -/
example : Text [97, 34, 10, 233, 0x1f600] ∧
    dumps [97, 34, 10] = [34, 97, 92, 34, 92, 110, 34] ∧
    loads (dumps [97, 34, 10, 233, 0x1f600] ++ [32, 98]) = some ([97, 34, 10, 233, 0x1f600], [32, 98]) := by
  have : Text [97, 34, 10, 233, 0x1f600] := ⟨by decide, by decide⟩
  exact ⟨this, by decide, C39_read_back_partial _ this _⟩

/-- C39 fails for text outside `Text`: two lone surrogates, high then low, are quoted like the one character they would
make, so quoting is not injective on all Python strings. -/
theorem C39_surrogates_violated : dumps [0xd83d, 0xde00] = dumps [0x1f600] ∧ [0xd83d, 0xde00] ≠ [0x1f600] := by decide

end Verif.Json
