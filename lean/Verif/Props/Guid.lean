import Verif.Model.Guid
import Mathlib.Data.List.Lex
import Mathlib.Order.Basic
/-!
# C11: GUIDs

Strings compare as lists of code points.
-/
namespace Verif.Guid

theorem hexc_lt {a b : Nat} (hb : b < 16) : a < b → hexc a < hexc b := by
  unfold hexc; split <;> split <;> omega

theorem hexc_inj {a b : Nat} (h : hexc a = hexc b) (ha : a < 16) (hb : b < 16) : a = b := by
  rcases Nat.lt_trichotomy a b with h1 | h1 | h1
  · have := hexc_lt hb h1; omega
  · exact h1
  · have := hexc_lt ha h1; omega

theorem digits_small {n : Nat} (h : n < 16) : digits n = [n] := by rw [digits, if_pos h]
theorem digits_big {n : Nat} (h : ¬ n < 16) : digits n = digits (n / 16) ++ [n % 16] := by rw [digits, if_neg h]

theorem hex_small {n : Nat} (h : n < 16) : hex n = [hexc n] := by simp [hex, digits_small h]
theorem hex_big {n : Nat} (h : ¬ n < 16) : hex n = hex (n / 16) ++ [hexc (n % 16)] := by simp [hex, digits_big h]

theorem hex_ne_nil (n : Nat) : hex n ≠ [] := by
  by_cases h : n < 16
  · simp [hex_small h]
  · simp [hex_big h]

/-- The number of digits. -/
theorem hex_length (n : Nat) : (hex n).length = if n < 16 then 1 else (hex (n / 16)).length + 1 := by
  by_cases h : n < 16
  · simp [hex_small h, h]
  · rw [hex_big h, if_neg h]; simp

theorem hex_inj : ∀ (n m : Nat), hex n = hex m → n = m := by
  intro n
  induction n using Nat.strongRecOn with
  | ind n ih =>
    intro m h
    by_cases hn : n < 16 <;> by_cases hm : m < 16
    · rw [hex_small hn, hex_small hm] at h
      exact hexc_inj (by simpa using h) hn hm
    · rw [hex_small hn, hex_big hm] at h
      have := congrArg List.length h
      have h2 := List.length_pos_iff.2 (hex_ne_nil (m / 16))
      simp at this; exact absurd this (hex_ne_nil _)
    · rw [hex_big hn, hex_small hm] at h
      have := congrArg List.length h
      simp at this; exact absurd this (hex_ne_nil _)
    · rw [hex_big hn, hex_big hm] at h
      obtain ⟨h1, h2⟩ := List.append_inj' h rfl
      have e1 := ih (n / 16) (by omega) _ h1
      have e2 := hexc_inj (by simpa using h2) (Nat.mod_lt _ (by omega)) (Nat.mod_lt _ (by omega))
      omega

theorem calls_same (pid : Nat) : ∀ (xs : List (Nat × Nat)) (s : Seed), s.pid = pid →
    calls pid s xs = xs.map fun x => hex (s.start + x.2) := by
  intro xs
  induction xs with
  | nil => intro s _; rfl
  | cons x xs ih =>
    intro s hs
    obtain ⟨fresh, id⟩ := x
    have h1 : (guidSeq s pid fresh id).1 = s := by simp [guidSeq, hs]
    have h2 : (guidSeq s pid fresh id).2 = hex (s.start + id) := by simp [guidSeq, hs]
    simp only [calls, h1, h2, ih s hs, List.map_cons]

/-- Within one process every guid is the hexadecimal form of one common start plus the id: the seed it had, or the one it
got when it first called after a fork. -/
theorem calls_eq (pid : Nat) (s : Seed) (xs : List (Nat × Nat)) :
    ∃ start, calls pid s xs = xs.map fun x => hex (start + x.2) := by
  by_cases hs : s.pid = pid
  · exact ⟨s.start, calls_same pid xs s hs⟩
  · cases xs with
    | nil => exact ⟨0, rfl⟩
    | cons x xs =>
      obtain ⟨fresh, id⟩ := x
      have h1 : (guidSeq s pid fresh id).1 = ⟨pid, fresh⟩ := by
        simp [guidSeq, reseed, show pid ≠ s.pid from fun h => hs h.symm]
      have h2 : (guidSeq s pid fresh id).2 = hex (fresh + id) := by
        simp [guidSeq, reseed, show pid ≠ s.pid from fun h => hs h.symm]
      refine ⟨fresh, ?_⟩
      simp only [calls, h1, h2, calls_same pid xs ⟨pid, fresh⟩ rfl, List.map_cons]

/-- C11: within one process, whatever the seed and even if it has just been forked, two calls give the same guid exactly
when they were given the same id. -/
theorem C11_unique_partial (pid : Nat) (s : Seed) (xs : List (Nat × Nat)) (i j : Nat) (hi : i < xs.length)
    (hj : j < xs.length) : (calls pid s xs)[i]? = (calls pid s xs)[j]? ↔ xs[i].2 = xs[j].2 := by
  obtain ⟨st, h⟩ := calls_eq pid s xs
  rw [h]
  simp only [List.getElem?_map, List.getElem?_eq_getElem hi, List.getElem?_eq_getElem hj, Option.map_some,
    Option.some.injEq]
  constructor
  · intro e; have := hex_inj _ _ e; omega
  · intro e; rw [e]

example : calls 7 ⟨3, 99⟩ [(160, 1), (5, 2), (6, 1)] = [[97, 49], [97, 50], [97, 49]] := by
  simp [calls, guidSeq, reseed, hex, digits, hexc]

theorem lt_append_of_lt : ∀ {as bs : List Nat}, as.length = bs.length → as < bs → ∀ cs ds, as ++ cs < bs ++ ds := by
  intro as
  induction as with
  | nil =>
    intro bs hl h
    cases bs with
    | nil => exact absurd h (lt_irrefl _)
    | cons b bs => simp at hl
  | cons a as ih =>
    intro bs hl h cs ds
    cases bs with
    | nil => simp at hl
    | cons b bs =>
      simp only [List.cons_append]
      rw [List.cons_lt_cons_iff] at h ⊢
      rcases h with h | ⟨h, h'⟩
      · exact .inl h
      · exact .inr ⟨h, ih (by simpa using hl) h' cs ds⟩

theorem append_lt_append_left : ∀ (as : List Nat) {bs cs : List Nat}, bs < cs → as ++ bs < as ++ cs := by
  intro as
  induction as with
  | nil => intro bs cs h; exact h
  | cons a as ih =>
    intro bs cs h
    simp only [List.cons_append]
    rw [List.cons_lt_cons_iff]
    exact .inr ⟨rfl, ih h⟩

theorem hex_lt : ∀ (m n : Nat), n < m → (hex n).length = (hex m).length → hex n < hex m := by
  intro m
  induction m using Nat.strongRecOn with
  | ind m ih =>
    intro n hnm hl
    by_cases hm : m < 16
    · have hn : n < 16 := by omega
      rw [hex_small hn, hex_small hm, List.cons_lt_cons_iff]
      exact .inl (hexc_lt hm hnm)
    · by_cases hn : n < 16
      · rw [hex_small hn, hex_big hm] at hl
        simp at hl
        exact absurd hl (hex_ne_nil _)
      · rw [hex_big hn, hex_big hm] at hl ⊢
        have hl' : (hex (n / 16)).length = (hex (m / 16)).length := by simpa using hl
        rcases Nat.lt_or_ge (n / 16) (m / 16) with h | h
        · exact lt_append_of_lt hl' (ih _ (by omega) _ h hl') _ _
        · have e : n / 16 = m / 16 := by have := Nat.div_le_div_right (c := 16) (le_of_lt hnm); omega
          rw [e]
          refine append_lt_append_left _ ?_
          rw [List.cons_lt_cons_iff]
          exact .inl (hexc_lt (Nat.mod_lt _ (by omega)) (by omega))

/-- C11: guids of the same length compare as strings like their ids as numbers. -/
theorem C11_order_partial (s : Seed) (i j : Nat) (hl : (hex (s.start + i)).length = (hex (s.start + j)).length) :
    hex (s.start + i) < hex (s.start + j) ↔ i < j := by
  constructor
  · intro h
    rcases Nat.lt_trichotomy i j with h' | h' | h'
    · exact h'
    · rw [h'] at h; exact absurd h (lt_irrefl _)
    · have := hex_lt _ _ (show s.start + j < s.start + i by omega) hl.symm
      exact absurd (lt_trans h this) (lt_irrefl _)
  · intro h
    exact hex_lt _ _ (by omega) hl

example : hex (160 + 3) < hex (160 + 11) := (C11_order_partial ⟨1, 160⟩ 3 11 (by simp [hex, digits])).2 (by decide)

/-- The number of digits is `k + 1` exactly from `16^k` up to `16^(k+1)`. -/
theorem hex_length_iff (k : Nat) : ∀ n, 0 < n → ((hex n).length = k + 1 ↔ 16 ^ k ≤ n ∧ n < 16 ^ (k + 1)) := by
  induction k with
  | zero =>
    intro n hn
    rw [hex_length]
    have := List.length_pos_iff.2 (hex_ne_nil (n / 16))
    split
    · simp; omega
    · simp; rename_i h; exact ⟨fun h' => absurd h' (hex_ne_nil _), fun h' => by omega⟩
  | succ k ih =>
    intro n hn
    rw [hex_length]
    split
    · rename_i h
      simp only [Nat.pow_succ]
      have : 0 < 16 ^ k := Nat.pow_pos (by omega)
      constructor
      · intro h'; omega
      · intro ⟨h', _⟩; omega
    · rename_i h
      rw [Nat.add_right_cancel_iff, ih (n / 16) (by omega)]
      simp only [Nat.pow_succ]
      omega

/-- C11: a start of 24 significant digits keeps the order for as long as the digits suffice: the ids of a process are in
order up to `16^24 - start`. -/
theorem C11_order_24_partial (s : Seed) (hs : 16 ^ 23 ≤ s.start) (i j : Nat) (hi : s.start + i < 16 ^ 24)
    (hj : s.start + j < 16 ^ 24) : hex (s.start + i) < hex (s.start + j) ↔ i < j := by
  refine C11_order_partial s i j ?_
  rw [(hex_length_iff 23 (s.start + i) (by omega)).2 ⟨by omega, hi⟩,
    (hex_length_iff 23 (s.start + j) (by omega)).2 ⟨by omega, hj⟩]

example : hex (16 ^ 23 + 9) < hex (16 ^ 23 + 10) :=
  (C11_order_24_partial ⟨1, 16 ^ 23⟩ (by decide) 9 10 (by decide) (by decide)).2 (by decide)

theorem hex_last (k : Nat) : hex (16 ^ (k + 1) - 1) = List.replicate (k + 1) 102 := by
  induction k with
  | zero => rw [hex_small (by decide)]; decide
  | succ k ih =>
    have hp : 0 < 16 ^ (k + 1) := Nat.pow_pos (by omega)
    rw [hex_big (by rw [Nat.pow_succ]; omega)]
    have e1 : (16 ^ (k + 1 + 1) - 1) / 16 = 16 ^ (k + 1) - 1 := by rw [Nat.pow_succ]; omega
    have e2 : (16 ^ (k + 1 + 1) - 1) % 16 = 15 := by rw [Nat.pow_succ]; omega
    rw [e1, e2, ih]
    simp only [List.replicate_succ']
    rfl

theorem hex_first (k : Nat) : ∃ t, hex (16 ^ (k + 1)) = 49 :: t := by
  induction k with
  | zero => refine ⟨[48], ?_⟩; rw [hex_big (by decide), hex_small (by decide)]; rfl
  | succ k ih =>
    obtain ⟨t, ht⟩ := ih
    have hp : 0 < 16 ^ (k + 1) := Nat.pow_pos (by omega)
    refine ⟨t ++ [48], ?_⟩
    rw [hex_big (by rw [Nat.pow_succ]; omega)]
    have e1 : (16 ^ (k + 1 + 1)) / 16 = 16 ^ (k + 1) := by rw [Nat.pow_succ]; omega
    have e2 : (16 ^ (k + 1 + 1)) % 16 = 0 := by rw [Nat.pow_succ]; omega
    rw [e1, e2, ht]
    rfl

/-- C11 fails: whatever the seed, there are consecutive ids whose guids are in the wrong order. -/
theorem C11_order_violated (s : Seed) : ∃ i, hex (s.start + (i + 1)) < hex (s.start + i) := by
  have hlt : s.start < 16 ^ (s.start + 1) :=
    Nat.lt_of_lt_of_le (Nat.lt_pow_self (by decide : 1 < 16)) (Nat.pow_le_pow_right (by decide) (by omega))
  refine ⟨16 ^ (s.start + 1) - 1 - s.start, ?_⟩
  have e1 : s.start + (16 ^ (s.start + 1) - 1 - s.start + 1) = 16 ^ (s.start + 1) := by omega
  have e2 : s.start + (16 ^ (s.start + 1) - 1 - s.start) = 16 ^ (s.start + 1) - 1 := by omega
  rw [e1, e2, hex_last]
  obtain ⟨t, ht⟩ := hex_first s.start
  rw [ht, List.replicate_succ, List.cons_lt_cons_iff]
  exact .inl (by decide)

end Verif.Guid
