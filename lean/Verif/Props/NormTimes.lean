import Verif.Model.NormTimes
import Mathlib.Tactic.Linarith
import Mathlib.Tactic.NormNum
import Mathlib.Data.Rat.Floor
import Mathlib.Data.List.Induction
/-!
# C125: normalised timestamps
-/
namespace Verif.Sinks

variable {K : Type} [Field K] [LinearOrder K] [IsStrictOrderedRing K]

/-! ## Specification -/

/-- The newest `size` of the values added (all of them without a size). -/
def newest {X : Type} (size : Option Nat) (ts : List X) : List X :=
  match size with
  | none => ts
  | some n => ts.drop (ts.length - n)

theorem append_newest {X : Type} (size : Option Nat) (ts : List X) (t : X) :
    append size (newest size ts) t = newest size (ts ++ [t]) := by
  cases size with
  | none => rfl
  | some n =>
    simp only [append, newest, List.length_append, List.length_drop, List.length_singleton]
    rcases Nat.lt_or_ge n ts.length with h | h
    · rw [← List.drop_append_of_le_length (l₂ := [t]) (by omega), List.drop_drop]
      congr 1; omega
    · rw [Nat.sub_eq_zero_of_le h, List.drop_zero]
      congr 1

theorem times_foldl (size : Option Nat) (now : K) (ts : List K) :
    (ts.foldl rateAdd (rateInit size now)).times = newest size ts ∧ (ts.foldl rateAdd (rateInit size now)).size = size := by
  induction ts using List.reverseRecOn with
  | nil => cases size <;> simp [newest, rateInit]
  | append_singleton ts t ih =>
    rw [List.foldl_append, List.foldl_cons, List.foldl_nil]
    simp only [rateAdd]
    rw [ih.1, ih.2]
    exact ⟨append_newest size ts t, rfl⟩

/-- C125: `get_norm_times` has one entry for each of the newest `sample_size` timestamps, in the order they were added: its
distance to the oldest of them, rounded. -/
theorem C125_norm_times (rnd : K → K) (size : Option Nat) (now : K) (ts : List K) :
    (normTimes rnd (ts.foldl rateAdd (rateInit size now))).length = (newest size ts).length ∧
    ∀ (i : Nat) (oldest x : K), (newest size ts).head? = some oldest → (newest size ts)[i]? = some x →
      (normTimes rnd (ts.foldl rateAdd (rateInit size now)))[i]? = some (rnd (x - oldest)) := by
  unfold normTimes
  rw [(times_foldl size now ts).1]
  cases hn : newest size ts with
  | nil => exact ⟨rfl, fun i o x h => by cases h⟩
  | cons a l =>
    refine ⟨by simp, fun i o x h hx => ?_⟩
    cases h
    rw [List.getElem?_map, hx]
    rfl

/-- C125: with timestamps in order and a rounding that keeps order and zero, the entries are in order and begin with 0. -/
theorem C125_sorted (rnd : K → K) (hr : Monotone rnd) (h0 : rnd 0 = 0) (size : Option Nat) (now : K) (ts : List K)
    (hs : ts.Pairwise (· ≤ ·)) :
    (normTimes rnd (ts.foldl rateAdd (rateInit size now))).Pairwise (· ≤ ·) ∧
    ∀ x ∈ (normTimes rnd (ts.foldl rateAdd (rateInit size now))).head?, x = 0 := by
  unfold normTimes
  rw [(times_foldl size now ts).1]
  have hp : (newest size ts).Pairwise (· ≤ ·) := by
    cases size with
    | none => exact hs
    | some n => exact hs.sublist (List.drop_sublist _ _)
  cases hn : newest size ts with
  | nil => exact ⟨.nil, fun x h => by cases h⟩
  | cons a l =>
    rw [hn] at hp
    refine ⟨?_, ?_⟩
    · exact List.pairwise_map.2 (hp.imp fun h => hr (sub_le_sub_right h a))
    · intro x hx
      simp only [List.map_cons, List.head?_cons, Option.mem_def, Option.some.injEq, sub_self] at hx
      rw [← hx, h0]

/-- C125: the entries tell nothing of when the series began: the same series `d` later has the same. -/
theorem C125_shift (rnd : K → K) (size : Option Nat) (now now' d : K) (ts : List K) :
    normTimes rnd ((ts.map (· + d)).foldl rateAdd (rateInit size now')) = normTimes rnd (ts.foldl rateAdd (rateInit size now)) := by
  unfold normTimes
  rw [(times_foldl size now' _).1, (times_foldl size now ts).1]
  have : newest size (ts.map (· + d)) = (newest size ts).map (· + d) := by
    cases size with
    | none => rfl
    | some n => simp [newest, List.map_drop]
  rw [this]
  cases newest size ts with
  | nil => rfl
  | cons a l => simp

/-- Rounding to tenths, half up. -/
def tenths (x : ℚ) : ℚ := (⌊x * 10 + 1 / 2⌋ : ℤ) / 10

theorem tenths_mono : Monotone tenths := by
  intro a b h
  unfold tenths
  have : (⌊a * 10 + 1 / 2⌋ : ℤ) ≤ ⌊b * 10 + 1 / 2⌋ := Int.floor_le_floor (by linarith)
  have : ((⌊a * 10 + 1 / 2⌋ : ℤ) : ℚ) ≤ (⌊b * 10 + 1 / 2⌋ : ℤ) := by exact_mod_cast this
  linarith

example : normTimes tenths ([100, 107 / 5, 21, 85 / 4, 22].foldl rateAdd (rateInit (some 3) 0)) = [0, 3 / 10, 1] ∧
    tenths 0 = 0 ∧ [(20 : ℚ), 21, 85 / 4, 22].Pairwise (· ≤ ·) := by
  refine ⟨by decide +kernel, by decide +kernel, by decide +kernel⟩

end Verif.Sinks
