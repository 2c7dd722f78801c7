import Verif.Model.SelfRepr
import Verif.Props.SinkRepr
import Mathlib.Algebra.BigOperators.Ring.Finset
/-!
# C156: showing a logger whose sinks show the logger
-/
namespace Verif.SelfRepr

open Reprs (txt Shown logger C143_logger)
open SinkRepr (firstBad)
open scoped BigOperators

/-- Whether a sink shows the logger. -/
def Sink.holds : Sink → Bool
  | .other _ => false
  | .holder _ _ => true

/-- How many sinks show the logger. -/
def holders (sinks : List Sink) : Nat := sinks.countP Sink.holds

/-- The text of a sink around the text `t` of the logger. -/
def Sink.around (t : List Nat) : Sink → List Nat
  | .other s => s
  | .holder pre post => pre ++ t ++ post

/-- The text of a logger whose sinks have these texts. -/
def loggerText (cn name : List Nat) (ts : List (List Nat)) : List Nat :=
  txt "<" ++ cn ++ txt " name=" ++ name ++ txt " sinks=[" ++ (txt ", ").intercalate ts ++ txt "]>"

/-- What surrounds the inner texts: the length of the text of a logger in whose sinks the logger's own text is empty. -/
def around (cn name : List Nat) (sinks : List Sink) : Nat := (loggerText cn name (sinks.map (Sink.around []))).length

theorem shown_text (t : List Nat) (sinks : List Sink) :
    sinks.map (Sink.shown (.text t)) = (sinks.map (Sink.around t)).map .text := by
  rw [List.map_map]
  refine List.map_congr_left fun s _ => ?_
  cases s <;> rfl

theorem length_intercalate (sep : List Nat) (ts : List (List Nat)) :
    (sep.intercalate ts).length = (ts.map List.length).sum + sep.length * (ts.length - 1) := by
  induction ts with
  | nil => simp [List.intercalate]
  | cons t ts ih =>
    cases ts with
    | nil => simp [List.intercalate]
    | cons u ts =>
      have : sep.intercalate (t :: u :: ts) = t ++ (sep ++ sep.intercalate (u :: ts)) := by
        simp [List.intercalate, List.intersperse]
      rw [this, List.length_append, List.length_append, ih]
      simp only [List.map_cons, List.sum_cons, List.length_cons, Nat.add_sub_cancel]
      ring

theorem sum_around (t : List Nat) (sinks : List Sink) :
    ((sinks.map (Sink.around t)).map List.length).sum =
      ((sinks.map (Sink.around [])).map List.length).sum + holders sinks * t.length := by
  induction sinks with
  | nil => simp [holders]
  | cons s sinks ih =>
    simp only [List.map_cons, List.sum_cons, ih, holders, List.countP_cons]
    cases s with
    | other s => simp [Sink.around, Sink.holds]; ring
    | holder pre post => simp [Sink.around, Sink.holds, List.length_append]; ring

theorem length_loggerText (cn name t : List Nat) (sinks : List Sink) :
    (loggerText cn name (sinks.map (Sink.around t))).length = around cn name sinks + holders sinks * t.length := by
  unfold around loggerText
  simp only [List.length_append, length_intercalate, List.length_map, sum_around t]
  ring

/-- Two frames more. -/
theorem repr_step (cn name plain : List Nat) (sinks : List Sink) (n : Nat) (t : List Nat)
    (h : repr cn name plain sinks n = .text t) :
    repr cn name plain sinks (n + 2) = .text (loggerText cn name (sinks.map (Sink.around t))) := by
  show logger cn name plain (sinks.map (Sink.shown (repr cn name plain sinks n))) = _
  rw [h]
  exact (C143_logger cn name plain _).2.1 _ (shown_text t sinks)

theorem repr_one (cn name plain : List Nat) (sinks : List Sink) (h : sinks ≠ []) : repr cn name plain sinks 1 = .text plain := by
  show logger cn name plain (sinks.map fun _ => .exc) = _
  cases sinks with
  | nil => exact absurd rfl h
  | cons s sinks => exact (C143_logger cn name plain _).2.2.1 [] _ rfl

theorem repr_two (cn name plain : List Nat) (sinks : List Sink) (h : 0 < holders sinks) : repr cn name plain sinks 2 = .text plain := by
  show logger cn name plain (sinks.map (Sink.shown .exc)) = _
  rcases firstBad (sinks.map (Sink.shown .exc)) with ⟨ts, hl⟩ | ⟨ts, x, rest, hl, hx⟩
  · exfalso
    obtain ⟨s, hs, hh⟩ := List.countP_pos_iff.1 h
    have hm : Sink.shown .exc s ∈ ts.map Shown.text := hl ▸ List.mem_map_of_mem hs
    obtain ⟨t, _, ht⟩ := List.mem_map.1 hm
    cases s with
    | other s => cases hh
    | holder pre post => cases ht
  · have hm : x ∈ sinks.map (Sink.shown .exc) := by rw [hl]; simp
    obtain ⟨s, _, hs⟩ := List.mem_map.1 hm
    have : x = .exc := by
      cases s with
      | other s => rw [← hs] at hx; rcases hx with hx | hx <;> cases hx
      | holder pre post => exact hs.symm
    subst this
    exact (C143_logger cn name plain _).2.2.1 ts rest hl

/-- **C156, returns.**  Showing a logger returns, whichever of its sinks show it again, if there is a frame left for the call. -/
theorem C156_returns (cn name plain : List Nat) (sinks : List Sink) (n : Nat) :
    ∃ t, repr cn name plain sinks (n + 1) = .text t := by
  have hb : ∀ n, (repr cn name plain sinks n ≠ .base) ∧ ∀ x ∈ (both cn name plain sinks n).2, x ≠ .base := by
    intro n
    induction n with
    | zero => exact ⟨by simp [repr, both], by simp [both]⟩
    | succ n ih =>
      constructor
      · show logger cn name plain (both cn name plain sinks n).2 ≠ .base
        rcases firstBad (both cn name plain sinks n).2 with ⟨ts, hl⟩ | ⟨ts, x, rest, hl, hx⟩
        · rw [(C143_logger cn name plain _).2.1 ts hl]; simp
        · have hxe : x = .exc := hx.resolve_right (ih.2 x (by rw [hl]; simp))
          subst hxe
          rw [(C143_logger cn name plain _).2.2.1 ts rest hl]; simp
      · intro x hx
        obtain ⟨s, _, rfl⟩ := List.mem_map.1 hx
        have h1 := ih.1
        unfold repr at h1
        cases s with
        | other t => simp [Sink.shown]
        | holder pre post =>
          cases he : (both cn name plain sinks n).1 with
          | text t => simp [Sink.shown]
          | exc => simp [Sink.shown]
          | base => exact absurd he h1
  cases h : repr cn name plain sinks (n + 1) with
  | text t => exact ⟨t, rfl⟩
  | exc => exact absurd h (C143_logger cn name plain (both cn name plain sinks n).2).1
  | base => exact absurd h (hb (n + 1)).1

/-- **C156, length.**  If `h ≥ 1` sinks show the logger, its text with `2 m + 1` or `2 m + 2` frames left consists of `h ^ m` plain `repr`s
and of what surrounds them, once for each of the `1 + h + ... + h ^ (m - 1)` loggers shown in full. -/
theorem C156_length (cn name plain : List Nat) (sinks : List Sink) (h : 0 < holders sinks) (m n : Nat)
    (hn : n = 2 * m + 1 ∨ n = 2 * m + 2) :
    ∃ t, repr cn name plain sinks n = .text t ∧
      t.length = holders sinks ^ m * plain.length + (∑ i ∈ Finset.range m, holders sinks ^ i) * around cn name sinks := by
  induction m generalizing n with
  | zero =>
    have hne : sinks ≠ [] := by rintro rfl; simp [holders] at h
    refine ⟨plain, ?_, by simp⟩
    rcases hn with rfl | rfl
    exacts [repr_one _ _ _ _ hne, repr_two _ _ _ _ h]
  | succ m ih =>
    obtain ⟨k, rfl⟩ : ∃ k, n = k + 2 := ⟨n - 2, by omega⟩
    obtain ⟨t, ht, hl⟩ := ih k (by omega)
    refine ⟨_, repr_step _ _ _ _ _ _ ht, ?_⟩
    rw [length_loggerText, hl, Finset.sum_range_succ', pow_succ]
    simp only [pow_succ, pow_zero, ← Finset.sum_mul]
    ring

/-- C156: with one sink that shows the logger the text grows by the same amount for every two frames. -/
theorem C156_one (cn name plain : List Nat) (sinks : List Sink) (h : holders sinks = 1) (m n : Nat)
    (hn : n = 2 * m + 1 ∨ n = 2 * m + 2) :
    ∃ t, repr cn name plain sinks n = .text t ∧ t.length = plain.length + m * around cn name sinks := by
  have := C156_length cn name plain sinks (by omega) m n hn
  simpa [h] using this

/-- C156 is false as "showing a logger takes time and memory in proportion to the recursion limit": with two sinks that show
the logger the text doubles for every two frames. -/
theorem C156_linear_violated (cn name plain : List Nat) (sinks : List Sink) (h : 2 ≤ holders sinks) (m n : Nat)
    (hn : n = 2 * m + 1 ∨ n = 2 * m + 2) :
    ∃ t, repr cn name plain sinks n = .text t ∧ 2 ^ m * plain.length ≤ t.length := by
  obtain ⟨t, ht, hl⟩ := C156_length cn name plain sinks (by omega) m n hn
  refine ⟨t, ht, ?_⟩
  rw [hl]
  exact le_trans (Nat.mul_le_mul_right _ (Nat.pow_le_pow_left h m)) (Nat.le_add_right _ _)

/-- **C156, none.**  If no sink shows the logger, two frames are enough and the text does not depend on the limit. -/
theorem C156_none (cn name plain : List Nat) (sinks : List Sink) (h : holders sinks = 0) (n : Nat) :
    repr cn name plain sinks (n + 2) = .text (loggerText cn name (sinks.map (Sink.around []))) := by
  show logger cn name plain (sinks.map (Sink.shown (repr cn name plain sinks n))) = _
  refine (C143_logger cn name plain _).2.1 _ ?_
  rw [List.map_map]
  refine List.map_congr_left fun s hs => ?_
  have := List.countP_eq_zero.1 h s hs
  cases s with
  | other t => rfl
  | holder pre post => simp [Sink.holds] at this

/-! ## The hypotheses can be met -/

/-- A sink that shows the logger between brackets and another sink, with five frames left. -/
example : repr (txt "L") (txt "'x'") (txt "p") [.holder (txt "(") (txt ")"), .other (txt "s")] 5 =
    .text (txt "<L name='x' sinks=[(<L name='x' sinks=[(p), s]>), s]>") := by decide +kernel

/-- Two of them, with five frames left: four plain texts. -/
example : repr (txt "L") (txt "'x'") (txt "p") [.holder [] [], .holder [] []] 5 =
    .text (txt "<L name='x' sinks=[<L name='x' sinks=[p, p]>, <L name='x' sinks=[p, p]>]>") := by decide +kernel

/-- With 101 frames and the shortest plain text there are more than 10^15 characters. -/
example : ∃ t, repr (txt "L") (txt "'x'") (txt "p") [.holder [] [], .holder [] []] 101 = .text t ∧ 10 ^ 15 < t.length := by
  obtain ⟨t, ht, hl⟩ := C156_linear_violated (txt "L") (txt "'x'") (txt "p") [.holder [] [], .holder [] []] (le_refl _) 50 101 (.inl rfl)
  exact ⟨t, ht, lt_of_lt_of_le (by decide) hl⟩

end Verif.SelfRepr
