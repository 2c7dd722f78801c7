import Verif.Props.Sinks
/-!
# C56: rate windows
-/
namespace Verif.Sinks

open Verif.Dct

variable {K : Type} [Field K] [LinearOrder K] [IsStrictOrderedRing K]

/-- The last `size` of a list. -/
def lastN {X : Type} (size : Option Nat) (l : List X) : List X :=
  match size with
  | none => l
  | some n => l.drop (l.length - n)

omit [Field K] [LinearOrder K] [IsStrictOrderedRing K] in
theorem append_lastN (size : Option Nat) (l : List K) (x : K) : append size (lastN size l) x = lastN size (l ++ [x]) := by
  cases size with
  | none => rfl
  | some n =>
    simp only [append, lastN]
    rcases Nat.lt_or_ge l.length n with h | h
    · have h1 : l.length - n = 0 := by omega
      rw [h1, List.drop_zero]
    · rcases Nat.eq_zero_or_pos n with h0 | h0
      · subst h0; simp
      · rw [← List.drop_append_of_le_length (l₂ := [x]) (show l.length - n ≤ l.length by omega), List.drop_drop]
        congr 1
        simp only [List.length_drop, List.length_append, List.length_cons, List.length_nil]
        omega

omit [LinearOrder K] [IsStrictOrderedRing K] in
/-- C56: an accumulator tracks the last `sample_size` timestamps added, in order, and counts all of them. -/
theorem C56_tracked (size : Option Nat) (now : K) (ts : List K) :
    (ts.foldl rateAdd (rateInit size now)).times = lastN size ts ∧
    (ts.foldl rateAdd (rateInit size now)).total = ts.length ∧
    (ts.foldl rateAdd (rateInit size now)).creation = now ∧ (ts.foldl rateAdd (rateInit size now)).size = size := by
  induction ts using List.reverseRecOn with
  | nil => cases size <;> simp [rateInit, lastN]
  | append_singleton ts t ih =>
    obtain ⟨h1, h2, h3, h4⟩ := ih
    simp only [List.foldl_append, List.foldl_cons, List.foldl_nil, rateAdd, h1, h2, h3, h4, append_lastN,
      List.length_append, List.length_cons, List.length_nil, and_self]

theorem heads {l : List K} (h : l ≠ []) : ∃ x y, l.head? = some x ∧ l.getLast? = some y :=
  ⟨_, _, List.head?_eq_some_head h, List.getLast?_eq_some_getLast h⟩

/-- C56: with no window given, the rate is everything ever added over the lifetime. -/
theorem C56_default (a : RateAcc K) (now : K) (hne : a.times ≠ []) (hn : now ≠ a.creation) :
    getRate a none none now = some ((a.total : K) / (now - a.creation)) := by
  obtain ⟨x, y, hx, hy⟩ := heads hne
  unfold getRate
  simp only [hx, hy, orElse, le_refl, if_true]
  rw [if_neg (sub_ne_zero.2 hn)]

/-- C56: with nothing tracked the rate is 0. -/
theorem C56_empty (a : RateAcc K) (start stop : Option K) (now : K) (h : a.times = []) : getRate a start stop now = some 0 := by
  unfold getRate; simp [h]

theorem left_split {l : List K} (h : l.Pairwise (· ≤ ·)) (s : K) :
    (∀ y ∈ l.take (Bis.left (fun y => decide (s ≤ y)) l), y < s) ∧
    (∀ y ∈ l.drop (Bis.left (fun y => decide (s ≤ y)) l), s ≤ y) ∧ Bis.left (fun y => decide (s ≤ y)) l ≤ l.length := by
  have hm : Bis.Mono (fun y => decide (s ≤ y)) l :=
    h.imp fun hyz hxy => by simp only [decide_eq_true_eq] at hxy ⊢; exact le_trans hxy hyz
  obtain ⟨h1, h2⟩ := Bis.right_split hm
  exact ⟨fun y hy => by simpa using h1 y hy, fun y hy => by simpa using h2 y hy, (Bis.right_spec hm).1⟩

/-- C56: for a window that begins after some tracked event and that no tracked event is after, the rate is the number of
tracked events in the window over its length.  What is missing for the full claim: windows that end before the last tracked
event, begin before the first, contain none, or have a bound equal to 0. -/
theorem C56_window_partial (a : RateAcc K) (s e now : K) (hs : a.times.Pairwise (· ≤ ·)) (hs0 : s ≠ 0) (he0 : e ≠ 0)
    (hc : a.creation < s) (hse : s < e) (hb : ∃ t ∈ a.times, t < s) (hi : ∃ t ∈ a.times, s ≤ t) (hend : ∀ t ∈ a.times, t ≤ e) :
    getRate a (some s) (some e) now = some ((a.times.countP (fun t => decide (s ≤ t ∧ t ≤ e)) : K) / (e - s)) := by
  obtain ⟨h1, h2, h3⟩ := left_split hs s
  obtain ⟨x, y, hx, hy⟩ := heads (l := a.times) (by rintro h; obtain ⟨t, ht, _⟩ := hb; simp [h] at ht)
  have hidx : Bis.left (fun y => decide (s ≤ y)) a.times ≠ 0 := by
    intro h
    rw [h, List.drop_zero] at h2
    obtain ⟨t, ht, hlt⟩ := hb
    exact absurd (h2 t ht) (not_le.2 hlt)
  have hcount : a.times.length - Bis.left (fun y => decide (s ≤ y)) a.times ≠ 0 := by
    intro h
    have hall : a.times.take (Bis.left (fun y => decide (s ≤ y)) a.times) = a.times := List.take_of_length_le (by omega)
    rw [hall] at h1
    obtain ⟨t, ht, hle⟩ := hi
    exact absurd (h1 t ht) (not_lt.2 hle)
  have hcp : a.times.countP (fun t => decide (s ≤ t ∧ t ≤ e)) =
      a.times.length - Bis.left (fun y => decide (s ≤ y)) a.times := by
    conv_lhs => rw [← List.take_append_drop (Bis.left (fun y => decide (s ≤ y)) a.times) a.times]
    rw [List.countP_append, List.countP_eq_zero.2, List.countP_eq_length.2, List.length_drop, Nat.zero_add]
    · intro t ht
      simp only [decide_eq_true_eq]
      exact ⟨h2 t ht, hend t (List.mem_of_mem_drop ht)⟩
    · intro t ht
      simp only [decide_eq_true_eq, not_and]
      intro hle; exact absurd hle (not_le.2 (h1 t ht))
  unfold getRate
  simp only [hx, hy, orElse, if_neg hs0, if_neg he0, if_neg (not_le.2 hc), if_neg hcount, if_neg hidx]
  rw [if_neg (by linarith [sub_pos.2 hse] : ¬ e - s = 0), hcp]

example : getRate (K := ℚ) ⟨[2, 3, 5], 3, 1, some 128⟩ (some 3) (some 7) 9 = some (2 / 4) := by
  rw [C56_window_partial]
  · norm_num [List.countP_cons]
  all_goals norm_num

/-- C56: a window that reaches back before the tracked events (but not to the creation) is taken to begin with the first tracked
one: the documented estimate. -/
theorem C56_estimate (a : RateAcc K) (s e now first : K) (hs : a.times.Pairwise (· ≤ ·)) (hs0 : s ≠ 0) (he0 : e ≠ 0)
    (hc : a.creation < s) (hf : a.times.head? = some first) (hb : ∀ t ∈ a.times, s ≤ t) (he : e ≠ first) :
    getRate a (some s) (some e) now = some ((a.times.length : K) / (e - first)) := by
  obtain ⟨h1, h2, h3⟩ := left_split hs s
  have hne : a.times ≠ [] := by rintro h; simp [h] at hf
  obtain ⟨x, y, hx, hy⟩ := heads hne
  have hidx : Bis.left (fun y => decide (s ≤ y)) a.times = 0 := by
    by_contra h
    cases ht : a.times with
    | nil => exact hne ht
    | cons t ts =>
      obtain ⟨k, hk⟩ := Nat.exists_eq_succ_of_ne_zero h
      have := h1 t (by rw [hk, ht]; simp)
      exact absurd (hb t (by simp [ht])) (not_le.2 this)
  have hlen : a.times.length ≠ 0 := by simpa using hne
  unfold getRate
  simp only [hf, hy, orElse, if_neg hs0, if_neg he0, if_neg (not_le.2 hc), hidx, Nat.sub_zero, if_neg hlen, if_true]
  rw [if_neg (sub_ne_zero.2 he)]

example : getRate (K := ℚ) ⟨[4, 5], 7, 1, some 2⟩ (some 2) (some 8) 9 = some (2 / 4) := by
  rw [C56_estimate _ 2 8 9 4] <;> norm_num

/-- C56: for timestamps in order, none after the end of the window, and start not after end, the rate is not negative. -/
theorem C56_nonneg_partial (a : RateAcc K) (s e now r : K) (hs : a.times.Pairwise (· ≤ ·)) (hs0 : s ≠ 0) (he0 : e ≠ 0)
    (hse : s ≤ e) (hend : ∀ t ∈ a.times, t ≤ e) (h : getRate a (some s) (some e) now = some r) : 0 ≤ r := by
  by_cases hne : a.times = []
  · rw [C56_empty _ _ _ _ hne] at h; cases h; exact le_refl _
  obtain ⟨x, y, hx, hy⟩ := heads hne
  have hxm : x ∈ a.times := List.mem_of_head? hx
  have hym : y ∈ a.times := List.mem_of_getLast? hy
  have hxy : x ≤ y := by
    cases ht : a.times with
    | nil => exact absurd ht hne
    | cons t ts =>
      rw [ht] at hx hym hs; cases hx
      rcases List.mem_cons.1 hym with h | h
      · exact le_of_eq h.symm
      · exact (List.pairwise_cons.1 hs).1 y h
  unfold getRate at h
  simp only [hx, hy, orElse, if_neg hs0, if_neg he0] at h
  split_ifs at h
  all_goals (cases h; refine div_nonneg (Nat.cast_nonneg _) ?_)
  · exact sub_nonneg.2 hse
  · exact sub_nonneg.2 hxy
  · exact sub_nonneg.2 (hend x hxm)
  · exact sub_nonneg.2 hse

example : ∀ r, getRate (K := ℚ) ⟨[2, 3, 5], 3, 1, some 128⟩ (some 3) (some 7) 9 = some r → 0 ≤ r := by
  intro r h
  refine C56_nonneg_partial _ 3 7 9 r (by norm_num) (by norm_num) (by norm_num) (by norm_num) ?_ h
  intro t ht; simp at ht; rcases ht with rfl | rfl | rfl <;> norm_num

theorem left_two {ge : ℚ → Bool} {x y : ℚ} : Bis.left ge [x, y] = if ge y then (if ge x then 0 else 1) else 2 := by
  unfold Bis.left
  rw [Bis.rightLoop]
  simp only [List.length_cons, List.length_nil, Nat.zero_add, Nat.reduceAdd, Nat.zero_lt_succ, dif_pos, Nat.reduceDiv,
    List.getElem?_cons_succ, List.getElem?_cons_zero]
  by_cases hy : ge y
  · rw [if_pos hy, if_pos hy, Bis.rightLoop]
    by_cases hx : ge x
    · simp [hx, Bis.rightLoop]
    · simp [hx, Bis.rightLoop]
  · rw [if_neg hy, if_neg hy, Bis.rightLoop]; simp

/-- C56 fails: the end of the window does not limit what is counted.  Of the events at 3 and 10 none is in the window from 4 to
6, but one is counted. -/
theorem C56_violated_end : getRate (K := ℚ) ⟨[3, 10], 2, 1, some 128⟩ (some 4) (some 6) 12 = some (1 / 2) ∧
    [3, 10].countP (fun t => decide ((4 : ℚ) ≤ t ∧ t ≤ 6)) = 0 := by
  constructor
  · unfold getRate
    simp only [left_two]
    norm_num [orElse]
  · norm_num [List.countP_cons]

/-- C56 fails: a window that ends before the tracked events has a negative rate. -/
theorem C56_violated_negative : getRate (K := ℚ) ⟨[10, 11], 2, 1, some 128⟩ (some 2) (some 5) 12 = some (-(2 / 5)) := by
  unfold getRate
  simp only [left_two]
  norm_num [orElse]

/-- C56 fails: with only events at the same instant before the window, or read in the instant of its creation, it raises
ZeroDivisionError. -/
theorem C56_violated_raises : getRate (K := ℚ) ⟨[3, 3], 2, 1, some 128⟩ (some 4) (some 6) 12 = none ∧
    getRate (K := ℚ) ⟨[1], 1, 1, some 128⟩ none none 1 = none := by
  constructor
  · unfold getRate
    simp only [left_two]
    norm_num [orElse]
  · unfold getRate
    norm_num [orElse]

/-- C56 fails: a bound of 0 counts as not given. -/
theorem C56_violated_zero : getRate (K := ℚ) ⟨[-3, -1], 2, -4, some 128⟩ (some (-2)) (some 0) 98 = some (1 / 100) := by
  unfold getRate
  simp only [left_two]
  norm_num [orElse]

example := C56_default (K := ℚ) ⟨[2, 3, 5], 3, 1, some 128⟩ 9 (by simp) (by norm_num)

example := C56_empty (K := ℚ) ⟨[], 0, 1, some 128⟩ (some 3) none 9 rfl

end Verif.Sinks
