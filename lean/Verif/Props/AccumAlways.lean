import Verif.Props.AccumExact
/-!
# C47, C48: exactly when the lists are right all along
-/
namespace Verif.Accum
open scoped List

variable {K : Type} [LinearOrder K]

theorem eq_of_perm_sorted {a b : List K} (h : a ~ b) (ha : a.Pairwise (· ≤ ·)) (hb : b.Pairwise (· ≤ ·)) : a = b :=
  h.eq_of_pairwise (fun _ _ _ _ => le_antisymm) ha hb

theorem sort_sorted (l : List K) : (l.mergeSort (fun x y => decide (x ≤ y))).Pairwise (· ≤ ·) := by
  have := List.pairwise_mergeSort (le := fun x y : K => decide (x ≤ y)) (by intro a b c; simp; exact le_trans)
    (by intro a b; simp; exact le_total a b) l
  simpa using this

/-- There is one list of the largest values, and no other. -/
theorem largest_iff (n : Nat) (l t : List K) :
    Largest n l t ↔ t = (l.mergeSort (fun x y => decide (x ≤ y))).drop (l.length - n) := by
  have hp := List.mergeSort_perm l (fun x y => decide (x ≤ y))
  constructor
  · rintro ⟨h1, h2, rest, h3, h4⟩
    have hr := List.mergeSort_perm rest (fun x y => decide (x ≤ y))
    have h := eq_of_perm_sorted (a := rest.mergeSort (fun x y => decide (x ≤ y)) ++ t)
      (b := l.mergeSort (fun x y => decide (x ≤ y)))
      ((hr.append_right t).trans (List.perm_append_comm.trans (h3.trans hp.symm)))
      (List.pairwise_append.2 ⟨sort_sorted rest, h1, fun x hx y hy => h4 x (hr.subset hx) y hy⟩) (sort_sorted l)
    rw [← h, List.drop_left']
    have := h3.length_eq
    rw [List.length_append] at this
    rw [hr.length_eq]
    omega
  · rintro rfl
    have hs := sort_sorted l
    refine ⟨hs.sublist (List.drop_sublist _ _), by rw [List.length_drop, hp.length_eq]; omega,
      (l.mergeSort (fun x y => decide (x ≤ y))).take (l.length - n), ?_, ?_⟩
    · refine List.perm_append_comm.trans ?_
      rw [List.take_append_drop]; exact hp
    · rw [← List.take_append_drop (l.length - n) (l.mergeSort (fun x y => decide (x ≤ y))), List.pairwise_append] at hs
      exact fun x hx y hy => hs.2.2 x hx y hy

/-- There is one list of the smallest values, and no other. -/
theorem smallest_iff (n : Nat) (l t : List K) :
    Smallest n l t ↔ t = (l.mergeSort (fun x y => decide (x ≤ y))).take n := by
  have hp := List.mergeSort_perm l (fun x y => decide (x ≤ y))
  constructor
  · rintro ⟨h1, h2, rest, h3, h4⟩
    have hr := List.mergeSort_perm rest (fun x y => decide (x ≤ y))
    have h := eq_of_perm_sorted (a := t ++ rest.mergeSort (fun x y => decide (x ≤ y)))
      (b := l.mergeSort (fun x y => decide (x ≤ y)))
      ((hr.append_left t).trans (h3.trans hp.symm))
      (List.pairwise_append.2 ⟨h1, sort_sorted rest, fun x hx y hy => h4 y (hr.subset hy) x hx⟩) (sort_sorted l)
    have := h3.length_eq
    rw [List.length_append] at this
    rw [← h]
    rcases Nat.le_total n l.length with hn | hn
    · rw [List.take_left' (by omega)]
    · have : rest = [] := List.length_eq_zero_iff.1 (by omega)
      subst this
      rw [List.mergeSort_nil, List.append_nil, List.take_of_length_le (by omega)]
  · rintro rfl
    have hs := sort_sorted l
    refine ⟨hs.sublist (List.take_sublist _ _), by rw [List.length_take, hp.length_eq],
      (l.mergeSort (fun x y => decide (x ≤ y))).drop n, ?_, ?_⟩
    · rw [List.take_append_drop]; exact hp
    · rw [← List.take_append_drop n (l.mergeSort (fun x y => decide (x ≤ y))), List.pairwise_append] at hs
      exact fun x hx y hy => hs.2.2 y hy x hx

theorem Largest.trans_iff {n : Nat} {vals t t' : List K} {v : K} (h : Largest n vals t) :
    Largest n (vals ++ [v]) t' ↔ Largest n (v :: t) t' := by
  refine ⟨fun h' => ?_, fun h' => h.trans h'⟩
  have hx := (largest_iff n (v :: t) _).2 rfl
  have := h.trans hx
  rw [(largest_iff _ _ _).1 h', ← (largest_iff _ _ _).1 this]
  exact hx

theorem Smallest.trans_iff {n : Nat} {vals t t' : List K} {v : K} (h : Smallest n vals t) :
    Smallest n (vals ++ [v]) t' ↔ Smallest n (v :: t) t' := by
  refine ⟨fun h' => ?_, fun h' => h.trans h'⟩
  have hx := (smallest_iff n (v :: t) _).2 rfl
  have := h.trans hx
  rw [(smallest_iff _ _ _).1 h', ← (smallest_iff _ _ _).1 this]
  exact hx

/-- C47: the list is the `count` largest values after every `add` of a history exactly if every value is one that is treated
right in its place: while there is room, the first or above the smallest of the `count` largest so far; later, not between them. -/
theorem C47_exact (n : Nat) (vals : List K) :
    (∀ before after, vals = before ++ after → Largest n before (maxRun n before)) ↔
      ∀ before v after kept, vals = before ++ v :: after → Largest n before kept → MaxFine n kept v := by
  constructor
  · intro h before v after kept e hk
    obtain rfl : kept = maxRun n before := by
      rw [(largest_iff _ _ _).1 hk, ← (largest_iff _ _ _).1 (h before (v :: after) e)]
    have h2 := h (before ++ [v]) after (by rw [e]; simp)
    have hr : maxRun n (before ++ [v]) = maxAdd n (maxRun n before) v := by simp [maxRun]
    rw [hr, hk.trans_iff] at h2
    obtain ⟨h3, h4, _⟩ := C47_shape_partial n before
    exact (C47_step n _ v h3 h4).1 h2
  · intro h before
    induction before using List.reverseRecOn with
    | nil => intro _ _; exact ⟨.nil, by simp [maxRun], [], by simp [maxRun], by simp⟩
    | append_singleton before v ih =>
      intro after e
      have hk := ih (v :: after) (by rw [e]; simp)
      have hr : maxRun n (before ++ [v]) = maxAdd n (maxRun n before) v := by simp [maxRun]
      rw [hr, hk.trans_iff]
      obtain ⟨h3, h4, _⟩ := C47_shape_partial n before
      exact (C47_step n _ v h3 h4).2 (h before v after _ (by rw [e]; simp) hk)

/-- C48: the list is the `count` smallest values after every `add` of a history exactly if every value is one that is treated
right in its place. -/
theorem C48_exact (n : Nat) (vals : List K) :
    (∀ before after, vals = before ++ after → Smallest n before (minRun n before)) ↔
      ∀ before v after kept, vals = before ++ v :: after → Smallest n before kept → MinFine n kept v := by
  constructor
  · intro h before v after kept e hk
    obtain rfl : kept = minRun n before := by
      rw [(smallest_iff _ _ _).1 hk, ← (smallest_iff _ _ _).1 (h before (v :: after) e)]
    have h2 := h (before ++ [v]) after (by rw [e]; simp)
    have hr : minRun n (before ++ [v]) = minAdd n (minRun n before) v := by simp [minRun]
    rw [hr, hk.trans_iff] at h2
    obtain ⟨h3, h4, _⟩ := C48_shape_partial n before
    exact (C48_step n _ v h3 h4).1 h2
  · intro h before
    induction before using List.reverseRecOn with
    | nil => intro _ _; exact ⟨.nil, by simp [minRun], [], by simp [minRun], by simp⟩
    | append_singleton before v ih =>
      intro after e
      have hk := ih (v :: after) (by rw [e]; simp)
      have hr : minRun n (before ++ [v]) = minAdd n (minRun n before) v := by simp [minRun]
      rw [hr, hk.trans_iff]
      obtain ⟨h3, h4, _⟩ := C48_shape_partial n before
      exact (C48_step n _ v h3 h4).2 (h before v after _ (by rw [e]; simp) hk)

/-- C47 fails for every capacity above one: whatever the first value, a second one that is not larger is dropped. -/
theorem C47_second_violated (n : Nat) (hn : 2 ≤ n) (a b : K) (hb : b ≤ a) :
    maxRun n [a, b] = [a] ∧ ¬ Largest n [a, b] (maxRun n [a, b]) := by
  have h1 : maxRun n [a] = [a] := by
    have : maxRun n [a] = maxAdd n [] a := by simp [maxRun]
    rw [this, maxAdd]
    simp only [List.head?_nil, Option.any_none, Bool.false_eq_true, if_false, List.length_nil]
    rw [if_pos (by omega)]
    exact List.perm_singleton.1 (Bis.insort_perm ([] : List K) a)
  have h2 : maxRun n [a, b] = [a] := by
    have : maxRun n [a, b] = maxAdd n (maxRun n [a]) b := by simp [maxRun]
    rw [this, h1]
    simp [maxAdd, hb]
  refine ⟨h2, fun h => ?_⟩
  have := h.2.1
  rw [h2] at this
  simp at this
  omega

/-- C48 fails for every capacity above one: whatever the first value, a second one that is not smaller is dropped. -/
theorem C48_second_violated (n : Nat) (hn : 2 ≤ n) (a b : K) (hb : a ≤ b) :
    minRun n [a, b] = [a] ∧ ¬ Smallest n [a, b] (minRun n [a, b]) := by
  have h1 : minRun n [a] = [a] := by
    have : minRun n [a] = minAdd n [] a := by simp [minRun]
    rw [this, minAdd]
    simp only [List.getLast?_nil, Option.any_none, Bool.false_eq_true, if_false, List.length_nil]
    rw [if_pos (by omega)]
    exact List.perm_singleton.1 (Bis.insort_perm ([] : List K) a)
  have h2 : minRun n [a, b] = [a] := by
    have : minRun n [a, b] = minAdd n (minRun n [a]) b := by simp [minRun]
    rw [this, h1]
    simp [minAdd, hb]
  refine ⟨h2, fun h => ?_⟩
  have := h.2.1
  rw [h2] at this
  simp at this
  omega

example := C47_second_violated 10 (by decide) (5 : Int) 3 (by decide)
example := C48_second_violated 10 (by decide) (3 : Int) 5 (by decide)

/-- The second value is not above the first, so the list is not right all along. -/
example : ¬ ∀ before after, [(5 : Int), 3, 6] = before ++ after → Largest 10 before (maxRun 10 before) := fun h =>
  (C47_second_violated 10 (by decide) (5 : Int) 3 (by decide)).2 (h [5, 3] [6] rfl)

/-- Going up it is. -/
example : ∀ before after, [(1 : Int), 5] = before ++ after → Largest 2 before (maxRun 2 before) := by
  refine (C47_exact 2 _).2 fun before v after kept e hk => ?_
  rcases before with _ | ⟨a, _ | ⟨b, l⟩⟩ <;> simp at e
  · have := hk.2.1
    simp at this
    subst this
    simp [MaxFine]
  · obtain ⟨rfl, rfl, rfl⟩ := e
    obtain ⟨_, h2, rest, h3, _⟩ := hk
    simp at h2
    obtain ⟨x, rfl⟩ := List.length_eq_one_iff.1 h2
    have : rest = [] := by have := h3.length_eq; simpa using this
    subst this
    have := List.perm_singleton.1 h3
    simp at this
    subst this
    simp [MaxFine]

end Verif.Accum
