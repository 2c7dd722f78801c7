import Verif.Props.Accum
/-!
# C47, C48: exactly when an `add` keeps the lists right
-/
namespace Verif.Accum

open Verif.Bis

open scoped List

variable {K : Type} [LinearOrder K]

/-! ## Specification -/

/-- `t` is the `n` largest of the values `l` (all of them if there are fewer), in ascending order. -/
def Largest (n : Nat) (l t : List K) : Prop :=
  t.Pairwise (· ≤ ·) ∧ t.length = min n l.length ∧ ∃ rest, t ++ rest ~ l ∧ ∀ x ∈ rest, ∀ y ∈ t, x ≤ y

/-- `t` is the `n` smallest of the values `l`, in ascending order. -/
def Smallest (n : Nat) (l t : List K) : Prop :=
  t.Pairwise (· ≤ ·) ∧ t.length = min n l.length ∧ ∃ rest, t ++ rest ~ l ∧ ∀ x ∈ rest, ∀ y ∈ t, y ≤ x

/-- A value that `MaxAccumulator` treats right: while there is room it is the first or larger than some value kept; later it
is below or above all of them. -/
def MaxFine (n : Nat) (xs : List K) (v : K) : Prop :=
  (xs.length < n → xs = [] ∨ ∃ y ∈ xs, y < v) ∧ (xs.length = n → (∀ y ∈ xs, v ≤ y) ∨ ∀ y ∈ xs, y ≤ v)

/-- A value that `MinAccumulator` treats right: while there is room it is the first or smaller than some value kept; later it
is below all of them, or the largest of them is the only one above it. -/
def MinFine (n : Nat) (xs : List K) (v : K) : Prop :=
  (xs.length < n → xs = [] ∨ ∃ y ∈ xs, v < y) ∧
  (xs.length = n → (∀ y ∈ xs, v < y) ∨ ∀ y ∈ xs, v < y → ∀ z ∈ xs, z ≤ y)

/-! ## Lemmas -/

theorem set_perm (xs : List K) (i : Nat) (v y : K) (h : xs[i]? = some y) : xs.set i v ++ [y] ~ v :: xs := by
  obtain ⟨hi, rfl⟩ := List.getElem?_eq_some_iff.1 h
  rw [List.set_eq_take_append_cons_drop, if_pos hi]
  have h2 : xs = xs.take i ++ xs[i] :: xs.drop (i + 1) := by
    rw [← List.drop_eq_getElem_cons hi, List.take_append_drop]
  refine (List.perm_append_singleton _ _).trans ?_
  conv_rhs => rw [h2]
  refine (List.Perm.cons _ List.perm_middle).trans ?_
  refine (List.Perm.swap _ _ _).trans ?_
  exact List.Perm.cons _ List.perm_middle.symm

theorem head_iff {xs : List K} (hs : xs.Pairwise (· ≤ ·)) (v : K) :
    xs.head?.any (fun x => decide (v ≤ x)) = true ↔ xs ≠ [] ∧ ∀ y ∈ xs, v ≤ y := by
  cases xs with
  | nil => simp
  | cons a l =>
    rw [List.pairwise_cons] at hs
    simp only [List.head?_cons, Option.any_some, decide_eq_true_eq, ne_eq, reduceCtorEq, not_false_eq_true, true_and,
      List.mem_cons, forall_eq_or_imp]
    exact ⟨fun h => ⟨h, fun y hy => h.trans (hs.1 y hy)⟩, fun h => h.1⟩

theorem last_iff {xs : List K} (hs : xs.Pairwise (· ≤ ·)) (v : K) :
    xs.getLast?.any (fun x => decide (v ≥ x)) = true ↔ xs ≠ [] ∧ ∀ y ∈ xs, y ≤ v := by
  induction xs using List.reverseRecOn with
  | nil => simp
  | append_singleton l a _ =>
    rw [List.pairwise_append] at hs
    simp only [List.getLast?_append, List.getLast?_singleton, Option.some_or, Option.any_some, ge_iff_le, decide_eq_true_eq]
    refine ⟨fun h => ⟨by simp, fun y hy => ?_⟩, fun h => h.2 a (by simp)⟩
    rcases List.mem_append.1 hy with hy | hy
    · exact (hs.2.2 y hy a (by simp)).trans h
    · rw [List.mem_singleton.1 hy]; exact h

theorem right_facts {xs : List K} (hs : xs.Pairwise (· ≤ ·)) (v : K) :
    right (fun y => decide (v < y)) xs ≤ xs.length ∧
    (∀ y ∈ xs.take (right (fun y => decide (v < y)) xs), y ≤ v) ∧
    ∀ y ∈ xs.drop (right (fun y => decide (v < y)) xs), v < y := by
  obtain ⟨h1, h2⟩ := right_split (mono_of_sorted hs v)
  simp only [decide_eq_false_iff_not, not_lt, decide_eq_true_eq] at h1 h2
  exact ⟨(right_spec (mono_of_sorted hs v)).1, h1, h2⟩

/-- C47: an `add` to a sorted list keeps the largest values exactly if the value is one that it treats right. -/
theorem C47_step (n : Nat) (xs : List K) (v : K) (hs : xs.Pairwise (· ≤ ·)) (hl : xs.length ≤ n) :
    Largest n (v :: xs) (maxAdd n xs v) ↔ MaxFine n xs v := by
  obtain ⟨hr, hlow, hhigh⟩ := right_facts hs v
  have hinv := (maxAdd_inv n xs v hs hl).1
  unfold MaxFine Largest
  unfold maxAdd at hinv ⊢
  split
  · rename_i hg
    obtain ⟨hne, hall⟩ := (head_iff hs v).1 hg
    constructor
    · rintro ⟨_, h2, _⟩
      rw [List.length_cons] at h2
      exact ⟨fun h => by omega, fun _ => .inl hall⟩
    · rintro ⟨h1, _⟩
      have hfull : xs.length = n := by
        by_contra hc
        rcases h1 (by omega) with h | ⟨y, hy, hlt⟩
        · exact hne h
        · exact absurd (hall y hy) (not_le.2 hlt)
      refine ⟨hs, by rw [List.length_cons]; omega, [v], List.perm_append_singleton v xs, ?_⟩
      intro x hx y hy
      rw [List.mem_singleton.1 hx]; exact hall y hy
  · rename_i hg
    rw [head_iff hs v, not_and_or, not_not] at hg
    rw [if_neg (by rw [head_iff hs v, not_and_or, not_not]; exact hg)] at hinv
    split
    · rename_i hlt
      rw [if_pos hlt] at hinv
      refine ⟨fun _ => ⟨fun _ => ?_, fun h => by omega⟩, fun _ => ⟨hinv, ?_, [], ?_, by simp⟩⟩
      · rcases hg with h | h
        · exact .inl h
        · push Not at h
          exact .inr h
      · rw [(insort_perm xs v).length_eq, List.length_cons]; omega
      · rw [List.append_nil]; exact insort_perm xs v
    · rename_i hge
      rw [if_neg hge] at hinv
      have hfull : xs.length = n := by omega
      dsimp only at hinv ⊢
      split
      · rename_i hi
        rw [if_pos hi] at hinv
        rw [List.take_of_length_le (by omega)] at hlow
        refine ⟨fun _ => ⟨fun h => by omega, fun _ => .inr hlow⟩, fun _ => ⟨hinv, by simp; omega, ?_⟩⟩
        cases xs with
        | nil => exact ⟨[v], by simp, by simp⟩
        | cons a l =>
          refine ⟨[a], ?_, ?_⟩
          · simp only [List.cons_append, List.drop_succ_cons, List.drop_zero]
            refine (List.perm_append_singleton a _).trans ?_
            refine (List.Perm.cons a (List.perm_append_singleton v l)).trans ?_
            exact List.Perm.swap _ _ _
          · intro x hx y hy
            rw [List.mem_singleton.1 hx]
            simp only [List.cons_append, List.drop_succ_cons, List.drop_zero, List.mem_append, List.mem_singleton] at hy
            rcases hy with hy | rfl
            · exact (List.pairwise_cons.1 hs).1 y hy
            · exact hlow a (by simp)
      · rename_i hi
        have hlt : right (fun y => decide (v < y)) xs < xs.length := by omega
        have hy := List.getElem?_eq_getElem hlt
        have hvy : v < xs[right (fun y => decide (v < y)) xs] :=
          hhigh _ (by rw [List.drop_eq_getElem_cons hlt]; exact List.mem_cons_self)
        have hmem : v ∈ xs.set (right (fun y => decide (v < y)) xs) v := List.mem_set hlt v
        constructor
        · rintro ⟨_, _, rest, hp, hle⟩
          have h3 := (List.perm_append_left_iff _).1 (hp.trans (set_perm xs _ v _ hy).symm)
          rw [List.perm_singleton.1 h3] at hle
          exact absurd (hle _ (by simp) v hmem) (not_le.2 hvy)
        · rintro ⟨_, h2⟩
          exfalso
          rcases h2 hfull with h | h
          · rcases hg with he | hg
            · rw [he] at hlt; exact absurd hlt (Nat.not_lt_zero _)
            · exact hg h
          · exact absurd (h _ (List.getElem_mem hlt)) (not_le.2 hvy)

/-- C48: an `add` to a sorted list keeps the smallest values exactly if the value is one that it treats right. -/
theorem C48_step (n : Nat) (xs : List K) (v : K) (hs : xs.Pairwise (· ≤ ·)) (hl : xs.length ≤ n) :
    Smallest n (v :: xs) (minAdd n xs v) ↔ MinFine n xs v := by
  obtain ⟨hr, hlow, hhigh⟩ := right_facts hs v
  have hinv := (minAdd_inv n xs v hs hl).1
  unfold MinFine Smallest
  unfold minAdd at hinv ⊢
  split
  · rename_i hg
    obtain ⟨hne, hall⟩ := (last_iff hs v).1 hg
    constructor
    · rintro ⟨_, h2, _⟩
      rw [List.length_cons] at h2
      exact ⟨fun h => by omega, fun _ => .inr fun y hy hlt => absurd (hall y hy) (not_le.2 hlt)⟩
    · rintro ⟨h1, _⟩
      have hfull : xs.length = n := by
        by_contra hc
        rcases h1 (by omega) with h | ⟨y, hy, hlt⟩
        · exact hne h
        · exact absurd (hall y hy) (not_le.2 hlt)
      refine ⟨hs, by rw [List.length_cons]; omega, [v], List.perm_append_singleton v xs, ?_⟩
      intro x hx y hy
      rw [List.mem_singleton.1 hx]; exact hall y hy
  · rename_i hg
    rw [last_iff hs v, not_and_or, not_not] at hg
    rw [if_neg (by rw [last_iff hs v, not_and_or, not_not]; exact hg)] at hinv
    split
    · rename_i hlt
      rw [if_pos hlt] at hinv
      refine ⟨fun _ => ⟨fun _ => ?_, fun h => by omega⟩, fun _ => ⟨hinv, ?_, [], ?_, by simp⟩⟩
      · rcases hg with h | h
        · exact .inl h
        · push Not at h
          exact .inr h
      · rw [(insort_perm xs v).length_eq, List.length_cons]; omega
      · rw [List.append_nil]; exact insort_perm xs v
    · rename_i hge
      rw [if_neg hge] at hinv
      have hfull : xs.length = n := by omega
      dsimp only at hinv ⊢
      split
      · rename_i hi
        rw [if_pos hi] at hinv
        rw [hi, List.drop_zero] at hhigh
        refine ⟨fun _ => ⟨fun h => by omega, fun _ => .inl hhigh⟩, fun _ => ⟨hinv, by simp; omega, ?_⟩⟩
        have hd : (v :: xs).dropLast ++ [(v :: xs).getLast (by simp)] = v :: xs := List.dropLast_append_getLast _
        refine ⟨[(v :: xs).getLast (by simp)], by rw [hd], ?_⟩
        have hp : (v :: xs).Pairwise (· ≤ ·) := List.pairwise_cons.2 ⟨fun y hy => le_of_lt (hhigh y hy), hs⟩
        rw [← hd, List.pairwise_append] at hp
        intro x hx y hy
        exact hp.2.2 y hy x hx
      · rename_i hi
        have hlt : right (fun y => decide (v < y)) xs < xs.length := by
          rcases Nat.lt_or_ge (right (fun y => decide (v < y)) xs) xs.length with h | h
          · exact h
          · exfalso
            rw [List.take_of_length_le h] at hlow
            rcases hg with he | hg
            · exact hi (Nat.le_zero.1 (hr.trans (by rw [he]; exact Nat.le_refl 0)))
            · exact hg hlow
        have hy := List.getElem?_eq_getElem hlt
        have hvy : v < xs[right (fun y => decide (v < y)) xs] :=
          hhigh _ (by rw [List.drop_eq_getElem_cons hlt]; exact List.mem_cons_self)
        have hfirst : xs[0]'(by omega) ≤ v := hlow _ (by
          rw [List.mem_take_iff_getElem]; exact ⟨0, by omega, rfl⟩)
        have hin : ∀ z, z ∈ xs.set (right (fun y => decide (v < y)) xs) v ∨ z = xs[right (fun y => decide (v < y)) xs] ↔
            z = v ∨ z ∈ xs := by
          intro z
          have := (set_perm xs _ v _ hy).mem_iff (a := z)
          rwa [List.mem_append, List.mem_singleton, List.mem_cons] at this
        constructor
        · rintro ⟨_, _, rest, hp, hle⟩
          have h3 := (List.perm_append_left_iff _).1 (hp.trans (set_perm xs _ v _ hy).symm)
          rw [List.perm_singleton.1 h3] at hle
          have hle := hle _ List.mem_cons_self
          refine ⟨fun h => by omega, fun _ => .inr fun y' hy' hlt' z hz => ?_⟩
          have h4 : xs[right (fun y => decide (v < y)) xs] ≤ y' := by
            have h5 : y' ∈ xs.drop (right (fun y => decide (v < y)) xs) := by
              rw [← List.take_append_drop (right (fun y => decide (v < y)) xs) xs, List.mem_append] at hy'
              rcases hy' with h | h
              · exact absurd (hlow y' h) (not_le.2 hlt')
              · exact h
            have h6 := hs.sublist (List.drop_sublist (right (fun y => decide (v < y)) xs) xs)
            rw [List.drop_eq_getElem_cons hlt] at h5 h6
            rcases List.mem_cons.1 h5 with h | h
            · exact h ▸ le_refl _
            · exact (List.pairwise_cons.1 h6).1 y' h
          rcases (hin z).2 (.inr hz) with h | h
          · exact (hle z h).trans h4
          · rw [h]; exact h4
        · rintro ⟨_, h2⟩
          rw [if_neg hi] at hinv
          refine ⟨hinv, by simp; omega, [_], set_perm xs _ v _ hy, fun x hx z hz => ?_⟩
          rw [List.mem_singleton.1 hx]
          rcases h2 hfull with h | h
          · exact absurd (h _ (List.getElem_mem _)) (not_lt.2 hfirst)
          · rcases (hin z).1 (.inl hz) with rfl | hz
            · exact le_of_lt hvy
            · exact h _ (List.getElem_mem hlt) hvy z hz

/-! ## Histories -/

theorem Largest.trans {n : Nat} {vals t t' : List K} {v : K} (h : Largest n vals t) (h' : Largest n (v :: t) t') :
    Largest n (vals ++ [v]) t' := by
  obtain ⟨_, h2, rest, h3, h4⟩ := h
  obtain ⟨h1', h2', rest', h3', h4'⟩ := h'
  have hlen := h3.length_eq
  have hlen' := h3'.length_eq
  rw [List.length_append] at hlen hlen'
  rw [List.length_cons] at hlen' h2'
  refine ⟨h1', by rw [List.length_append, List.length_singleton]; omega, rest' ++ rest, ?_, ?_⟩
  · rw [← List.append_assoc]
    refine (h3'.append_right rest).trans ?_
    refine (List.Perm.cons v h3).trans (List.perm_append_singleton v vals).symm
  · intro x hx y hy
    rcases List.mem_append.1 hx with hx | hr
    · exact h4' x hx y hy
    · have hpos : 0 < rest.length := List.length_pos_of_mem hr
      have hone : rest'.length = 1 := by omega
      obtain ⟨w, rfl⟩ := List.length_eq_one_iff.1 hone
      rcases List.mem_cons.1 (h3'.subset (List.mem_append_left _ hy)) with rfl | ht
      · rcases List.mem_cons.1 (h3'.subset (List.mem_append_right _ List.mem_cons_self)) with rfl | hw
        · have : t' ~ t := (List.perm_cons w).1 ((List.perm_append_singleton w t').symm.trans h3')
          exact h4 x hr w (this.subset hy)
        · exact (h4 x hr w hw).trans (h4' w List.mem_cons_self y hy)
      · exact h4 x hr y ht

theorem Smallest.trans {n : Nat} {vals t t' : List K} {v : K} (h : Smallest n vals t) (h' : Smallest n (v :: t) t') :
    Smallest n (vals ++ [v]) t' := by
  obtain ⟨_, h2, rest, h3, h4⟩ := h
  obtain ⟨h1', h2', rest', h3', h4'⟩ := h'
  have hlen := h3.length_eq
  have hlen' := h3'.length_eq
  rw [List.length_append] at hlen hlen'
  rw [List.length_cons] at hlen' h2'
  refine ⟨h1', by rw [List.length_append, List.length_singleton]; omega, rest' ++ rest, ?_, ?_⟩
  · rw [← List.append_assoc]
    refine (h3'.append_right rest).trans ?_
    refine (List.Perm.cons v h3).trans (List.perm_append_singleton v vals).symm
  · intro x hx y hy
    rcases List.mem_append.1 hx with hx | hr
    · exact h4' x hx y hy
    · have hpos : 0 < rest.length := List.length_pos_of_mem hr
      have hone : rest'.length = 1 := by omega
      obtain ⟨w, rfl⟩ := List.length_eq_one_iff.1 hone
      rcases List.mem_cons.1 (h3'.subset (List.mem_append_left _ hy)) with rfl | ht
      · rcases List.mem_cons.1 (h3'.subset (List.mem_append_right _ List.mem_cons_self)) with rfl | hw
        · have : t' ~ t := (List.perm_cons w).1 ((List.perm_append_singleton w t').symm.trans h3')
          exact h4 x hr w (this.subset hy)
        · exact (h4' w List.mem_cons_self y hy).trans (h4 x hr w hw)
      · exact h4 x hr y ht

/-- C47: if every value is one that is treated right in its place, the list is the largest `count` values.  What is missing for
the full claim: all other values, see `C47_step` and `C47_violated`. -/
theorem C47_history_partial (n : Nat) (vals : List K)
    (h : ∀ before v after, vals = before ++ v :: after → MaxFine n (maxRun n before) v) : Largest n vals (maxRun n vals) := by
  induction vals using List.reverseRecOn with
  | nil => exact ⟨.nil, by simp [maxRun], [], by simp [maxRun], by simp⟩
  | append_singleton vals v ih =>
    have hr : maxRun n (vals ++ [v]) = maxAdd n (maxRun n vals) v := by simp [maxRun]
    rw [hr]
    refine (ih fun b w a e => h b w (a ++ [v]) (by rw [e]; simp)).trans ?_
    obtain ⟨h1, h2, _⟩ := C47_shape_partial n vals
    exact (C47_step n _ v h1 h2).2 (h vals v [] rfl)

/-- C48: if every value is one that is treated right in its place, the list is the smallest `count` values.  What is missing for
the full claim: all other values, see `C48_step` and `C48_violated`. -/
theorem C48_history_partial (n : Nat) (vals : List K)
    (h : ∀ before v after, vals = before ++ v :: after → MinFine n (minRun n before) v) : Smallest n vals (minRun n vals) := by
  induction vals using List.reverseRecOn with
  | nil => exact ⟨.nil, by simp [minRun], [], by simp [minRun], by simp⟩
  | append_singleton vals v ih =>
    have hr : minRun n (vals ++ [v]) = minAdd n (minRun n vals) v := by simp [minRun]
    rw [hr]
    refine (ih fun b w a e => h b w (a ++ [v]) (by rw [e]; simp)).trans ?_
    obtain ⟨h1, h2, _⟩ := C48_shape_partial n vals
    exact (C48_step n _ v h1 h2).2 (h vals v [] rfl)

/-- C48 holds for strictly decreasing values. -/
theorem C48_decreasing_partial (n : Nat) (vals : List K) (h : vals.Pairwise (· > ·)) : Smallest n vals (minRun n vals) := by
  refine C48_history_partial n vals fun before v after e => ?_
  have hall : ∀ y ∈ minRun n before, v < y := by
    intro y hy
    rw [e, List.pairwise_append] at h
    exact h.2.2 y ((C48_shape_partial n before).2.2.subset hy) v (by simp)
  refine ⟨fun _ => ?_, fun _ => .inl hall⟩
  cases hm : minRun n before with
  | nil => exact .inl rfl
  | cons a l => exact .inr ⟨a, by simp, hall a (by rw [hm]; simp)⟩

example : Smallest 2 [(9 : Int), 4, 1] (minRun 2 [9, 4, 1]) := C48_decreasing_partial 2 _ (by decide)

/-- Both sides of `C47_step` and `C48_step` occur. -/
example : MaxFine 2 [(1 : Int), 5] 7 ∧ ¬ MaxFine 2 [(1 : Int), 5] 3 ∧ ¬ MaxFine 3 [(1 : Int), 5] 0 ∧
    MinFine 2 [(1 : Int), 5] 3 ∧ ¬ MinFine 3 [(1 : Int), 5, 8] 3 ∧ ¬ MinFine 3 [(1 : Int), 5] 6 := by
  simp [MaxFine, MinFine]

example : Largest 2 [(7 : Int), 1, 5] (maxAdd 2 [1, 5] 7) := (C47_step 2 _ _ (by decide) (by decide)).2 (by simp [MaxFine])

example : Smallest 2 [(3 : Int), 1, 5] (minAdd 2 [1, 5] 3) := (C48_step 2 _ _ (by decide) (by decide)).2 (by simp [MinFine])

/-- Going up; the last value is too small to be kept. -/
example : Largest 2 [(1 : Int), 5, 7, 2] (maxRun 2 [1, 5, 7, 2]) := by
  apply C47_history_partial
  have h1 : maxRun 2 [(1 : Int)] = [1] := C47_increasing_partial 2 [1] (by decide)
  have h2 : maxRun 2 [(1 : Int), 5] = [1, 5] := C47_increasing_partial 2 [1, 5] (by decide)
  have h3 : maxRun 2 [(1 : Int), 5, 7] = [5, 7] := C47_increasing_partial 2 [1, 5, 7] (by decide)
  intro before v after h
  rcases before with _ | ⟨a, _ | ⟨b, _ | ⟨c, _ | ⟨d, l⟩⟩⟩⟩ <;> simp at h
  · simp [MaxFine, maxRun]
  · obtain ⟨rfl, rfl, rfl⟩ := h; rw [h1]; simp [MaxFine]
  · obtain ⟨rfl, rfl, rfl, rfl⟩ := h; rw [h2]; simp [MaxFine]
  · obtain ⟨rfl, rfl, rfl, rfl, rfl⟩ := h; rw [h3]; simp [MaxFine]

/-- Going down. -/
example : Smallest 2 [(9 : Int), 4] (minRun 2 [9, 4]) := by
  apply C48_history_partial
  have h1 : minRun 2 [(9 : Int)] = [9] := by simp [minRun, minAdd, insort, right]; rw [Bis.rightLoop]; simp [insertAt]
  intro before v after h
  rcases before with _ | ⟨a, _ | ⟨b, l⟩⟩ <;> simp at h
  · simp [MinFine, minRun]
  · obtain ⟨rfl, rfl, rfl⟩ := h; rw [h1]; simp [MinFine]

end Verif.Accum
