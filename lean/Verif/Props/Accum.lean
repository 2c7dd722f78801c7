import Verif.Model.Accum
import Verif.Lemmas.Bisect
import Mathlib.Data.List.Perm.Subperm
import Mathlib.Data.List.Induction
import Mathlib.Data.List.Dedup
/-!
# C47, C48, C49: extreme values and histograms
-/
set_option linter.unusedSectionVars false
namespace Verif.Accum

open Verif.Bis

open scoped List

variable {K : Type} [LinearOrder K]

theorem set_sorted {xs : List K} (h : xs.Pairwise (· ≤ ·)) (v : K)
    (hi : right (fun y => decide (v < y)) xs < xs.length) :
    (xs.set (right (fun y => decide (v < y)) xs) v).Pairwise (· ≤ ·) := by
  obtain ⟨h1, h2⟩ := right_split (mono_of_sorted h v)
  simp only [decide_eq_false_iff_not, not_lt, decide_eq_true_eq] at h1 h2
  generalize right (fun y => decide (v < y)) xs = i at *
  rw [List.set_eq_take_append_cons_drop, if_pos hi]
  have hs := h
  rw [← List.take_append_drop i xs, List.pairwise_append] at hs
  have hd : ∀ y ∈ xs.drop (i + 1), y ∈ xs.drop i := by
    intro y hy
    rw [← List.drop_drop] at hy
    exact List.mem_of_mem_drop hy
  rw [List.pairwise_append, List.pairwise_cons]
  refine ⟨hs.1, ⟨fun y hy => le_of_lt (h2 y (hd y hy)), ?_⟩, fun y hy z hz => ?_⟩
  · exact hs.2.1.sublist (by rw [← List.drop_drop]; exact List.drop_sublist 1 _)
  · rcases List.mem_cons.1 hz with rfl | hz
    · exact h1 y hy
    · exact hs.2.2 y hy z (hd z hz)

theorem set_subperm (xs : List K) (i : Nat) (v : K) : xs.set i v <+~ v :: xs := by
  rw [List.set_eq_take_append_cons_drop]
  split
  · refine List.perm_middle.subperm.trans ?_
    refine (List.subperm_cons _).2 ?_
    refine List.Sublist.subperm ?_
    calc xs.take i ++ xs.drop (i + 1) <+ xs.take i ++ xs.drop i :=
          (List.append_sublist_append_left _).2 (by rw [← List.drop_drop]; exact List.drop_sublist 1 _)
      _ = xs := List.take_append_drop i xs
  · exact (List.sublist_cons_self v xs).subperm

/-! ## C47 -/

theorem maxAdd_inv (n : Nat) (xs : List K) (v : K) (hs : xs.Pairwise (· ≤ ·)) (hl : xs.length ≤ n) :
    (maxAdd n xs v).Pairwise (· ≤ ·) ∧ (maxAdd n xs v).length ≤ n ∧ maxAdd n xs v <+~ v :: xs := by
  unfold maxAdd
  split
  · exact ⟨hs, hl, (List.sublist_cons_self v xs).subperm⟩
  · split
    · rename_i _ hlt
      refine ⟨insort_sorted hs v, ?_, (insort_perm xs v).subperm⟩
      rw [(insort_perm xs v).length_eq, List.length_cons]; omega
    · rename_i _ hge
      have hle := (right_spec (mono_of_sorted hs v)).1
      dsimp only
      split
      · rename_i hr
        obtain ⟨h1, _⟩ := right_split (mono_of_sorted hs v)
        refine ⟨?_, by simp; omega, ?_⟩
        · refine List.Pairwise.sublist (List.drop_sublist 1 _) ?_
          rw [List.pairwise_append]
          refine ⟨hs, by simp, fun y hy z hz => ?_⟩
          rw [List.mem_singleton.1 hz]
          rw [List.take_of_length_le (by omega)] at h1
          simpa using h1 y hy
        · refine (List.drop_sublist 1 _).subperm.trans ?_
          exact (List.perm_append_singleton v xs).subperm
      · exact ⟨set_sorted hs v (by omega), by simpa using hl, set_subperm xs _ v⟩

/-- C47: `max_list` is sorted, has at most `count` elements, and they are values that were added (each as often at most). -/
theorem C47_shape_partial (n : Nat) (vals : List K) :
    (maxRun n vals).Pairwise (· ≤ ·) ∧ (maxRun n vals).length ≤ n ∧ maxRun n vals <+~ vals := by
  induction vals using List.reverseRecOn with
  | nil => simp [maxRun]
  | append_singleton vals v ih =>
    have hr : maxRun n (vals ++ [v]) = maxAdd n (maxRun n vals) v := by simp [maxRun]
    rw [hr]
    obtain ⟨h1, h2, h3⟩ := maxAdd_inv n _ v ih.1 ih.2.1
    refine ⟨h1, h2, h3.trans ?_⟩
    refine ((List.subperm_cons v).2 ih.2.2).trans ?_
    exact (List.perm_append_singleton v vals).symm.subperm

/-- C47 holds for `count = 1`: the list is the largest value. -/
theorem C47_one_partial (vals : List K) (h : vals ≠ []) :
    ∃ m ∈ vals, maxRun 1 vals = [m] ∧ ∀ x ∈ vals, x ≤ m := by
  induction vals using List.reverseRecOn with
  | nil => exact absurd rfl h
  | append_singleton vals v ih =>
    have hr : maxRun 1 (vals ++ [v]) = maxAdd 1 (maxRun 1 vals) v := by simp [maxRun]
    rw [hr]
    by_cases he : vals = []
    · subst he
      refine ⟨v, by simp, ?_, by simp⟩
      simp [maxRun, maxAdd, insort, insertAt]
    · obtain ⟨m, hm, hrun, hmax⟩ := ih he
      rw [hrun]
      by_cases hv : v ≤ m
      · refine ⟨m, by simp [hm], by simp [maxAdd, hv], fun x hx => ?_⟩
        rcases List.mem_append.1 hx with hx | hx
        · exact hmax x hx
        · rw [List.mem_singleton.1 hx]; exact hv
      · have hv' : m < v := not_le.1 hv
        refine ⟨v, by simp, ?_, fun x hx => ?_⟩
        · have hm := mono_of_sorted (a := [m]) (by simp) v
          have : right (fun y => decide (v < y)) [m] = 1 := by
            rw [right_eq_countP hm]; simp [le_of_lt hv']
          simp [maxAdd, hv, this]
        · rcases List.mem_append.1 hx with hx | hx
          · exact le_of_lt (lt_of_le_of_lt (hmax x hx) hv')
          · rw [List.mem_singleton.1 hx]

/-- The last `n` elements. -/
def lastN (n : Nat) (xs : List K) : List K := xs.drop (xs.length - n)

/-- C47 holds for strictly increasing values: the list is the last, hence largest, `count` values. -/
theorem C47_increasing_partial (n : Nat) (vals : List K) (h : vals.Pairwise (· < ·)) : maxRun n vals = lastN n vals := by
  induction vals using List.reverseRecOn with
  | nil => simp [maxRun, lastN]
  | append_singleton vals v ih =>
    have hr : maxRun n (vals ++ [v]) = maxAdd n (maxRun n vals) v := by simp [maxRun]
    rw [List.pairwise_append] at h
    rw [hr, ih h.1]
    have hlt : ∀ y ∈ lastN n vals, y < v := fun y hy => h.2.2 y (List.mem_of_mem_drop hy) v (by simp)
    have hsorted : (lastN n vals).Pairwise (· ≤ ·) :=
      (h.1.sublist (List.drop_sublist _ _)).imp le_of_lt
    have hright : right (fun y => decide (v < y)) (lastN n vals) = (lastN n vals).length := by
      rw [right_eq_countP (mono_of_sorted hsorted v), List.countP_eq_length]
      intro y hy; simp [le_of_lt (hlt y hy)]
    have hguard : (lastN n vals).head?.any (fun x => decide (v ≤ x)) = false := by
      revert hlt
      cases lastN n vals with
      | nil => intro _; rfl
      | cons x t => intro hlt; simpa using hlt x (by simp)
    have hlen : (lastN n vals).length = min n vals.length := by simp [lastN]; omega
    unfold maxAdd
    rw [hguard]
    simp only [Bool.false_eq_true, if_false, hright]
    split
    · rename_i hl
      unfold insort insertAt
      rw [hright, List.take_length, List.drop_length]
      unfold lastN at hlen hl ⊢
      rw [← List.drop_append_of_le_length (by omega)]
      congr 1
      simp only [List.length_append, List.length_singleton]
      omega
    · rename_i hl
      rw [if_pos (by omega)]
      unfold lastN
      rw [← List.drop_append_of_le_length (by omega), List.drop_drop]
      congr 1
      simp only [List.length_append, List.length_singleton]
      omega

example : maxRun 2 [(1 : Int), 4, 9] = [4, 9] := C47_increasing_partial 2 [1, 4, 9] (by decide)

/-- C47 fails: with room for ten values, a value below the smallest kept one is not kept; and with a full list, a value in
the middle replaces a larger one: the largest value of all is lost. -/
theorem C47_violated : maxRun 10 [(5 : Int), 3] = [5] ∧ maxRun 2 [(1 : Int), 5, 3] = [1, 3] := by
  have h1 : right (fun y => decide ((5 : Int) < y)) [1] = 1 := by
    rw [right_eq_countP (mono_of_sorted (by simp) 5)]; decide
  have h2 : right (fun y => decide ((3 : Int) < y)) [1, 5] = 1 := by
    rw [right_eq_countP (mono_of_sorted (by simp) 3)]; decide
  constructor
  · simp [maxRun, maxAdd, insort, insertAt]
  · simp [maxRun, maxAdd, insort, insertAt, h1, h2]

/-! ## C48 -/

theorem minAdd_inv (n : Nat) (xs : List K) (v : K) (hs : xs.Pairwise (· ≤ ·)) (hl : xs.length ≤ n) :
    (minAdd n xs v).Pairwise (· ≤ ·) ∧ (minAdd n xs v).length ≤ n ∧ minAdd n xs v <+~ v :: xs := by
  unfold minAdd
  split
  · exact ⟨hs, hl, (List.sublist_cons_self v xs).subperm⟩
  · split
    · rename_i _ hlt
      refine ⟨insort_sorted hs v, ?_, (insort_perm xs v).subperm⟩
      rw [(insort_perm xs v).length_eq, List.length_cons]; omega
    · rename_i hg hge
      obtain ⟨h1, h2⟩ := right_split (mono_of_sorted hs v)
      have hle := (right_spec (mono_of_sorted hs v)).1
      dsimp only
      split
      · rename_i hr
        rw [hr] at h2
        refine ⟨?_, by simp; omega, ?_⟩
        · refine List.Pairwise.sublist (List.dropLast_sublist _) ?_
          rw [List.pairwise_cons]
          exact ⟨fun y hy => by simpa using le_of_lt (by simpa using h2 y (by simpa using hy)), hs⟩
        · exact (List.dropLast_sublist _).subperm
      · rename_i hr
        refine ⟨set_sorted hs v ?_, by simpa using hl, set_subperm xs _ v⟩
        by_contra hc
        -- the last element is larger than the value
        rw [List.take_of_length_le (by omega)] at h1
        have hne : xs ≠ [] := by rintro rfl; simp at hle; exact hr hle
        rw [List.getLast?_eq_some_getLast hne] at hg
        have := h1 _ (List.getLast_mem hne)
        simp at hg this
        exact absurd hg (not_lt.2 this)

/-- C48: `min_list` is sorted, has at most `count` elements, and they are values that were added (each as often at most). -/
theorem C48_shape_partial (n : Nat) (vals : List K) :
    (minRun n vals).Pairwise (· ≤ ·) ∧ (minRun n vals).length ≤ n ∧ minRun n vals <+~ vals := by
  induction vals using List.reverseRecOn with
  | nil => simp [minRun]
  | append_singleton vals v ih =>
    have hr : minRun n (vals ++ [v]) = minAdd n (minRun n vals) v := by simp [minRun]
    rw [hr]
    obtain ⟨h1, h2, h3⟩ := minAdd_inv n _ v ih.1 ih.2.1
    refine ⟨h1, h2, h3.trans ?_⟩
    refine ((List.subperm_cons v).2 ih.2.2).trans ?_
    exact (List.perm_append_singleton v vals).symm.subperm

/-- C48: the first element of the list is the smallest value added, for every positive `count`. -/
theorem C48_min_partial (n : Nat) (vals : List K) (h : vals ≠ []) :
    ∃ m ∈ vals, ∃ t, minRun (n + 1) vals = m :: t ∧ ∀ x ∈ vals, m ≤ x := by
  induction vals using List.reverseRecOn with
  | nil => exact absurd rfl h
  | append_singleton vals v ih =>
    have hr : minRun (n + 1) (vals ++ [v]) = minAdd (n + 1) (minRun (n + 1) vals) v := by simp [minRun]
    by_cases he : vals = []
    · subst he
      exact ⟨v, by simp, [], by rw [hr]; simp [minRun, minAdd, insort, insertAt], by simp⟩
    · obtain ⟨m, hm, t, hrun, hmin⟩ := ih he
      have hs : (m :: t).Pairwise (· ≤ ·) := by rw [← hrun]; exact (C48_shape_partial (n + 1) vals).1
      have hmlast : m ≤ (m :: t).getLast (by simp) := by
        rcases List.mem_cons.1 (List.getLast_mem (l := m :: t) (by simp)) with h | h
        · rw [h]
        · exact (List.pairwise_cons.1 hs).1 _ h
      rw [hr, hrun]
      obtain ⟨h1, h2⟩ := right_split (mono_of_sorted hs v)
      simp only [decide_eq_false_iff_not, not_lt, decide_eq_true_eq] at h1 h2
      have hmin' : ∀ x ∈ vals ++ [v], min m v ≤ x := by
        intro x hx
        rcases List.mem_append.1 hx with hx | hx
        · exact le_trans (min_le_left _ _) (hmin x hx)
        · rw [List.mem_singleton.1 hx]; exact min_le_right _ _
      -- where the value goes decides the new head
      by_cases hr0 : right (fun y => decide (v < y)) (m :: t) = 0
      · have hvm : v < m := by
          rw [hr0] at h2; exact h2 m (by simp)
        have hmv : min m v = v := min_eq_right (le_of_lt hvm)
        rw [hmv] at hmin'
        have hhead : ∃ t', minAdd (n + 1) (m :: t) v = v :: t' := by
          unfold minAdd
          rw [List.getLast?_eq_some_getLast (by simp : m :: t ≠ [])]
          simp only [ge_iff_le, Option.any_some, not_le.2 (lt_of_lt_of_le hvm hmlast), decide_false,
            Bool.false_eq_true, if_false, hr0, if_true]
          split
          · exact ⟨m :: t, by simp [insort, insertAt, hr0]⟩
          · exact ⟨(m :: t).dropLast, by simp [List.dropLast_cons_of_ne_nil]⟩
        obtain ⟨t', ht'⟩ := hhead
        exact ⟨v, by simp, t', ht', hmin'⟩
      · have hmv : m ≤ v := h1 m (by
          obtain ⟨k, hk⟩ := Nat.exists_eq_succ_of_ne_zero hr0
          rw [hk]; simp)
        rw [min_eq_left hmv] at hmin'
        have hhead : ∃ t', minAdd (n + 1) (m :: t) v = m :: t' := by
          obtain ⟨k, hk⟩ := Nat.exists_eq_succ_of_ne_zero hr0
          unfold minAdd
          split
          · exact ⟨t, rfl⟩
          · split
            · exact ⟨t.take k ++ v :: t.drop k, by simp [insort, insertAt, hk]⟩
            · exact ⟨t.set k v, by simp [hk]⟩
        obtain ⟨t', ht'⟩ := hhead
        exact ⟨m, by simp [hm], t', ht', hmin'⟩

example : ∃ m ∈ [(3 : Int), 1, 2], ∃ t, minRun 2 [3, 1, 2] = m :: t ∧ ∀ x ∈ [(3 : Int), 1, 2], m ≤ x :=
  C48_min_partial 1 [3, 1, 2] (by simp)

/-- C48 fails: with room for ten values, a value above the largest kept one is not kept; and with a full list, a value in
the middle replaces the next larger one and not the largest: of 20, 4, 2, 3 the three smallest are not kept. -/
theorem C48_violated : minRun 10 [(3 : Int), 5] = [3] ∧ minRun 3 [(20 : Int), 4, 2, 3] = [2, 3, 20] := by
  have h1 : right (fun y => decide ((4 : Int) < y)) [20] = 0 := by
    rw [right_eq_countP (mono_of_sorted (by simp) 4)]; decide
  have h2 : right (fun y => decide ((2 : Int) < y)) [4, 20] = 0 := by
    rw [right_eq_countP (mono_of_sorted (by simp) 2)]; decide
  have h3 : right (fun y => decide ((3 : Int) < y)) [2, 4, 20] = 1 := by
    rw [right_eq_countP (mono_of_sorted (by simp) 3)]; decide
  constructor
  · simp [minRun, minAdd, insort, insertAt]
  · simp [minRun, minAdd, insort, insertAt, h1, h2, h3]

/-! ## C49 -/

/-- The bounds of a histogram: strictly increasing, from `-inf` to `inf`, and just the given ones and these. -/
structure GoodBounds (given : List (Ext K)) (b : List (Ext K)) : Prop where
  sorted : b.Pairwise (· < ·)
  mem : ∀ x, x ∈ b ↔ x = negInf ∨ x = posInf ∨ x ∈ given

theorem histInit_bounds (given : List (Ext K)) : GoodBounds given (histInit given).bounds := by
  have hperm := List.mergeSort_perm ((posInf :: negInf :: given).dedup) (fun x y : Ext K => decide (x ≤ y))
  constructor
  · have hle : ((posInf :: negInf :: given).dedup.mergeSort (fun x y : Ext K => decide (x ≤ y))).Pairwise (· ≤ ·) := by
      have := List.pairwise_mergeSort (le := fun x y : Ext K => decide (x ≤ y))
        (fun a b c => by simp only [decide_eq_true_eq]; exact le_trans)
        (fun a b => by simp only [Bool.or_eq_true, decide_eq_true_eq]; exact le_total a b)
        ((posInf :: negInf :: given).dedup)
      exact this.imp (by intro a b; simp)
    have hnd : ((posInf :: negInf :: given).dedup.mergeSort (fun x y : Ext K => decide (x ≤ y))).Nodup :=
      hperm.nodup_iff.2 (List.nodup_dedup _)
    exact (hle.and hnd).imp fun ⟨h1, h2⟩ => lt_of_le_of_ne h1 h2
  · intro x
    simp only [histInit, hperm.mem_iff, List.mem_dedup, List.mem_cons]
    tauto

/-- Below `inf`. -/
theorem lt_posInf {x : Ext K} (h : x ≠ posInf) : x < posInf := by
  induction x using WithBot.recBotCoe with
  | bot => exact WithBot.bot_lt_coe _
  | coe x =>
    have : x ≠ ⊤ := fun e => h (by rw [e]; rfl)
    exact WithBot.coe_lt_coe.2 (lt_top_iff_ne_top.2 this)

theorem index_spec {given b : List (Ext K)} (hb : GoodBounds given b) {x : Ext K} (hx : x ≠ posInf) :
    ∃ i, right (histLt (some x)) b = i + 1 ∧ ∃ h : i + 1 < b.length, b[i] ≤ x ∧ x < b[i + 1] := by
  have hm : Mono (histLt (some x)) b := by
    have := mono_of_sorted (hb.sorted.imp le_of_lt) x
    exact this
  obtain ⟨h0, h1, h2⟩ := right_spec hm
  have hbot : negInf ∈ b := (hb.mem _).2 (.inl rfl)
  have htop : posInf ∈ b := (hb.mem _).2 (.inr (.inl rfl))
  obtain ⟨j, hj, hjt⟩ := List.mem_iff_getElem.1 htop
  obtain ⟨k, hk, hkb⟩ := List.mem_iff_getElem.1 hbot
  have hlt : right (histLt (some x)) b < b.length := by
    by_contra hc
    have := h1 j hj (by omega)
    rw [hjt] at this
    simp [histLt] at this
    exact absurd (lt_posInf hx) (not_lt.2 this)
  have hpos : right (histLt (some x)) b ≠ 0 := by
    intro hc
    have := h2 k hk (by omega)
    rw [hkb] at this
    simp [histLt, negInf] at this
  obtain ⟨i, hi⟩ := Nat.exists_eq_succ_of_ne_zero hpos
  refine ⟨i, hi, by omega, ?_, ?_⟩
  · have := h1 i (by omega) (by omega)
    simpa [histLt] using this
  · have := h2 (i + 1) (by omega) (by omega)
    simpa [histLt] using this

theorem ranges_length {X : Type} (b : List X) : (ranges b).length = b.length - 1 := by simp [ranges]

theorem ranges_get {X : Type} (b : List X) (i : Nat) (h : i + 1 < b.length) :
    (ranges b)[i]'(by rw [ranges_length]; omega) = (b[i], b[i + 1]) := by
  simp [ranges]

theorem partition_aux {given b : List (Ext K)} (hb : GoodBounds given b) {x : Ext K} (hx : x ≠ posInf) :
    ∃ i, ∃ h : i < (ranges b).length, ((ranges b)[i].1 ≤ x ∧ x < (ranges b)[i].2) ∧
      ∀ j, ∀ hj : j < (ranges b).length, (ranges b)[j].1 ≤ x ∧ x < (ranges b)[j].2 → j = i := by
  obtain ⟨i, _, hi, h1, h2⟩ := index_spec hb hx
  refine ⟨i, by rw [ranges_length]; omega, ?_, ?_⟩
  · rw [ranges_get b i hi]; exact ⟨h1, h2⟩
  · intro j hj hjx
    rw [ranges_length] at hj
    rw [ranges_get b j (by omega)] at hjx
    have hmono := List.pairwise_iff_getElem.1 (hb.sorted.imp le_of_lt)
    rcases Nat.lt_trichotomy j i with h | h | h
    · have : b[j + 1] ≤ b[i] := by
        rcases Nat.lt_or_ge (j + 1) i with h' | h'
        · exact hmono (j + 1) i (by omega) (by omega) h'
        · have : j + 1 = i := by omega
          subst this; exact le_refl _
      exact absurd (lt_of_lt_of_le hjx.2 (le_trans this h1)) (lt_irrefl _)
    · exact h
    · have : b[i + 1] ≤ b[j] := by
        rcases Nat.lt_or_ge (i + 1) j with h' | h'
        · exact hmono (i + 1) j (by omega) (by omega) h'
        · have : i + 1 = j := by omega
          subst this; exact le_refl _
      exact absurd (lt_of_lt_of_le h2 (le_trans this hjx.1)) (lt_irrefl _)

/-- C49: whatever the given bounds, the ranges cover everything below `inf` and do not overlap: each value is in exactly
one, and they are contiguous by construction. -/
theorem C49_partition_partial (given : List (Ext K)) (x : Ext K) (hx : x ≠ posInf) :
    ∃ i, ∃ h : i < (ranges (histInit given).bounds).length,
      ((ranges (histInit given).bounds)[i].1 ≤ x ∧ x < (ranges (histInit given).bounds)[i].2) ∧
      ∀ j, ∀ hj : j < (ranges (histInit given).bounds).length,
        (ranges (histInit given).bounds)[j].1 ≤ x ∧ x < (ranges (histInit given).bounds)[j].2 → j = i :=
   partition_aux (histInit_bounds given) hx

/-- How many of the values lie in a range. -/
def inRange (vals : List (Ext K)) (r : Ext K × Ext K) : Nat := vals.countP fun v => decide (r.1 ≤ v ∧ v < r.2)

theorem histAdd_ok {given : List (Ext K)} {h : Hist K} (hbd : h.bounds = (histInit given).bounds)
    {vals : List (Ext K)} (hbk : h.buckets = (ranges h.bounds).map (inRange vals)) {x : Ext K} (hx : x ≠ posInf) :
    ∃ h', histAdd h (some x) = some h' ∧ h'.bounds = (histInit given).bounds ∧
      h'.buckets = (ranges h'.bounds).map (inRange (vals ++ [x])) := by
  have hb := histInit_bounds given
  rw [← hbd] at hb
  obtain ⟨i, hi, h1, h2⟩ := partition_aux hb hx
  obtain ⟨i', hr, hi', h1', h2'⟩ := index_spec hb hx
  have hii : i' = i := h2 i' (by rw [ranges_length]; omega) (by rw [ranges_get _ i' hi']; exact ⟨h1', h2'⟩)
  subst hii
  have hlen : i' < h.buckets.length := by rw [hbk]; simpa using hi
  refine ⟨{ h with buckets := h.buckets.set i' (h.buckets[i'] + 1) }, ?_, hbd, ?_⟩
  · simp [histAdd, hr, List.getElem?_eq_getElem hlen]
  · dsimp only
    apply List.ext_getElem
    · simp [hbk]
    · intro j hj hj'
      simp only [List.length_set] at hj
      have hjr : j < (ranges h.bounds).length := by simpa using hj'
      rw [List.getElem_set, List.getElem_map]
      have hgj : h.buckets[j] = inRange vals (ranges h.bounds)[j] := by simp [hbk]
      have hcount : inRange (vals ++ [x]) (ranges h.bounds)[j] =
          inRange vals (ranges h.bounds)[j] + if (ranges h.bounds)[j].1 ≤ x ∧ x < (ranges h.bounds)[j].2 then 1 else 0 := by
        simp [inRange, List.countP_append, List.countP_cons]
      rw [hcount, ← hgj]
      split
      · rename_i e
        subst e
        rw [if_pos h1]
      · rename_i e
        rw [if_neg fun hc => e (h2 j _ hc).symm]
        rfl

/-- C49: after any sequence of values below `inf` (NaN excluded), no `add` has raised, and the count reported for each
range is the number of values in it. -/
theorem C49_counts_partial (given vals : List (Ext K)) (h : ∀ v ∈ vals, v ≠ posInf) :
    ∃ r, histRun (histInit given) (vals.map some) = some r ∧
      results r = (ranges (histInit given).bounds).map fun rg => (rg, inRange vals rg) := by
  suffices key : ∀ (vals done : List (Ext K)) (hh : Hist K), (∀ v ∈ vals, v ≠ posInf) →
      hh.bounds = (histInit given).bounds → hh.buckets = (ranges hh.bounds).map (inRange done) →
      ∃ r, histRun hh (vals.map some) = some r ∧ r.bounds = (histInit given).bounds ∧
        r.buckets = (ranges r.bounds).map (inRange (done ++ vals)) by
    obtain ⟨r, h1, h2, h3⟩ := key vals [] (histInit given) h rfl (by
      have : inRange ([] : List (Ext K)) = fun _ => 0 := by funext r; simp [inRange]
      rw [this, List.map_const']
      rfl)
    refine ⟨r, h1, ?_⟩
    rw [results, h3, h2]
    simp only [List.nil_append]
    generalize ranges (histInit given).bounds = l
    induction l with
    | nil => rfl
    | cons a l ih => simp [ih]
  intro vals
  induction vals with
  | nil => intro done hh _ h1 h2; exact ⟨hh, rfl, h1, by simpa using h2⟩
  | cons v vals ih =>
    intro done hh hv h1 h2
    obtain ⟨h', e1, e2, e3⟩ := histAdd_ok h1 h2 (hv v (by simp))
    obtain ⟨r, r1, r2, r3⟩ := ih (done ++ [v]) h' (fun v hv' => hv v (by simp [hv'])) e2 e3
    exact ⟨r, by simp [histRun, e1, r1], r2, by simpa using r3⟩

theorem sum_set (xs : List Nat) (i : Nat) (h : i < xs.length) : (xs.set i (xs[i] + 1)).sum = xs.sum + 1 := by
  induction xs generalizing i with
  | nil => simp at h
  | cons x xs ih =>
    cases i with
    | zero => simp; omega
    | succ i =>
      have := ih i (by simpa using h)
      simp only [List.set_cons_succ, List.getElem_cons_succ, List.sum_cons, this]; omega

/-- C49: the counts add up to the number of values added. -/
theorem C49_sum (h r : Hist K) (vals : List (Option (Ext K))) (hr : histRun h vals = some r) :
    r.buckets.sum = h.buckets.sum + vals.length := by
  induction vals generalizing h with
  | nil => simp only [histRun, Option.some.injEq] at hr; subst hr; simp
  | cons v vals ih =>
    simp only [histRun] at hr
    cases ha : histAdd h v with
    | none => simp [ha] at hr
    | some h' =>
      rw [ha] at hr
      rw [ih h' hr]
      simp only [histAdd] at ha
      split at ha
      · cases ha
      · rename_i c hc
        simp only [Option.some.injEq] at ha
        subst ha
        obtain ⟨hlt, rfl⟩ := List.getElem?_eq_some_iff.1 hc
        dsimp only
        rw [sum_set _ _ hlt]
        simp only [List.length_cons]; omega

/-- C49 fails: adding `inf` or NaN raises, whatever the bounds. -/
theorem C49_violated (given : List (Ext K)) :
    histAdd (histInit given) (some posInf) = none ∧ histAdd (histInit given) none = none := by
  have key : ∀ v, (∀ y : Ext K, histLt v y = false) → histAdd (histInit given) v = none := by
    intro v hv
    have hm : Mono (histLt v) (histInit given).bounds := List.pairwise_of_forall fun y z h => by rw [hv] at h; cases h
    have hr : right (histLt v) (histInit given).bounds = (histInit given).bounds.length := by
      rw [right_eq_countP hm, List.countP_eq_length]; intro y _; simp [hv]
    have hb : (histInit given).buckets.length = (histInit given).bounds.length - 1 := by
      rw [← ranges_length]; simp [histInit]
    simp only [histAdd, hr]
    rw [List.getElem?_eq_none (by omega)]
  refine ⟨key _ fun y => ?_, key _ fun y => rfl⟩
  simp only [histLt, decide_eq_false_iff_not, not_lt]
  exact le_top

example : ∃ r, histRun (histInit ([((3 : Int) : WithTop Int)] : List (Ext Int))) ([((1 : Int) : WithTop Int), ((3 : Int) : WithTop Int)].map some) = some r ∧
    results r = (ranges (histInit ([((3 : Int) : WithTop Int)] : List (Ext Int))).bounds).map
      fun rg => (rg, inRange [((1 : Int) : WithTop Int), ((3 : Int) : WithTop Int)] rg) :=
  C49_counts_partial _ _ (by decide)

example := C47_one_partial [(3 : Int), 9, 4] (by simp)

example := C49_partition_partial ([((3 : Int) : WithTop Int), ((7 : Int) : WithTop Int)] : List (Ext Int)) ((5 : Int) : WithTop Int)
  (by decide)

example : ∃ r, histRun (histInit ([((3 : Int) : WithTop Int)] : List (Ext Int)))
    ([((1 : Int) : WithTop Int), ((3 : Int) : WithTop Int)].map some) = some r ∧
      r.buckets.sum = (histInit ([((3 : Int) : WithTop Int)] : List (Ext Int))).buckets.sum + 2 := by
  obtain ⟨r, h1, -⟩ := C49_counts_partial ([((3 : Int) : WithTop Int)] : List (Ext Int))
    [((1 : Int) : WithTop Int), ((3 : Int) : WithTop Int)] (by decide)
  exact ⟨r, h1, C49_sum _ _ _ h1⟩

end Verif.Accum
