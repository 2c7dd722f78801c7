import Verif.Spec.Level
import Mathlib.Data.List.Pairwise
/-!
# Levels: the alias map and the level list
-/
namespace Verif.Lvl

theorem same_refl (k : Key) : k.same k = true := by cases k <;> simp [Key.same]
theorem same_symm {a b : Key} (h : a.same b = true) : b.same a = true := by
  cases a <;> cases b <;> simp_all [Key.same]
theorem same_trans {a b c : Key} (h : a.same b = true) (g : b.same c = true) : a.same c = true := by
  cases a <;> cases b <;> simp_all [Key.same] <;> cases c <;> simp_all [Key.same]

theorem get?_set (t : Table) (k : Key) (v : Level) (j : Key) :
    (t.set k v).get? j = if k.same j then some v else t.get? j := by
  induction t with
  | nil => rfl
  | cons p t ih =>
    obtain ⟨k', v'⟩ := p
    simp only [Table.set]
    by_cases h : k'.same k = true
    · simp only [h, if_true, Table.get?]
      by_cases hj : k.same j = true
      · rw [if_pos (same_trans h hj), if_pos hj]
      · rw [if_neg hj]
        rw [if_neg (fun h' => hj (same_trans (same_symm h) h'))]
        rw [if_neg (fun h' => hj (same_trans (same_symm h) h'))]
    · simp only [h, Table.get?]
      by_cases hj : k'.same j = true
      · simp only [hj, if_true]
        rw [if_neg (fun h' => h (same_trans hj (same_symm h')))]
        simp [Table.get?, hj]
      · simp [Table.get?, hj, ih]

theorem get?_register (lower upper : String → String) (t : Table) (l : Level) (k : Key)
    [Decidable (Names lower upper l k)] :
    (register lower upper t l).get? k = if Names lower upper l k then some l else t.get? k := by
  simp only [register, get?_set]
  cases k with
  | str s =>
    by_cases h1 : lower l.name = s <;> by_cases h2 : upper l.name = s <;>
      simp [Key.same, Names, h1, h2, @eq_comm _ s]
  | num n => simp [Key.same, Names, @eq_comm _ n]
  | level m => simp [Key.same, Names, @eq_comm _ m.name]
  | other n => simp [Key.same, Names]

open Classical in
theorem get?_table (lower upper : String → String) (regs : List Level) (k : Key) :
    (table lower upper regs).get? k = regs.reverse.find? (fun l => decide (Names lower upper l k)) := by
  suffices h : ∀ t : Table, (regs.foldl (register lower upper) t).get? k =
      (regs.reverse.find? (fun l => decide (Names lower upper l k))).or (t.get? k) by
    rw [table, h]; simp [Table.get?]
  induction regs with
  | nil => intro t; simp
  | cons l regs ih =>
    intro t
    rw [List.foldl_cons, ih, get?_register]
    simp only [List.reverse_cons, List.find?_append, List.find?_cons, List.find?_nil]
    cases (regs.reverse.find? fun l => decide (Names lower upper l k)) with
    | some r => simp
    | none => by_cases h : Names lower upper l k <;> simp [h]

theorem names_unique {lower upper : String → String} {a b : Level} {k : Key}
    (h : NoClash lower upper a b) (ha : Names lower upper a k) (hb : Names lower upper b k) : False := by
  obtain ⟨h1, h2, h3, h4, h5, h6⟩ := h
  cases k with
  | str s => rcases ha with rfl | rfl <;> rcases hb with hb | hb <;> simp_all
  | num n => simp only [Names] at ha hb; exact h2 (ha.symm.trans hb)
  | level m => simp only [Names] at ha hb; exact h1 (ha.symm.trans hb)
  | other n => exact ha

theorem NoClash.symm {lower upper : String → String} {a b : Level} (h : NoClash lower upper a b) :
    NoClash lower upper b a :=
  ⟨h.1.symm, h.2.1.symm, h.2.2.1.symm, h.2.2.2.1.symm, h.2.2.2.2.2.symm, h.2.2.2.2.1.symm⟩

theorem pairwise_cases {lower upper : String → String} {regs : List Level}
    (h : regs.Pairwise (NoClash lower upper)) {a b : Level} (ha : a ∈ regs) (hb : b ∈ regs) :
    a = b ∨ NoClash lower upper a b := by
  by_cases hab : a = b
  · exact .inl hab
  · haveI : Std.Symm (NoClash lower upper) := ⟨fun _ _ h => h.symm⟩
    exact .inr (h.forall ha hb hab)

theorem get?_of_names {lower upper : String → String} {regs : List Level}
    (h : regs.Pairwise (NoClash lower upper)) {l : Level} (hl : l ∈ regs) {k : Key}
    (hk : Names lower upper l k) : (table lower upper regs).get? k = some l := by
  classical
  rw [get?_table]
  cases hf : regs.reverse.find? (fun l => decide (Names lower upper l k)) with
  | none =>
    rw [List.find?_eq_none] at hf
    exact absurd hk (by simpa using hf l (by simpa using hl))
  | some m =>
    have hm := List.find?_some hf
    have hmem := List.mem_of_find?_eq_some hf
    rcases pairwise_cases h (by simpa using hmem) hl with rfl | hc
    · rfl
    · exact (names_unique hc (by simpa using hm) hk).elim

theorem get?_of_not_names {lower upper : String → String} {regs : List Level} {k : Key}
    (hk : ∀ l ∈ regs, ¬ Names lower upper l k) : (table lower upper regs).get? k = none := by
  classical
  rw [get?_table, List.find?_eq_none]
  intro l hl
  simpa using hk l (by simpa using hl)

theorem get?_mem {lower upper : String → String} {regs : List Level} {k : Key} {l : Level}
    (hk : (table lower upper regs).get? k = some l) : l ∈ regs := by
  classical
  rw [get?_table] at hk
  simpa using List.mem_of_find?_eq_some hk

/-! ## The level list -/

theorem set_vals (t : Table) (k : Key) (v : Level) : ∀ m ∈ (t.set k v).map (·.2), m = v ∨ m ∈ t.map (·.2) := by
  induction t with
  | nil => simp [Table.set]
  | cons p t ih =>
    obtain ⟨k', v'⟩ := p
    simp only [Table.set]
    split
    · intro m hm
      simp only [List.map_cons, List.mem_cons] at hm ⊢
      rcases hm with h | h
      · exact .inl h
      · exact .inr (.inr h)
    · intro m hm
      simp only [List.map_cons, List.mem_cons] at hm ⊢
      rcases hm with h | h
      · exact .inr (.inl h)
      · rcases ih m h with h | h
        · exact .inl h
        · exact .inr (.inr h)

theorem vals_sub (lower upper : String → String) (regs : List Level) :
    ∀ m ∈ (table lower upper regs).map (·.2), m ∈ regs := by
  suffices h : ∀ t : Table, ∀ m ∈ (regs.foldl (register lower upper) t).map (·.2),
      m ∈ regs ∨ m ∈ t.map (·.2) by
    intro m hm
    rcases h [] m hm with h | h
    · exact h
    · simp at h
  induction regs with
  | nil => intro t m hm; exact .inr hm
  | cons l regs ih =>
    intro t m hm
    rcases ih _ m hm with h | h
    · exact .inl (by simp [h])
    · simp only [register] at h
      rcases set_vals _ _ _ _ h with h | h
      · exact .inl (by simp [h])
      rcases set_vals _ _ _ _ h with h | h
      · exact .inl (by simp [h])
      rcases set_vals _ _ _ _ h with h | h
      · exact .inl (by simp [h])
      rcases set_vals _ _ _ _ h with h | h
      · exact .inl (by simp [h])
      exact .inr h

theorem get?_vals {t : Table} {k : Key} {l : Level} (h : t.get? k = some l) : l ∈ t.map (·.2) := by
  induction t with
  | nil => simp [Table.get?] at h
  | cons p t ih =>
    obtain ⟨k', v'⟩ := p
    simp only [Table.get?] at h
    split at h
    · simp only [Option.some.injEq] at h; simp [h]
    · simp [ih h]

theorem uniq_sub (ls : List Level) : ∀ m ∈ uniq ls, m ∈ ls := by
  induction ls with
  | nil => simp [uniq]
  | cons l ls ih =>
    intro m hm
    simp only [uniq, List.mem_cons, List.mem_filter] at hm
    rcases hm with h | h
    · simp [h]
    · simp [ih m h.1]

theorem uniq_names (ls : List Level) : (uniq ls).Pairwise (fun a b => a.name ≠ b.name) := by
  induction ls with
  | nil => simp [uniq]
  | cons l ls ih =>
    simp only [uniq, List.pairwise_cons]
    refine ⟨?_, ih.filter _⟩
    intro m hm
    simp only [List.mem_filter, decide_eq_true_eq] at hm
    exact fun h => hm.2 h.symm

theorem mem_uniq {ls : List Level} (h : ∀ a ∈ ls, ∀ b ∈ ls, a.name = b.name → a = b) {m : Level}
    (hm : m ∈ ls) : m ∈ uniq ls := by
  induction ls with
  | nil => simp at hm
  | cons l ls ih =>
    simp only [uniq, List.mem_cons, List.mem_filter, decide_eq_true_eq]
    by_cases hn : m.name = l.name
    · exact .inl (h m hm l (by simp) hn)
    · right
      refine ⟨ih (fun a ha b hb => h a (by simp [ha]) b (by simp [hb])) ?_, hn⟩
      rcases List.mem_cons.1 hm with rfl | h'
      · exact absurd rfl hn
      · exact h'

variable {lower upper : String → String} {regs : List Level}

theorem regs_nodup (h : regs.Pairwise (NoClash lower upper)) : regs.Nodup :=
  h.imp (fun hc he => hc.1 (by rw [he]))

theorem name_inj (h : regs.Pairwise (NoClash lower upper)) {a b : Level} (ha : a ∈ regs) (hb : b ∈ regs)
    (hn : a.name = b.name) : a = b := by
  rcases pairwise_cases h ha hb with h | h
  · exact h
  · exact absurd hn h.1

theorem value_inj (h : regs.Pairwise (NoClash lower upper)) {a b : Level} (ha : a ∈ regs) (hb : b ∈ regs)
    (hn : a.value = b.value) : a = b := by
  rcases pairwise_cases h ha hb with h | h
  · exact h
  · exact absurd hn h.2.1

theorem uniq_perm (h : regs.Pairwise (NoClash lower upper)) :
    (uniq ((table lower upper regs).map (·.2))).Perm regs := by
  rw [List.perm_ext_iff_of_nodup ((uniq_names _).imp (fun hc he => hc (by rw [he]))) (regs_nodup h)]
  intro m
  constructor
  · intro hm; exact vals_sub _ _ _ m (uniq_sub _ m hm)
  · intro hm
    refine mem_uniq (fun a ha b hb hn => name_inj h (vals_sub _ _ _ a ha) (vals_sub _ _ _ b hb) hn) ?_
    exact get?_vals (get?_of_names h hm (k := .level m) rfl)

instance : Std.Total valLE := ⟨fun a b => Int.le_total a.value b.value⟩
instance : IsTrans Level valLE := ⟨fun _ _ _ h g => Int.le_trans h g⟩

theorem levelList_perm (h : regs.Pairwise (NoClash lower upper)) :
    (levelList (table lower upper regs)).Perm regs :=
  (List.perm_insertionSort valLE _).trans (uniq_perm h)

theorem levelList_sorted (h : regs.Pairwise (NoClash lower upper)) :
    (levelList (table lower upper regs)).Pairwise (fun a b => a.value < b.value) := by
  have h1 : (levelList (table lower upper regs)).Pairwise valLE := List.pairwise_insertionSort _ _
  have h2 : (levelList (table lower upper regs)).Nodup := (levelList_perm h).nodup_iff.2 (regs_nodup h)
  refine List.Pairwise.imp_of_mem ?_ (h1.and h2)
  intro a b ha hb hab
  have ha' := (levelList_perm h).mem_iff.1 ha
  have hb' := (levelList_perm h).mem_iff.1 hb
  have : a.value ≠ b.value := fun he => hab.2 (value_inj h ha' hb' he)
  have : a.value ≤ b.value := hab.1
  omega

theorem getLevel_mem (hD : DEBUG ∈ regs) (k : Key) : getLevel (table lower upper regs) k ∈ regs := by
  simp only [getLevel]
  cases hg : (table lower upper regs).get? k with
  | none => exact hD
  | some l => exact get?_mem hg

/-- `list.index` finds the level itself. -/
theorem index_spec (h : regs.Pairwise (NoClash lower upper)) {l : Level} (hl : l ∈ regs) :
    ∃ i, index (levelList (table lower upper regs)) l = some i ∧
      (levelList (table lower upper regs))[i]? = some l := by
  have hl' := (levelList_perm h).mem_iff.2 hl
  cases hi : index (levelList (table lower upper regs)) l with
  | none =>
    simp only [index, List.findIdx?_eq_none_iff] at hi
    have := hi l hl'
    simp [eq] at this
  | some i =>
    refine ⟨i, rfl, ?_⟩
    simp only [index, List.findIdx?_eq_some_iff_getElem] at hi
    obtain ⟨hlt, he, _⟩ := hi
    rw [List.getElem?_eq_getElem hlt]
    have hm := (levelList_perm h).mem_iff.1 (List.getElem_mem hlt)
    simp only [eq] at he
    split at he
    · rename_i h'; rw [h']
    · split at he
      · rename_i h'; rw [value_inj h hm hl h']
      · split at he
        · rename_i h'; rw [name_inj h hm hl h']
        · cases he

/-- In a strictly sorted list the elements up to the `j`-th are the first `j + 1`. -/
theorem countP_le {LL : List Level} (hs : LL.Pairwise (fun a b => a.value < b.value)) {j : Nat} {r : Level}
    (hj : LL[j]? = some r) : LL.countP (fun l => decide (l.value ≤ r.value)) = j + 1 := by
  induction LL generalizing j with
  | nil => simp at hj
  | cons a LL ih =>
    rw [List.pairwise_cons] at hs
    cases j with
    | zero =>
      simp only [List.getElem?_cons_zero, Option.some.injEq] at hj
      subst hj
      rw [List.countP_cons_of_pos (by simp)]
      have : LL.countP (fun l => decide (l.value ≤ a.value)) = 0 := by
        rw [List.countP_eq_zero]
        intro x hx
        have := hs.1 x hx
        simp; omega
      omega
    | succ j =>
      simp only [List.getElem?_cons_succ] at hj
      have := hs.1 r (List.mem_of_getElem? hj)
      rw [List.countP_cons_of_pos (by simp; omega), ih hs.2 hj]

theorem countP_lt {LL : List Level} (hs : LL.Pairwise (fun a b => a.value < b.value)) {j : Nat} {r : Level}
    (hj : LL[j]? = some r) : LL.countP (fun l => decide (l.value < r.value)) = j := by
  induction LL generalizing j with
  | nil => simp at hj
  | cons a LL ih =>
    rw [List.pairwise_cons] at hs
    cases j with
    | zero =>
      simp only [List.getElem?_cons_zero, Option.some.injEq] at hj
      subst hj
      rw [List.countP_cons_of_neg (by simp), List.countP_eq_zero]
      intro x hx
      have := hs.1 x hx
      simp; omega
    | succ j =>
      simp only [List.getElem?_cons_succ] at hj
      have := hs.1 r (List.mem_of_getElem? hj)
      rw [List.countP_cons_of_pos (by simp; omega), ih hs.2 hj]

theorem lt_iff (x y : Level) : lt x y = true ↔ x.value < y.value := by
  simp only [lt]
  by_cases h1 : x = y
  · subst h1; simp
  · simp [h1]

theorem lt_eq_false (x y : Level) : lt x y = false ↔ y.value ≤ x.value := by
  rw [← Bool.not_eq_true, lt_iff]; omega

theorem countAbove_perm {xs ys : List Level} (h : xs.Perm ys) (v u : Int) :
    countAbove xs v u = countAbove ys v u := (h.filter _).length_eq

/-- Counting between two positions. -/
theorem countAbove_eq {LL : List Level} (hs : LL.Pairwise (fun a b => a.value < b.value)) {i j : Nat}
    {l r : Level} (hi : LL[i]? = some l) (hj : LL[j]? = some r) (hij : i ≤ j) :
    countAbove LL l.value r.value = j - i := by
  have h1 := countP_le hs hi
  have h2 := countP_le hs hj
  have hlr : l.value ≤ r.value := by
    rcases Nat.lt_or_eq_of_le hij with hlt | rfl
    · obtain ⟨hj1, hj2⟩ := List.getElem?_eq_some_iff.1 hj
      obtain ⟨hi1, hi2⟩ := List.getElem?_eq_some_iff.1 hi
      have := List.pairwise_iff_getElem.1 hs i j hi1 hj1 hlt
      rw [hi2, hj2] at this; omega
    · rw [hi] at hj; cases hj; omega
  have h3 : LL.countP (fun x => decide (x.value ≤ r.value)) =
      LL.countP (fun x => decide (x.value ≤ l.value)) + countAbove LL l.value r.value := by
    clear h1 h2 hi hj hs
    simp only [countAbove, ← List.countP_eq_length_filter]
    induction LL with
    | nil => rfl
    | cons a LL ih =>
      simp only [List.countP_cons, ih]
      by_cases c1 : a.value ≤ r.value <;> by_cases c2 : a.value ≤ l.value <;>
        simp [c1, c2] <;> (try split) <;> omega
  omega

theorem value_mono {LL : List Level} (hs : LL.Pairwise (fun a b => a.value < b.value)) {i j : Nat}
    {l r : Level} (hi : LL[i]? = some l) (hj : LL[j]? = some r) : l.value ≤ r.value ↔ i ≤ j := by
  obtain ⟨hj1, hj2⟩ := List.getElem?_eq_some_iff.1 hj
  obtain ⟨hi1, hi2⟩ := List.getElem?_eq_some_iff.1 hi
  constructor
  · intro h
    by_contra hc
    have := List.pairwise_iff_getElem.1 hs j i hj1 hi1 (by omega)
    rw [hi2, hj2] at this; omega
  · intro h
    rcases Nat.lt_or_eq_of_le h with hlt | rfl
    · have := List.pairwise_iff_getElem.1 hs i j hi1 hj1 hlt
      rw [hi2, hj2] at this; omega
    · rw [hi] at hj; cases hj; omega

end Verif.Lvl
