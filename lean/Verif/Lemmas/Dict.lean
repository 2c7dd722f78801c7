import Verif.Model.Dict
import Mathlib.Algebra.BigOperators.Group.List.Basic
/-!
# Dictionaries: reading what was written
-/
namespace Verif.Dct

variable {α β : Type} [DecidableEq α]

theorem get?_set (d : Dict α β) (k k' : α) (v : β) : get? (set d k v) k' = if k = k' then some v else get? d k' := by
  induction d with
  | nil => simp [set, get?]
  | cons p d ih =>
    obtain ⟨a, b⟩ := p
    simp only [set]
    split
    · rename_i h
      subst h
      simp only [get?]
      split <;> rfl
    · rename_i h
      simp only [get?]
      rw [ih]
      by_cases ha : a = k'
      · subst ha
        rw [if_pos rfl, if_neg (Ne.symm h), if_pos rfl]
      · rw [if_neg ha, if_neg ha]

theorem get?_upd (d : Dict α β) (k k' : α) (init : β) (f : β → β) :
    get? (upd d k init f) k' = if k = k' then some (f ((get? d k).getD init)) else get? d k' := by
  unfold upd; rw [get?_set]

theorem mem_keys_set (d : Dict α β) (k x : α) (v : β) : x ∈ keys (set d k v) ↔ x = k ∨ x ∈ keys d := by
  induction d with
  | nil => simp [set, keys]
  | cons p d ih =>
    obtain ⟨a, b⟩ := p
    simp only [set]
    split
    · rename_i h; subst h; simp [keys]
    · have ih' : x ∈ (set d k v).map Prod.fst ↔ x = k ∨ x ∈ d.map Prod.fst := ih
      simp only [keys, List.map_cons, List.mem_cons, ih']
      exact or_left_comm

theorem nodup_set {d : Dict α β} (h : (keys d).Nodup) (k : α) (v : β) : (keys (set d k v)).Nodup := by
  induction d with
  | nil => simp [set, keys]
  | cons p d ih =>
    obtain ⟨a, b⟩ := p
    simp only [keys, List.map_cons, List.nodup_cons] at h
    simp only [set]
    split
    · rename_i e; subst e; simpa [keys] using h
    · rename_i e
      have h2 := ih h.2
      simp only [keys, List.map_cons, List.nodup_cons] at h2 ⊢
      refine ⟨?_, h2⟩
      intro hm
      have := (mem_keys_set d k a v).1 hm
      rcases this with rfl | hm
      · exact e rfl
      · exact h.1 hm

theorem get?_isSome (d : Dict α β) (k : α) : (get? d k).isSome ↔ k ∈ keys d := by
  induction d with
  | nil => simp [get?, keys]
  | cons p d ih =>
    obtain ⟨a, b⟩ := p
    simp only [get?, keys, List.map_cons, List.mem_cons]
    split
    · rename_i h; simp [h]
    · rename_i h
      rw [ih]
      constructor
      · exact .inr
      · rintro (e | h')
        · exact absurd e.symm h
        · exact h'

theorem get?_none {d : Dict α β} {k : α} : get? d k = none ↔ k ∉ keys d := by
  rw [← get?_isSome]; cases get? d k <;> simp

theorem mem_of_get? {d : Dict α β} {k : α} {v : β} (h : get? d k = some v) : (k, v) ∈ d := by
  induction d with
  | nil => simp [get?] at h
  | cons p d ih =>
    obtain ⟨a, b⟩ := p
    simp only [get?] at h
    split at h
    · rename_i e; subst e; simp only [Option.some.injEq] at h; subst h; simp
    · exact List.mem_cons_of_mem _ (ih h)

theorem get?_of_mem {d : Dict α β} (hn : (keys d).Nodup) {k : α} {v : β} (h : (k, v) ∈ d) : get? d k = some v := by
  induction d with
  | nil => simp at h
  | cons p d ih =>
    obtain ⟨a, b⟩ := p
    simp only [keys, List.map_cons, List.nodup_cons] at hn
    simp only [get?]
    rcases List.mem_cons.1 h with e | h
    · cases e; simp
    · have : a ≠ k := by
        rintro rfl
        exact hn.1 (List.mem_map.2 ⟨_, h, rfl⟩)
      rw [if_neg this]
      exact ih hn.2 h

/-- Sums over the values, when one of them is replaced. -/
theorem sum_set {M : Type} [AddCommMonoid M] (f : β → M) (d : Dict α β) (k : α) (v : β) :
    ((values (set d k v)).map f).sum + ((get? d k).elim 0 f) = ((values d).map f).sum + f v := by
  induction d with
  | nil => simp [set, get?, values]
  | cons p d ih =>
    obtain ⟨a, b⟩ := p
    simp only [set, get?]
    split
    · simp only [values, List.map_cons, List.sum_cons, Option.elim_some]
      rw [add_assoc, add_assoc, add_comm (f v), add_assoc, add_left_comm]
    · simp only [values, List.map_cons, List.sum_cons] at ih ⊢
      rw [add_assoc, ih, add_assoc]

/-- Building a dictionary from items with distinct keys: each is there. -/
theorem get?_foldl_set {γ : Type} (items : List (α × γ)) (g : γ → β) (d : Dict α β) (k : α) :
    get? (items.foldl (fun d p => set d p.1 (g p.2)) d) k =
      match (items.reverse.find? fun p => decide (p.1 = k)) with
      | some p => some (g p.2)
      | none => get? d k := by
  induction items generalizing d with
  | nil => rfl
  | cons p items ih =>
    simp only [List.foldl_cons, List.reverse_cons, List.find?_append]
    rw [ih]
    cases hf : items.reverse.find? fun p => decide (p.1 = k) with
    | some q => simp
    | none =>
      simp only [Option.none_or]
      rw [get?_set]
      by_cases h : p.1 = k
      · simp [h]
      · simp [h]

theorem get?_build {γ : Type} (items : List (α × γ)) (g : γ → β) (k : α) (v : γ) (h : (k, v) ∈ items)
    (hu : ∀ p ∈ items, p.1 = k → p.2 = v) : get? (items.foldl (fun d p => set d p.1 (g p.2)) []) k = some (g v) := by
  rw [get?_foldl_set]
  cases hf : items.reverse.find? fun p => decide (p.1 = k) with
  | some q =>
    have h1 := List.mem_of_find?_eq_some hf
    have h2 := List.find?_some hf
    simp only [decide_eq_true_eq] at h2
    simp only [hu q (List.mem_reverse.1 h1) h2]
  | none =>
    have := List.find?_eq_none.1 hf (k, v) (List.mem_reverse.2 h)
    simp at this

theorem get?_build_none {γ : Type} (items : List (α × γ)) (g : γ → β) (k : α) (h : ∀ p ∈ items, p.1 ≠ k) :
    get? (items.foldl (fun d p => set d p.1 (g p.2)) []) k = none := by
  rw [get?_foldl_set]
  have : items.reverse.find? (fun p => decide (p.1 = k)) = none := by
    rw [List.find?_eq_none]
    intro p hp
    simpa using h p (List.mem_reverse.1 hp)
  rw [this]; rfl

theorem get?_foldl_nodup {γ : Type} {d : Dict α γ} (hn : (keys d).Nodup) (g : γ → β) (k : α) :
    get? (d.foldl (fun r p => set r p.1 (g p.2)) []) k = (get? d k).map g := by
  cases h : get? d k with
  | none =>
    rw [get?_build_none]; · rfl
    intro p hp e
    exact get?_none.1 h (e ▸ List.mem_map_of_mem hp)
  | some v =>
    rw [get?_build d g k v (mem_of_get? h)]; · rfl
    intro p hp e
    have := get?_of_mem hn (k := p.1) (v := p.2) hp
    rw [e, h] at this; exact (Option.some.inj this).symm

theorem get?_foldl_nodup_from {γ : Type} {d : Dict α γ} (hn : (keys d).Nodup) (g : γ → β) (r : Dict α β) (k : α) :
    get? (d.foldl (fun r p => set r p.1 (g p.2)) r) k = ((get? d k).map g).or (get? r k) := by
  rw [← get?_foldl_nodup hn, get?_foldl_set, get?_foldl_set]
  cases d.reverse.find? fun p => decide (p.1 = k) <;> simp [get?]

end Verif.Dct
