import Verif.Model.Sinks
import Verif.Lemmas.Dict
import Mathlib.Data.List.Induction
/-!
# Routing
-/
namespace Verif.Sinks

open Verif.Dct

section Route

variable {L E A : Type} [DecidableEq L] (lg : E → L) (nm st : E → String) (mk : E → A) (ad : A → E → A)

/-- The cell of an accumulator. -/
def cell (m : Map3 L A) (l : L) (n s : String) : Option A :=
  (get? m l).bind fun d2 => (get? d2 n).bind fun d3 => get? d3 s

/-- What the accumulator of the events `evs`, all with the same labels, is. -/
def accOf (evs : List E) : Option A :=
  match evs with
  | [] => none
  | e :: es => some ((e :: es).foldl ad (mk e))

theorem accOf_append (evs : List E) (e : E) : accOf mk ad (evs ++ [e]) = some (ad ((accOf mk ad evs).getD (mk e)) e) := by
  cases evs with
  | nil => rfl
  | cons x xs => simp [accOf, List.foldl_append]

theorem upd_get {α β : Type} [DecidableEq α] (d : Dict α β) (k k' : α) (init : β) (f : β → β) :
    get? (upd d k init f) k' = if k = k' then some (f ((get? d k).getD init)) else get? d k' := get?_upd ..

theorem cell_onEnd (m : Map3 L A) (e : E) (l : L) (n s : String) :
    cell (onEnd lg nm st mk ad m e) l n s =
      if lg e = l ∧ nm e = n ∧ st e = s then some (ad ((cell m l n s).getD (mk e)) e) else cell m l n s := by
  unfold cell onEnd
  rw [get?_upd]
  by_cases h1 : lg e = l
  · subst h1
    rw [if_pos rfl, Option.bind_some, get?_upd]
    have hg : ∀ n, get? ((get? m (lg e)).getD []) n = (get? m (lg e)).bind fun d2 => get? d2 n := by
      intro n; cases get? m (lg e) <;> rfl
    by_cases h2 : nm e = n
    · subst h2
      rw [if_pos rfl, Option.bind_some, get?_upd, hg]
      have hg' : ∀ s, get? (((get? m (lg e)).bind fun d2 => get? d2 (nm e)).getD []) s =
          (get? m (lg e)).bind fun d2 => (get? d2 (nm e)).bind fun d3 => get? d3 s := by
        intro s; cases get? m (lg e) with
        | none => rfl
        | some d2 => simp only [Option.bind_some]; cases get? d2 (nm e) <;> rfl
      rw [hg', hg']
      by_cases h3 : st e = s
      · subst h3; simp
      · simp [h3]
    · rw [if_neg h2, hg]
      simp only [h2, false_and, and_false, if_false]
      cases get? m (lg e) <;> rfl
  · simp [h1]

theorem cell_run (evs : List E) (l : L) (n s : String) :
    cell (evs.foldl (onEnd lg nm st mk ad) []) l n s =
      accOf mk ad (evs.filter fun e => decide (lg e = l ∧ nm e = n ∧ st e = s)) := by
  induction evs using List.reverseRecOn with
  | nil => rfl
  | append_singleton evs e ih =>
    rw [List.foldl_append, List.foldl_cons, List.foldl_nil, cell_onEnd, ih, List.filter_append]
    by_cases h : lg e = l ∧ nm e = n ∧ st e = s
    · rw [if_pos h, List.filter_cons_of_pos (by simpa using h), List.filter_nil, accOf_append]
    · rw [if_neg h, List.filter_cons_of_neg (by simpa using h), List.filter_nil, List.append_nil]

/-- All maps have distinct keys, and none below the top is empty. -/
structure WF (m : Map3 L A) : Prop where
  k1 : (keys m).Nodup
  k2 : ∀ l d2, get? m l = some d2 → (keys d2).Nodup
  k3 : ∀ l d2 n d3, get? m l = some d2 → get? d2 n = some d3 → (keys d3).Nodup

theorem wf_onEnd {m : Map3 L A} (h : WF m) (e : E) : WF (onEnd lg nm st mk ad m e) := by
  constructor
  · exact nodup_set h.k1 _ _
  · intro l d2 hd
    unfold onEnd at hd
    rw [get?_upd] at hd
    split at hd
    · cases hd
      refine nodup_set ?_ _ _
      cases hg : get? m (lg e) with
      | none => simp [keys]
      | some d => exact h.k2 _ _ hg
    · exact h.k2 _ _ hd
  · intro l d2 n d3 hd hn
    unfold onEnd at hd
    rw [get?_upd] at hd
    split at hd
    · cases hd
      rw [get?_upd] at hn
      cases hg : get? m (lg e) with
      | none =>
        simp only [hg, Option.getD_none] at hn
        split at hn
        · cases hn; exact nodup_set (by simp [get?, keys]) _ _
        · simp [get?] at hn
      | some d =>
        simp only [hg, Option.getD_some] at hn
        split at hn
        · cases hn
          refine nodup_set ?_ _ _
          cases hg2 : get? d (nm e) with
          | none => simp [keys]
          | some d' => exact h.k3 _ _ _ _ hg hg2
        · exact h.k3 _ _ _ _ hg hn
    · exact h.k3 _ _ _ _ hd hn

theorem wf_run (evs : List E) : WF (evs.foldl (onEnd lg nm st mk ad) []) := by
  induction evs using List.reverseRecOn with
  | nil => exact ⟨by simp [keys], by simp [get?], by simp [get?]⟩
  | append_singleton evs e ih => rw [List.foldl_append]; exact wf_onEnd lg nm st mk ad ih e

theorem name_isSome_onEnd (m : Map3 L A) (e : E) (l : L) (n : String) :
    ((get? (onEnd lg nm st mk ad m e) l).bind fun d2 => get? d2 n).isSome ↔
      (lg e = l ∧ nm e = n) ∨ ((get? m l).bind fun d2 => get? d2 n).isSome := by
  unfold onEnd
  rw [get?_upd]
  by_cases h1 : lg e = l
  · subst h1
    rw [if_pos rfl, Option.bind_some, get?_upd]
    by_cases h2 : nm e = n
    · simp [h2]
    · rw [if_neg h2]; simp only [h2, and_false, false_or]
      cases get? m (lg e) <;> rfl
  · simp [h1]

theorem name_isSome_run (evs : List E) (l : L) (n : String) :
    ((get? (evs.foldl (onEnd lg nm st mk ad) []) l).bind fun d2 => get? d2 n).isSome ↔ ∃ e ∈ evs, lg e = l ∧ nm e = n := by
  induction evs using List.reverseRecOn with
  | nil => simp [get?]
  | append_singleton evs e ih =>
    rw [List.foldl_append, List.foldl_cons, List.foldl_nil, name_isSome_onEnd, ih]
    simp only [List.mem_append, List.mem_singleton, or_and_right, exists_or, exists_eq_left]
    exact or_comm

theorem logger_isSome_run (evs : List E) (l : L) :
    (get? (evs.foldl (onEnd lg nm st mk ad) []) l).isSome ↔ ∃ e ∈ evs, lg e = l := by
  induction evs using List.reverseRecOn with
  | nil => simp [get?]
  | append_singleton evs e ih =>
    rw [List.foldl_append, List.foldl_cons, List.foldl_nil]
    unfold onEnd
    rw [get?_upd]
    simp only [List.mem_append, List.mem_singleton, or_and_right, exists_or, exists_eq_left]
    by_cases h : lg e = l
    · simp [h]
    · rw [if_neg h, ← ih]; simp [h]; rfl

/-! ## Sums over the cells -/

variable (val : A → Nat) (w : E → Nat)

theorem sum3_upd (h0 : ∀ e, val (mk e) = 0) (h1 : ∀ a e, val (ad a e) = val a + w e) (d : Dict String A) (e : E) :
    sum3 val (upd d (st e) (mk e) fun a => ad a e) = sum3 val d + w e := by
  have := sum_set val d (st e) (ad ((get? d (st e)).getD (mk e)) e)
  unfold sum3 upd
  cases hg : get? d (st e) with
  | none => simp only [hg, Option.elim_none, Option.getD_none, h0, h1] at this ⊢; omega
  | some a => simp only [hg, Option.elim_some, Option.getD_some, h1] at this ⊢; omega

theorem sum2_upd (h0 : ∀ e, val (mk e) = 0) (h1 : ∀ a e, val (ad a e) = val a + w e) (d : Dict String (Dict String A)) (e : E) :
    sum2 val (upd d (nm e) [] fun d3 => upd d3 (st e) (mk e) fun a => ad a e) = sum2 val d + w e := by
  have := sum_set (sum3 val) d (nm e) (upd ((get? d (nm e)).getD []) (st e) (mk e) fun a => ad a e)
  rw [sum3_upd st mk ad val w h0 h1] at this
  have h3 : sum3 val ([] : Dict String A) = 0 := rfl
  unfold sum2
  rw [upd]
  cases hg : get? d (nm e) with
  | none => simp only [hg, Option.elim_none, Option.getD_none, h3] at this ⊢; omega
  | some a => simp only [hg, Option.elim_some, Option.getD_some] at this ⊢; omega

theorem sum1_onEnd (h0 : ∀ e, val (mk e) = 0) (h1 : ∀ a e, val (ad a e) = val a + w e) (m : Map3 L A) (e : E) :
    sum1 val (onEnd lg nm st mk ad m e) = sum1 val m + w e := by
  have := sum_set (sum2 val) m (lg e)
    (upd ((get? m (lg e)).getD []) (nm e) [] fun d3 => upd d3 (st e) (mk e) fun a => ad a e)
  rw [sum2_upd nm st mk ad val w h0 h1] at this
  have h3 : sum2 val ([] : Dict String (Dict String A)) = 0 := rfl
  unfold sum1 onEnd
  rw [upd]
  cases hg : get? m (lg e) with
  | none => simp only [hg, Option.elim_none, Option.getD_none, h3] at this ⊢; omega
  | some a => simp only [hg, Option.elim_some, Option.getD_some] at this ⊢; omega

theorem sum1_run (h0 : ∀ e, val (mk e) = 0) (h1 : ∀ a e, val (ad a e) = val a + w e) (evs : List E) :
    sum1 val (evs.foldl (onEnd lg nm st mk ad) []) = (evs.map w).sum := by
  induction evs using List.reverseRecOn with
  | nil => rfl
  | append_singleton evs e ih =>
    rw [List.foldl_append, List.foldl_cons, List.foldl_nil, sum1_onEnd lg nm st mk ad val w h0 h1, ih]
    simp

theorem sum2_run (h0 : ∀ e, val (mk e) = 0) (h1 : ∀ a e, val (ad a e) = val a + w e) (evs : List E) (l : L) :
    sum2 val ((get? (evs.foldl (onEnd lg nm st mk ad) []) l).getD []) =
      ((evs.filter fun e => decide (lg e = l)).map w).sum := by
  induction evs using List.reverseRecOn with
  | nil => rfl
  | append_singleton evs e ih =>
    rw [List.foldl_append, List.foldl_cons, List.foldl_nil, List.filter_append]
    unfold onEnd
    rw [get?_upd]
    by_cases h : lg e = l
    · rw [if_pos h, h, Option.getD_some, sum2_upd nm st mk ad val w h0 h1, List.filter_cons_of_pos (by simpa using h)]
      unfold onEnd at ih
      rw [ih]; simp
    · rw [if_neg h, List.filter_cons_of_neg (by simpa using h)]
      unfold onEnd at ih
      rw [ih]; simp

theorem sum3_run (h0 : ∀ e, val (mk e) = 0) (h1 : ∀ a e, val (ad a e) = val a + w e) (evs : List E) (l : L) (n : String) :
    sum3 val ((get? ((get? (evs.foldl (onEnd lg nm st mk ad) []) l).getD []) n).getD []) =
      ((evs.filter fun e => decide (lg e = l ∧ nm e = n)).map w).sum := by
  induction evs using List.reverseRecOn with
  | nil => rfl
  | append_singleton evs e ih =>
    rw [List.foldl_append, List.foldl_cons, List.foldl_nil, List.filter_append]
    unfold onEnd
    rw [get?_upd]
    unfold onEnd at ih
    by_cases h : lg e = l
    · rw [if_pos h, h, Option.getD_some, get?_upd]
      by_cases h2 : nm e = n
      · rw [if_pos h2, h2, Option.getD_some, sum3_upd st mk ad val w h0 h1,
          List.filter_cons_of_pos (by simpa using ⟨h, h2⟩), ih]; simp
      · rw [if_neg h2, ih, List.filter_cons_of_neg (by simp [h2])]; simp
    · rw [if_neg h, ih, List.filter_cons_of_neg (by simp [h])]; simp

end Route

end Verif.Sinks
