import Verif.Model.Bisect
import Mathlib.Data.List.Sort
/-!
# The binary search finds the boundary
-/
namespace Verif.Bis

variable {X : Type}

/-- The tests are monotone along the list: once true, always true. -/
def Mono (lt : X → Bool) (a : List X) : Prop := a.Pairwise fun y z => lt y = true → lt z = true

theorem Mono.get {lt : X → Bool} {a : List X} (h : Mono lt a) {i j : Nat} (hij : i ≤ j) (hj : j < a.length)
    (hi : lt (a[i]'(by omega)) = true) : lt a[j] = true := by
  rcases Nat.lt_or_ge i j with hlt | hge
  · exact (List.pairwise_iff_getElem.1 h) i j (by omega) hj hlt hi
  · have : i = j := by omega
    subst this; exact hi

theorem rightLoop_spec {lt : X → Bool} {a : List X} (h : Mono lt a) : ∀ (n lo hi : Nat), hi - lo ≤ n → lo ≤ hi →
    hi ≤ a.length → (∀ i (hi' : i < a.length), i < lo → lt a[i] = false) →
    (∀ i (hi' : i < a.length), hi ≤ i → lt a[i] = true) →
    rightLoop lt a lo hi ≤ a.length ∧
    (∀ i (hi' : i < a.length), i < rightLoop lt a lo hi → lt a[i] = false) ∧
    (∀ i (hi' : i < a.length), rightLoop lt a lo hi ≤ i → lt a[i] = true) := by
  intro n
  induction n with
  | zero =>
    intro lo hi hn hle hlen h1 h2
    have e : rightLoop lt a lo hi = lo := by rw [rightLoop, dif_neg (by omega)]
    rw [e]
    exact ⟨by omega, h1, fun i hi' hl => h2 i hi' (by omega)⟩
  | succ n ih =>
    intro lo hi hn hle hlen h1 h2
    by_cases hlt : lo < hi
    · have hmid : (lo + hi) / 2 < a.length := by omega
      rw [rightLoop, dif_pos hlt]
      simp only [List.getElem?_eq_getElem hmid]
      cases hb : lt a[(lo + hi) / 2] with
      | true =>
        simp only [if_true]
        exact ih lo _ (by omega) (by omega) (by omega) h1 fun i hi' hl => h.get hl hi' hb
      | false =>
        simp only [Bool.false_eq_true, if_false]
        refine ih _ hi (by omega) (by omega) hlen (fun i hi' hl => ?_) h2
        by_contra hc
        have := h.get (i := i) (j := (lo + hi) / 2) (by omega) hmid (by simpa using hc)
        rw [hb] at this; cases this
    · have e : rightLoop lt a lo hi = lo := by rw [rightLoop, dif_neg hlt]
      rw [e]
      exact ⟨by omega, h1, fun i hi' hl => h2 i hi' (by omega)⟩

theorem right_spec {lt : X → Bool} {a : List X} (h : Mono lt a) :
    right lt a ≤ a.length ∧ (∀ i (hi : i < a.length), i < right lt a → lt a[i] = false) ∧
    (∀ i (hi : i < a.length), right lt a ≤ i → lt a[i] = true) :=
  rightLoop_spec h a.length 0 a.length (by omega) (by omega) (le_refl _) (fun i _ h => by omega)
    (fun i hi hl => by omega)

/-- The list splits at the found place into the elements failing and the elements passing the test. -/
theorem right_split {lt : X → Bool} {a : List X} (h : Mono lt a) :
    (∀ y ∈ a.take (right lt a), lt y = false) ∧ (∀ y ∈ a.drop (right lt a), lt y = true) := by
  obtain ⟨h0, h1, h2⟩ := right_spec h
  constructor
  · intro y hy
    obtain ⟨i, hi, rfl⟩ := List.mem_iff_getElem.1 hy
    rw [List.getElem_take]
    simp only [List.length_take] at hi
    exact h1 i (by omega) (by omega)
  · intro y hy
    obtain ⟨i, hi, rfl⟩ := List.mem_iff_getElem.1 hy
    rw [List.getElem_drop]
    simp only [List.length_drop] at hi
    exact h2 _ (by omega) (by omega)

/-- The place is the number of elements failing the test. -/
theorem right_eq_countP {lt : X → Bool} {a : List X} (h : Mono lt a) : right lt a = a.countP fun y => !lt y := by
  obtain ⟨h1, h2⟩ := right_split h
  have h0 := (right_spec h).1
  rw [← List.take_append_drop (right lt a) a, List.countP_append, List.countP_eq_length.2, List.countP_eq_zero.2]
  · rw [List.take_append_drop]; simp [h0]
  · intro y hy
    have := h2 y hy
    simp [this]
  · intro y hy
    have := h1 y hy
    simp [this]

theorem mono_of_sorted [LinearOrder X] {a : List X} (h : a.Pairwise (· ≤ ·)) (x : X) : Mono (fun y => decide (x < y)) a :=
  h.imp fun hyz hxy => by simp only [decide_eq_true_eq] at hxy ⊢; exact lt_of_lt_of_le hxy hyz

theorem mono_of_sorted_left [LinearOrder X] {a : List X} (h : a.Pairwise (· ≤ ·)) (x : X) :
    Mono (fun y => decide (¬ y < x)) a :=
  h.imp fun hyz hxy => by simp only [decide_eq_true_eq, not_lt] at hxy ⊢; exact le_trans hxy hyz

theorem insort_perm {lt : X → Bool} (a : List X) (x : X) : (insort lt a x).Perm (x :: a) := by
  unfold insort insertAt
  refine List.perm_middle.trans ?_
  rw [List.take_append_drop]

theorem insort_sorted [LinearOrder X] {a : List X} (h : a.Pairwise (· ≤ ·)) (x : X) :
    (insort (fun y => decide (x < y)) a x).Pairwise (· ≤ ·) := by
  obtain ⟨h1, h2⟩ := right_split (mono_of_sorted h x)
  unfold insort insertAt
  simp only [decide_eq_false_iff_not, not_lt, decide_eq_true_eq] at h1 h2
  have hs := h
  rw [← List.take_append_drop (right (fun y => decide (x < y)) a) a, List.pairwise_append] at hs
  rw [List.pairwise_append, List.pairwise_cons]
  refine ⟨hs.1, ⟨fun y hy => le_of_lt (h2 y hy), hs.2.1⟩, fun y hy z hz => ?_⟩
  rcases List.mem_cons.1 hz with rfl | hz
  · exact h1 y hy
  · exact hs.2.2 y hy z hz

end Verif.Bis
