import Verif.Props.P2
import Mathlib.Data.List.GetD
import Mathlib.Tactic.FieldSimp
import Mathlib.Tactic.Ring
import Mathlib.Tactic.LinearCombination
/-!
# C136: the estimates are those of the published algorithm

The specification is the algorithm of Jain and Chlamtac, "The P-Square Algorithm for Dynamic Calculation of Percentiles and
Histograms without Storing Observations" (the paper named in p_squared.py:7-8), for any number of points: arrays of positions and
heights, indexed by marker.  It does not mention the model.
-/
set_option linter.unusedSectionVars false
namespace Verif.P2

open Verif.Quant
open scoped List

variable {K : Type} [Field K] [LinearOrder K] [IsStrictOrderedRing K] [FloorRing K]

namespace Paper

/-- The positions and heights of the markers. -/
structure St (K : Type) where
  n : Nat → Int
  q : Nat → K

/-- The parabola through three points, at `x`. -/
def parabola (x x0 y0 x1 y1 x2 y2 : K) : K :=
  y0 * ((x - x1) * (x - x2) / ((x0 - x1) * (x0 - x2))) + y1 * ((x - x0) * (x - x2) / ((x1 - x0) * (x1 - x2))) +
    y2 * ((x - x0) * (x - x1) / ((x2 - x0) * (x2 - x1)))

/-- The line through two points, at `x`. -/
def line (x x0 y0 x1 y1 : K) : K := y0 + (x - x0) * ((y1 - y0) / (x1 - x0))

/-- The first observations, in order, are the heights; the positions are 1, 2, .... -/
def start (first : List K) : St K := ⟨fun i => i + 1, fun i => (first.mergeSort fun x y => decide (x ≤ y)).getD i 0⟩

/-- An observation `x`, with markers `0..m`: it may be a new extreme, and the markers above it, and the last one, move up.  `above`
says which markers are above it. -/
def observe (above : K → K → Prop) [∀ x y, Decidable (above x y)] (m : Nat) (x : K) (s : St K) : St K where
  q i := if i = 0 then min x (s.q 0) else if i = m then max x (s.q m) else s.q i
  n i := if i = m ∨ (0 < i ∧ i < m ∧ above x (s.q i)) then s.n i + 1 else s.n i

/-- Marker `i` for the quantile `p i` is moved by one towards where it should be, if that is one or more away and the next marker
is not in the way; its height is then on the parabola through it and its neighbours if that is between theirs, and on the line to
the neighbour otherwise. -/
def adjustAt (p : Nat → K) (m : Nat) (s : St K) (i : Nat) : St K :=
  let away := 1 + ((s.n m : K) - 1) * p i - s.n i
  let d : Int := if 1 ≤ away ∧ 1 < s.n (i + 1) - s.n i then 1 else if away ≤ -1 ∧ s.n (i - 1) - s.n i < -1 then -1 else 0
  if d = 0 then s
  else
    let x : K := s.n i + d
    let y := parabola x (s.n (i - 1)) (s.q (i - 1)) (s.n i) (s.q i) (s.n (i + 1)) (s.q (i + 1))
    let j := if d = 1 then i + 1 else i - 1
    let y := if s.q (i - 1) < y ∧ y < s.q (i + 1) then y else line x (s.n i) (s.q i) (s.n j) (s.q j)
    ⟨Function.update s.n i (s.n i + d), Function.update s.q i y⟩

/-- One more observation. -/
def add (above : K → K → Prop) [∀ x y, Decidable (above x y)] (p : Nat → K) (m : Nat) (s : St K) (x : K) : St K :=
  (List.range' 1 (m - 1)).foldl (adjustAt p m) (observe above m x s)

/-- The estimates for the points (0, the given ones, and 1), from all the observations. -/
def estimates (above : K → K → Prop) [∀ x y, Decidable (above x y)] (points data : List K) : List (K × K) :=
  let p := 0 :: points ++ [1]
  let m := points.length + 1
  let s := (data.drop (m + 1)).foldl (add above (fun i => p.getD i 0) m) (start (data.take (m + 1)))
  (List.range (m + 1)).map fun i => (p.getD i 0, s.q i)

end Paper

open Paper

/-! ## The model follows the specification -/

/-- A marker of the model, from the specification. -/
def mk (p : Nat → K) (s : St K) (i : Nat) : Marker K := ⟨p i, s.n i, s.q i⟩

/-- Markers `k..k+j`. -/
def mks (p : Nat → K) (s : St K) (k j : Nat) : List (Marker K) := (List.range' k j).map (mk p s)

theorem mks_succ (p : Nat → K) (s : St K) (k j : Nat) : mks p s k (j + 1) = mk p s k :: mks p s (k + 1) j := by
  simp [mks, List.range'_succ]

theorem mks_congr {p : Nat → K} {s s' : St K} {k j : Nat} (h : ∀ i, k ≤ i → i < k + j → s'.n i = s.n i ∧ s'.q i = s.q i) :
    mks p s' k j = mks p s k j := by
  unfold mks
  refine List.map_congr_left fun i hi => ?_
  rw [List.mem_range'_1] at hi
  simp [mk, h i hi.1 hi.2]

theorem trunc_zero {x : K} : trunc x = 0 ↔ -1 < x ∧ x < 1 := by
  unfold trunc
  split
  · rename_i h
    rw [Int.floor_eq_zero_iff, Set.mem_Ico]
    exact ⟨fun e => ⟨by linarith, e.2⟩, fun e => ⟨h, e.2⟩⟩
  · rename_i h
    rw [not_le] at h
    rw [Int.ceil_eq_zero_iff, Set.mem_Ioc]
    exact ⟨fun e => ⟨e.1, by linarith⟩, fun e => ⟨e.1, le_of_lt h⟩⟩

theorem trunc_pos {x : K} : 0 < trunc x ↔ 1 ≤ x := by
  unfold trunc
  split
  · exact Int.floor_pos
  · rename_i h
    rw [not_le] at h
    constructor
    · intro e
      have : ⌈x⌉ ≤ 0 := Int.ceil_le.2 (by simpa using le_of_lt h)
      omega
    · intro e; linarith

theorem cast_gap {a b : Int} (h : a < b) : (0 : K) < (b : K) - a := by
  have : (a : K) < b := Int.cast_lt.2 h
  linarith

/-- Moving a marker. -/
theorem move_eq {p : Nat → K} {s : St K} {i : Nat} {d : Int} (hd : d = 1 ∨ d = -1) (hl : s.n (i - 1) < s.n i)
    (hr : s.n i < s.n (i + 1)) :
    move d (mk p s (i - 1)) (mk p s i) (mk p s (i + 1)) =
      some ⟨p i, s.n i + d,
        let x : K := s.n i + d
        let y := parabola x (s.n (i - 1)) (s.q (i - 1)) (s.n i) (s.q i) (s.n (i + 1)) (s.q (i + 1))
        let j := if d = 1 then i + 1 else i - 1
        if s.q (i - 1) < y ∧ y < s.q (i + 1) then y else line x (s.n i) (s.q i) (s.n j) (s.q j)⟩ := by
  have g1 := cast_gap (K := K) hl
  have g2 := cast_gap (K := K) hr
  have n1 : (s.n i : K) - s.n (i - 1) ≠ 0 := ne_of_gt g1
  have n2 : (s.n (i + 1) : K) - s.n i ≠ 0 := ne_of_gt g2
  have n3 : (s.n (i + 1) : K) - s.n (i - 1) ≠ 0 := by intro h; linarith
  have n4 : (s.n (i - 1) : K) - s.n i ≠ 0 := by intro h; linarith
  have n5 : (s.n (i - 1) : K) - s.n (i + 1) ≠ 0 := by intro h; linarith
  have n6 : (s.n i : K) - s.n (i + 1) ≠ 0 := by intro h; linarith
  have e : s.q i + (d : K) / ((s.n (i + 1) : K) - s.n (i - 1)) *
      (((s.n i : K) - s.n (i - 1) + d) * (s.q (i + 1) - s.q i) / ((s.n (i + 1) : K) - s.n i) +
        ((s.n (i + 1) : K) - s.n i - d) * (s.q i - s.q (i - 1)) / ((s.n i : K) - s.n (i - 1))) =
      parabola ((s.n i : K) + d) (s.n (i - 1)) (s.q (i - 1)) (s.n i) (s.q i) (s.n (i + 1)) (s.q (i + 1)) := by
    unfold parabola
    generalize (s.n i : K) = b at *
    generalize (s.n (i - 1) : K) = a at *
    generalize (s.n (i + 1) : K) = c at *
    generalize (d : K) = d
    rw [show (a - b) = -(b - a) by ring, show (a - c) = -(c - a) by ring, show (b - c) = -(c - b) by ring]
    field_simp
    ring
  unfold move
  simp only [mk]
  rw [pdiv_ne n3, pdiv_ne n2, pdiv_ne n1]
  simp only [Option.bind_eq_bind, Option.bind_some]
  rw [e]
  split
  · rfl
  · rcases hd with rfl | rfl
    · rw [if_pos rfl, pdiv_ne n2]
      simp [line]
    · rw [if_neg (by decide), pdiv_ne n4]
      simp only [line, Option.bind_some]
      congr 2
      push_cast
      ring

/-- The positions and heights are ordered. -/
def Ordered (m : Nat) (s : St K) : Prop := ∀ i, i < m → s.n i < s.n (i + 1) ∧ s.q i ≤ s.q (i + 1)

theorem adjust_eq {p : Nat → K} {m : Nat} {s : St K} (h : Ordered m s) {i : Nat} (h0 : 0 < i) (hm : i < m) :
    adjust (s.n m - 1) (mk p s (i - 1)) (mk p s i) (mk p s (i + 1)) = some (mk p (adjustAt p m s i) i) := by
  have hl := (h (i - 1) (by omega)).1
  have hr := (h i hm).1
  rw [show i - 1 + 1 = i by omega] at hl
  have ea : ((s.n m - 1 : Int) : K) * p i + 1 - s.n i = 1 + ((s.n m : K) - 1) * p i - s.n i := by push_cast; ring
  unfold adjust adjustAt
  simp only [show (mk p s i).q = p i from rfl, show (mk p s i).pos = s.n i from rfl,
    show (mk p s (i - 1)).pos = s.n (i - 1) from rfl, show (mk p s (i + 1)).pos = s.n (i + 1) from rfl]
  rw [ea]
  generalize haw : 1 + ((s.n m : K) - 1) * p i - s.n i = away
  by_cases h1 : 1 ≤ away
  · have ht : 0 < trunc away := trunc_pos.2 h1
    rw [if_neg (by omega), if_pos ht]
    have hn1 : ¬ away ≤ -1 := by intro h; linarith
    by_cases hg : 1 < s.n (i + 1) - s.n i
    · rw [if_neg (by omega), move_eq (.inl rfl) hl hr]
      simp [h1, hg, mk]
    · rw [if_pos (by omega)]
      simp [h1, hg, hn1]
  · by_cases h2 : away ≤ -1
    · have ht0 : trunc away ≠ 0 := by rw [Ne, trunc_zero]; intro h; linarith [h.1]
      have ht : ¬ 0 < trunc away := by rw [trunc_pos]; exact h1
      rw [if_neg ht0, show (if trunc away > 0 then (1 : Int) else -1) = -1 from if_neg ht]
      by_cases hg : s.n (i - 1) - s.n i < -1
      · rw [if_neg (by omega), move_eq (.inr rfl) hl hr]
        simp [h1, h2, hg, mk]
      · rw [if_pos (by omega)]
        simp [h1, h2, hg]
    · rw [if_pos (trunc_zero.2 ⟨not_le.1 h2, not_le.1 h1⟩)]
      simp [h1, h2]

theorem adjustAt_other (p : Nat → K) (m : Nat) (s : St K) {i j : Nat} (h : j ≠ i) :
    (adjustAt p m s i).n j = s.n j ∧ (adjustAt p m s i).q j = s.q j := by
  unfold adjustAt
  dsimp only
  split
  · rw [if_neg (by decide)]
    exact ⟨Function.update_of_ne h _ _, Function.update_of_ne h _ _⟩
  · split
    · rw [if_neg (by decide)]
      exact ⟨Function.update_of_ne h _ _, Function.update_of_ne h _ _⟩
    · rw [if_pos rfl]
      exact ⟨rfl, rfl⟩

theorem adjust_ordered {p : Nat → K} {m : Nat} {s : St K} (h : Ordered m s) {i : Nat} (h0 : 0 < i) (hm : i < m) :
    Ordered m (adjustAt p m s i) := by
  obtain ⟨c', e, r1, r2, -⟩ := adjust_spec (s.n m - 1) (mk p s (i - 1)) (mk p s i) (mk p s (i + 1))
    (by have := h (i - 1) (by omega); rw [show i - 1 + 1 = i by omega] at this; exact this) (h i hm)
  rw [adjust_eq h h0 hm] at e
  cases e
  intro j hj
  by_cases e1 : j = i
  · subst e1
    rw [(adjustAt_other p m s (show j + 1 ≠ j by omega)).1, (adjustAt_other p m s (show j + 1 ≠ j by omega)).2]
    exact r2
  · by_cases e2 : j + 1 = i
    · subst e2
      rw [(adjustAt_other p m s (show j ≠ j + 1 by omega)).1, (adjustAt_other p m s (show j ≠ j + 1 by omega)).2]
      exact r1
    · rw [(adjustAt_other p m s e1).1, (adjustAt_other p m s e1).2, (adjustAt_other p m s e2).1, (adjustAt_other p m s e2).2]
      exact h j hj

/-- The pass over the markers from `k` on. -/
theorem quad_eq {p : Nat → K} {m : Nat} (j : Nat) {k : Nat} {s : St K} (h : Ordered m s) (h0 : 0 < k) (hj : k + j = m) :
    quadPass (s.n m - 1) (mk p s (k - 1)) (mks p s k (j + 1)) =
      some (mks p ((List.range' k j).foldl (adjustAt p m) s) k (j + 1)) ∧
    Ordered m ((List.range' k j).foldl (adjustAt p m) s) ∧
    (∀ i, i < k → mk p ((List.range' k j).foldl (adjustAt p m) s) i = mk p s i) ∧
    ((List.range' k j).foldl (adjustAt p m) s).n m = s.n m := by
  induction j generalizing k s with
  | zero => simp [mks, quadPass, h]
  | succ j ih =>
    have ho := adjust_ordered (p := p) h h0 (show k < m by omega)
    obtain ⟨g1, g2, g3, g4⟩ := ih ho (show 0 < k + 1 by omega) (by omega)
    have hn : (adjustAt p m s k).n m = s.n m := (adjustAt_other p m s (show m ≠ k by omega)).1
    have hrest : mks p (adjustAt p m s k) (k + 1) (j + 1) = mks p s (k + 1) (j + 1) :=
      mks_congr fun i h1 _ => adjustAt_other p m s (by omega)
    rw [hn, Nat.add_sub_cancel, hrest] at g1
    rw [List.range'_succ, List.foldl_cons]
    refine ⟨?_, g2, fun i hi => ?_, by rw [g4, hn]⟩
    · rw [mks_succ p s k (j + 1), mks_succ p _ k (j + 1)]
      rw [mks_succ p s (k + 1) j] at g1 ⊢
      simp only [quadPass]
      rw [adjust_eq h h0 (by omega)]
      simp only [Option.bind_eq_bind, Option.bind_some, g1]
      rw [g3 k (by omega)]
    · rw [g3 i (by omega)]
      obtain ⟨a, b⟩ := adjustAt_other p m s (show i ≠ k by omega)
      simp [mk, a, b]

/-- `≤` as the rule for which markers are above an observation: that of the code. -/
abbrev codeAbove : K → K → Prop := fun x y => x ≤ y

/-- The pass that moves the markers above the observation. -/
theorem back_eq {p : Nat → K} {m : Nat} {s : St K} (h : Ordered m s) (x : K) (l' : Marker K) (hl' : l'.pos = s.n m + 1)
    (j : Nat) {k : Nat} (h0 : 0 < k) (hj : k + j = m) :
    backPass x (mks p s k j ++ [l']) = mks p (observe codeAbove m x s) k j ++ [l'] := by
  induction j generalizing k with
  | zero => rfl
  | succ j ih =>
    have ih := ih (show 0 < k + 1 by omega) (by omega)
    rw [mks_succ, mks_succ, List.cons_append, List.cons_append]
    have hk := h k (by omega)
    have hkm : k ≠ m := by omega
    have hmk : mk p (observe codeAbove m x s) k = if x ≤ s.q k then ⟨p k, s.n k + 1, s.q k⟩ else mk p s k := by
      by_cases hx : x ≤ s.q k
      · simp [mk, observe, hkm, hx, show k ≠ 0 by omega, h0, show k < m by omega]
      · simp [mk, observe, hkm, hx, show k ≠ 0 by omega]
    rw [hmk]
    -- the next marker is more than one away when this one is moved
    obtain ⟨nx, rest, e, hnx⟩ : ∃ nx rest, mks p (observe codeAbove m x s) (k + 1) j ++ [l'] = nx :: rest ∧
        (x ≤ s.q k → s.n k + 1 ≠ nx.pos) := by
      cases j with
      | zero =>
        refine ⟨l', [], rfl, fun _ => ?_⟩
        rw [hl', ← hj]
        have := hk.1
        simp only [zero_add] at *
        omega
      | succ j =>
        rw [mks_succ]
        refine ⟨_, _, rfl, fun hx => ?_⟩
        have hx' : x ≤ s.q (k + 1) := le_trans hx hk.2
        have : (observe codeAbove m x s).n (k + 1) = s.n (k + 1) + 1 :=
          if_pos (.inr ⟨by omega, by omega, hx'⟩)
        have := hk.1
        show s.n k + 1 ≠ (observe codeAbove m x s).n (k + 1)
        omega
    obtain ⟨a, as, ea⟩ : ∃ a as, mks p s (k + 1) j ++ [l'] = a :: as := by
      cases j with
      | zero => exact ⟨_, _, rfl⟩
      | succ j => rw [mks_succ]; exact ⟨_, _, rfl⟩
    rw [ea, e] at ih
    rw [ea, e]
    simp only [backPass, ih]
    simp only [show (mk p s k).height = s.q k from rfl, show (mk p s k).pos = s.n k from rfl]
    by_cases hx : x ≤ s.q k
    · rw [if_pos hx, if_pos hx, if_neg (hnx hx)]
      rfl
    · rw [if_neg hx, if_neg hx]

theorem observe_ordered {m : Nat} {s : St K} (hm : 0 < m) (h : Ordered m s) (x : K) : Ordered m (observe codeAbove m x s) := by
  intro i hi
  have hs := h i hi
  constructor
  · simp only [observe, codeAbove]
    by_cases h1 : i = m ∨ (0 < i ∧ i < m ∧ x ≤ s.q i)
    · rw [if_pos h1]
      rcases h1 with h1 | h1
      · omega
      · rw [if_pos]
        · omega
        · by_cases hm' : i + 1 = m
          · exact .inl hm'
          · exact .inr ⟨by omega, by omega, le_trans h1.2.2 hs.2⟩
    · rw [if_neg h1]
      split <;> omega
  · simp only [observe]
    rw [if_neg (show i + 1 ≠ 0 by omega), if_neg (show i ≠ m by omega)]
    by_cases h0 : i = 0
    · subst h0
      rw [if_pos rfl]
      split
      · rename_i e; rw [← e]; exact le_trans (min_le_right _ _) (le_trans hs.2 (le_max_right _ _))
      · exact le_trans (min_le_right _ _) hs.2
    · rw [if_neg h0]
      split
      · rename_i e; rw [← e]; exact le_trans hs.2 (le_max_right _ _)
      · exact hs.2

theorem le_last {m : Nat} {s : St K} (h : Ordered m s) : s.q 0 ≤ s.q m := by
  have : ∀ j, j ≤ m → s.q 0 ≤ s.q j := by
    intro j
    induction j with
    | zero => intro _; exact le_refl _
    | succ j ih => intro hj; exact le_trans (ih (by omega)) (h j (by omega)).2
  exact this m (le_refl _)

theorem mks_snoc (p : Nat → K) (s : St K) (k j : Nat) : mks p s k (j + 1) = mks p s k j ++ [mk p s (k + j)] := by
  unfold mks
  rw [List.range'_concat]
  simp

/-- The first and the last marker get the new extremes. -/
theorem extremes_eq {p : Nat → K} {m : Nat} {s : St K} (hm : 0 < m) (h : Ordered m s) (x : K) :
    extremes x (bumpLast (mks p s 0 (m + 1))) = mk p (observe codeAbove m x s) 0 :: (mks p s 1 (m - 1) ++ [mk p (observe codeAbove m x s) m]) := by
  obtain ⟨j, rfl⟩ : ∃ j, m = j + 1 := ⟨m - 1, by omega⟩
  rw [mks_succ, mks_snoc, ← List.cons_append, bumpLast_snoc, List.cons_append]
  have hle := le_last h
  rw [show 0 + 1 + j = j + 1 by omega, show 0 + 1 = 1 from rfl, Nat.add_sub_cancel]
  have e0 : mk p (observe codeAbove (j + 1) x s) 0 = ⟨p 0, s.n 0, min x (s.q 0)⟩ := by
    simp [mk, observe]
  have em : mk p (observe codeAbove (j + 1) x s) (j + 1) = ⟨p (j + 1), s.n (j + 1) + 1, max x (s.q (j + 1))⟩ := by
    simp [mk, observe]
  rw [e0, em]
  unfold extremes
  simp only [show (mk p s 0).height = s.q 0 from rfl]
  by_cases h1 : x < s.q 0
  · rw [if_pos h1, min_eq_left (le_of_lt h1), max_eq_right (le_of_lt (lt_of_lt_of_le h1 hle))]
    rfl
  · rw [if_neg h1, min_eq_right (not_lt.1 h1)]
    rw [← List.cons_append, List.getLast?_append]
    simp only [List.getLast?_singleton, Option.or_some, Option.some_or]
    simp only [show (mk p s (j + 1)).height = s.q (j + 1) from rfl]
    by_cases h2 : x > s.q (j + 1)
    · rw [if_pos h2, raiseLast_snoc, max_eq_left (le_of_lt h2)]
      rfl
    · rw [if_neg h2, max_eq_right (not_lt.1 h2)]
      rfl

/-- One `add`. -/
theorem add_eq {p : Nat → K} {m : Nat} {s : St K} (hm : 0 < m) (h : Ordered m s) (x : K) :
    add (mks p s 0 (m + 1)) x = some (mks p (Paper.add codeAbove p m s x) 0 (m + 1)) ∧
    Ordered m (Paper.add codeAbove p m s x) := by
  have ho := observe_ordered hm h x
  obtain ⟨g1, g2, g3, g4⟩ := quad_eq (p := p) (m - 1) ho (show 0 < 1 by decide) (by omega)
  refine ⟨?_, g2⟩
  have hlast : (mks p s 0 (m + 1)).getLast? = some (mk p s m) := by
    rw [mks_snoc, List.getLast?_append]; simp
  have hn : (observe codeAbove m x s).n m = s.n m + 1 := by simp [observe]
  unfold add
  rw [hlast]
  dsimp only
  rw [extremes_eq hm h x]
  dsimp only
  rw [back_eq h x (mk p (observe codeAbove m x s) m) hn (m - 1) (show 0 < 1 by decide) (by omega)]
  have hsn : mks p (observe codeAbove m x s) 1 (m - 1) ++ [mk p (observe codeAbove m x s) m] =
      mks p (observe codeAbove m x s) 1 (m - 1 + 1) := by
    rw [mks_snoc, show 1 + (m - 1) = m by omega]
  rw [hsn]
  have hprev : (mk p s m).pos = (observe codeAbove m x s).n m - 1 := by rw [hn]; simp [mk]
  rw [hprev]
  rw [show (1 : Nat) - 1 = 0 from rfl] at g1
  rw [g1]
  simp only [Option.bind_eq_bind, Option.bind_some]
  have := g3 0 (by decide)
  rw [mks_succ p _ 0 m, show 0 + 1 = 1 from rfl, show Paper.add codeAbove p m s x = (List.range' 1 (m - 1)).foldl (adjustAt p m) (observe codeAbove m x s) from rfl,
    this, show m - 1 + 1 = m by omega]

theorem addAll_eq {p : Nat → K} {m : Nat} (hm : 0 < m) (vals : List K) {s : St K} (h : Ordered m s) :
    addAll (mks p s 0 (m + 1)) vals = some (mks p (vals.foldl (Paper.add codeAbove p m) s) 0 (m + 1)) ∧
    Ordered m (vals.foldl (Paper.add codeAbove p m) s) := by
  induction vals generalizing s with
  | nil => exact ⟨rfl, h⟩
  | cons v vals ih =>
    obtain ⟨h1, h2⟩ := add_eq (p := p) hm h v
    obtain ⟨h3, h4⟩ := ih h2
    exact ⟨by simp [addAll, h1, h3], h4⟩

theorem start_ordered {first : List K} {m : Nat} (h : first.length = m + 1) : Ordered m (start first) := by
  intro i hi
  have hlen : (sorted first).length = m + 1 := by rw [(sorted_perm _).length_eq, h]
  refine ⟨by simp [start], ?_⟩
  have := List.pairwise_iff_getElem.1 (sorted_pairwise first) i (i + 1) (by omega) (by omega) (by omega)
  show (sorted first).getD i 0 ≤ (sorted first).getD (i + 1) 0
  rwa [List.getD_eq_getElem _ _ (by omega), List.getD_eq_getElem _ _ (by omega)]

theorem initial_eq (qps data : List K) {m : Nat} (hq : qps.length = m + 1) (hd : m + 1 ≤ data.length) :
    initial qps data = mks (fun i => qps.getD i 0) (start (data.take (m + 1))) 0 (m + 1) := by
  have hvl : (sorted (data.take (m + 1))).length = m + 1 := by
    rw [(sorted_perm _).length_eq, List.length_take]; omega
  have hi : initial qps data = (qps.zip (sorted (data.take (m + 1)))).zipIdx.map
      fun (p, i) => (⟨p.1, (i : Int) + 1, p.2⟩ : Marker K) := by
    unfold initial; rw [hq]; rfl
  rw [hi]
  apply List.ext_getElem
  · simp [mks, hvl, hq]
  · intro i h1 h2
    have hi1 : i < m + 1 := by simpa [mks] using h2
    have e : (start (data.take (m + 1))).q i = (sorted (data.take (m + 1)))[i]'(by omega) :=
      List.getD_eq_getElem (sorted (data.take (m + 1))) 0 (by omega)
    have e' : qps.getD i 0 = qps[i]'(by omega) := List.getD_eq_getElem _ _ (by omega)
    simp only [mks, List.getElem_map, List.getElem_range', mk, zero_add, one_mul]
    rw [e, e']
    simp [start]

/-- **C136**: for any points and any observations (enough of them to begin with), the estimates are those of the published
algorithm, if "above" in the published algorithm includes markers at the observation itself. -/
theorem C136_partial (points data vals : List K) (hd : points.length + 2 ≤ data.length) :
    ∃ ms0 ms, make points data = some ms0 ∧ addAll ms0 vals = some ms ∧
      getQuantiles ms = estimates (fun x y => x ≤ y) points (data ++ vals) := by
  have hq : (0 :: points ++ [1] : List K).length = (points.length + 1) + 1 := by simp
  have h0 : Ordered (points.length + 1) (start (data.take (points.length + 1 + 1))) :=
    start_ordered (by rw [List.length_take]; omega)
  obtain ⟨h1, h2⟩ := addAll_eq (p := fun i => (0 :: points ++ [1] : List K).getD i 0) (Nat.succ_pos _)
    (data.drop (points.length + 1 + 1)) h0
  obtain ⟨h3, h4⟩ := addAll_eq (p := fun i => (0 :: points ++ [1] : List K).getD i 0) (Nat.succ_pos _) vals h2
  refine ⟨_, _, ?_, h3, ?_⟩
  · unfold make
    dsimp only
    rw [if_neg (by omega), initial_eq (0 :: points ++ [1]) data hq (by omega), hq]
    exact h1
  · unfold estimates
    dsimp only
    rw [List.take_append_of_le_length (by omega), List.drop_append_of_le_length (by omega), List.foldl_append]
    simp only [getQuantiles, mks, List.map_map, List.range_eq_range']
    rfl

/-- The full property: with the published rule, in which a marker at the observation itself is not above it. -/
def FollowsPaper (K : Type) [Field K] [LinearOrder K] [IsStrictOrderedRing K] [FloorRing K] : Prop :=
  ∀ points data : List K, points.length + 2 ≤ data.length →
    (make points data).map getQuantiles = some (estimates (fun x y => x < y) points data)

/-- **C136**, not in full: with repeated values the estimates differ from the published ones.  (For 1, 1, 1, 1, 2 the median is
said to be 1; the published algorithm would say 7/6.) -/
theorem C136_violated : ¬ FollowsPaper ℚ := by
  intro h
  have h1 := h [1 / 2] [1, 1, 1, 1, 2] (by decide)
  obtain ⟨ms0, ms, h2, h3, h4⟩ := C136_partial [1 / 2] [1, 1, 1, 1, (2 : ℚ)] [] (by decide)
  cases h3
  rw [h2, Option.map_some, h4, Option.some_inj] at h1
  have hs : ([1, 1, 1] : List ℚ).mergeSort (fun x y => decide (x ≤ y)) = [1, 1, 1] :=
    List.mergeSort_of_pairwise (by decide +kernel)
  have hs : start ([1, 1, 1] : List ℚ) = ⟨fun i => i + 1, fun i => ([1, 1, 1] : List ℚ).getD i 0⟩ := by
    unfold start; rw [hs]
  revert h1
  unfold estimates
  simp only [List.length_singleton, List.append_nil, Nat.reduceAdd, List.take, hs]
  decide +kernel

/-- No marker except the last is at an observation when it comes. -/
def NoTies (p : Nat → K) (m : Nat) : St K → List K → Prop
  | _, [] => True
  | s, x :: xs => (∀ i < m, 0 < i → s.q i ≠ x) ∧ NoTies p m (Paper.add (fun x y => x < y) p m s x) xs

instance noTiesDec (p : Nat → K) (m : Nat) : (s : St K) → (xs : List K) → Decidable (NoTies p m s xs)
  | _, [] => inferInstanceAs (Decidable True)
  | s, x :: xs =>
    have := noTiesDec p m (Paper.add (fun x y => x < y) p m s x) xs
    inferInstanceAs (Decidable ((∀ i < m, 0 < i → s.q i ≠ x) ∧ _))

theorem noTies_eq {p : Nat → K} {m : Nat} (xs : List K) {s : St K} (h : NoTies p m s xs) :
    xs.foldl (Paper.add (fun x y => x < y) p m) s = xs.foldl (Paper.add (fun x y => x ≤ y) p m) s := by
  induction xs generalizing s with
  | nil => rfl
  | cons x xs ih =>
    obtain ⟨h1, h2⟩ := h
    have e : observe (fun x y => x < y) m x s = observe (fun x y => x ≤ y) m x s := by
      unfold observe
      congr 1
      funext i
      by_cases hi : 0 < i ∧ i < m
      · have : x < s.q i ↔ x ≤ s.q i := ⟨le_of_lt, fun h => lt_of_le_of_ne h (h1 i hi.2 hi.1).symm⟩
        simp [this]
      · have : ∀ P : Prop, (0 < i ∧ i < m ∧ P) ↔ False := fun P => ⟨fun h => hi ⟨h.1, h.2.1⟩, False.elim⟩
        simp [this]
    rw [List.foldl_cons, List.foldl_cons, ih h2]
    unfold Paper.add
    rw [e]

/-- **C136**: when no marker is at an observation that comes, the estimates are the published ones. -/
theorem C136_no_ties_partial (points data : List K) (hd : points.length + 2 ≤ data.length)
    (ht : NoTies (fun i => (0 :: points ++ [1] : List K).getD i 0) (points.length + 1) (start (data.take (points.length + 2)))
      (data.drop (points.length + 2))) :
    (make points data).map getQuantiles = some (estimates (fun x y => x < y) points data) := by
  obtain ⟨ms0, ms, h1, h2, h3⟩ := C136_partial points data [] hd
  cases h2
  rw [h1, Option.map_some, h3, List.append_nil]
  unfold estimates
  dsimp only
  rw [noTies_eq _ ht]

/-- A case: for 1, 2, 3, 9, 4, 8, with no ties among them, the median is said to be between the middle values, and is none of them. -/
example : NoTies (fun i => (0 :: [1 / 2] ++ [1] : List ℚ).getD i 0) 2 (start ([1, 2, 3, 9, 4, 8].take 3)) ([1, 2, 3, 9, 4, 8].drop 3) ∧
    ∃ y, 3 < y ∧ y < 4 ∧ estimates (fun x y => x ≤ y) [1 / 2] ([1, 2, 3, 9, 4, 8] : List ℚ) = [(0, 1), (1 / 2, y), (1, 9)] := by
  have hs : ([1, 2, 3] : List ℚ).mergeSort (fun x y => decide (x ≤ y)) = [1, 2, 3] :=
    List.mergeSort_of_pairwise (by decide +kernel)
  have hs : start ([1, 2, 3] : List ℚ) = ⟨fun i => i + 1, fun i => ([1, 2, 3] : List ℚ).getD i 0⟩ := by
    unfold start; rw [hs]
  unfold estimates
  simp only [List.length_singleton, Nat.reduceAdd, List.take, List.drop, hs]
  exact ⟨by decide +kernel, 11 / 3, by decide +kernel⟩

end Verif.P2
