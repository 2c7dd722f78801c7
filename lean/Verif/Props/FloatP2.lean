import Verif.Model.FloatP2
import Verif.Props.Float
import Verif.Props.P2
/-!
# C131: the P2 estimator in floating point
-/
set_option linter.unusedSectionVars false
namespace Verif.FltP2

open Verif.Flt Verif.P2
open scoped List

variable {K : Type} [Field K] [LinearOrder K] [IsStrictOrderedRing K] [FloorRing K]

/-- A way to adjust markers that keeps them between their neighbours, and their heights among the numbers that are `P`. -/
def Keeps (adj : Adjust K) (P : K → Prop) : Prop :=
  ∀ (prev : Int) (l c r : Marker K), R l c → R c r → P l.height → P c.height → P r.height →
    ∃ c', adj prev l c r = some c' ∧ R l c' ∧ R c' r ∧ c'.q = c.q ∧ P c'.height

theorem quadPass_snoc {adj : Adjust K} {P : K → Prop} (ha : Keeps adj P) (prev : Int) (mid : List (Marker K)) (m l : Marker K)
    (h : (m :: (mid ++ [l])).Pairwise R) (hP : ∀ x ∈ m :: (mid ++ [l]), P x.height) :
    ∃ mid', quadPass adj prev m (mid ++ [l]) = some (mid' ++ [l]) ∧ (m :: (mid' ++ [l])).Pairwise R ∧
      mid'.map (·.q) = mid.map (·.q) ∧ ∀ x ∈ mid', P x.height := by
  induction mid generalizing m with
  | nil => exact ⟨[], rfl, h, rfl, by simp⟩
  | cons c mid ih =>
    obtain ⟨r, ms, e⟩ : ∃ n ms, mid ++ [l] = n :: ms := by cases mid <;> simp
    rw [List.cons_append, List.pairwise_cons, List.pairwise_cons] at h
    obtain ⟨c', h1, h2, h3, h4, h5⟩ := ha prev m c r (h.1 c (by simp)) (h.2.1 r (by rw [e]; simp)) (hP m (by simp))
      (hP c (by simp)) (hP r (by rw [List.cons_append, e]; simp))
    have hrest : (c' :: (mid ++ [l])).Pairwise R := by
      rw [List.pairwise_cons]
      refine ⟨fun x hx => ?_, h.2.2⟩
      have hp := h.2.2
      rw [e] at hx hp
      rcases List.mem_cons.1 hx with rfl | hx
      · exact h3
      · exact R_trans h3 ((List.pairwise_cons.1 hp).1 x hx)
    have hP' : ∀ x ∈ c' :: (mid ++ [l]), P x.height := by
      intro x hx
      rcases List.mem_cons.1 hx with rfl | hx
      · exact h5
      · exact hP x (List.mem_cons_of_mem _ (by rw [List.cons_append]; exact List.mem_cons_of_mem _ hx))
    obtain ⟨mid', g1, g2, g3, g4⟩ := ih c' hrest hP'
    refine ⟨c' :: mid', ?_, ?_, by simp [g3, h4], ?_⟩
    · rw [e] at g1
      simp only [List.cons_append, e, quadPass, h1, Option.bind_eq_bind, Option.bind_some, g1]
    · rw [List.cons_append, List.pairwise_cons]
      refine ⟨fun x hx => ?_, g2⟩
      rcases List.mem_cons.1 hx with rfl | hx
      · exact h2
      · exact R_trans h2 ((List.pairwise_cons.1 g2).1 x hx)
    · intro x hx
      rcases List.mem_cons.1 hx with rfl | hx
      · exact h5
      · exact g4 x hx

theorem ok_add {adj : Adjust K} {P : K → Prop} (ha : Keeps adj P) {qps seen : List K} {ms : List (Marker K)} (h : Ok qps seen ms)
    (hP : ∀ x ∈ ms, P x.height) (val : K) (hv : P val) :
    ∃ ms', add adj ms val = some ms' ∧ Ok qps (seen ++ [val]) ms' ∧ ∀ x ∈ ms', P x.height := by
  obtain ⟨m, mid, l, rfl, hm, hl, hmin, hmin', hmax, hmax'⟩ := h.shape
  have ho := h.ordered
  have hq := h.points
  have hlast : (m :: (mid ++ [l])).getLast? = some l := by
    rw [← List.cons_append, List.getLast?_append]; rfl
  have hml : m.height ≤ l.height := hmin' _ hmax
  -- the extremes
  obtain ⟨m1, l1, he, hm1, hl1, hmq, hlq, hmle, hlle, g1, g2, g3, g4, pm, pl⟩ : ∃ m1 l1 : Marker K,
      extremes val (bumpLast (m :: (mid ++ [l]))) = m1 :: (mid ++ [l1]) ∧ m1.pos = m.pos ∧ l1.pos = l.pos + 1 ∧
      m1.q = m.q ∧ l1.q = l.q ∧ m1.height ≤ m.height ∧ l.height ≤ l1.height ∧
      m1.height ∈ seen ++ [val] ∧ (∀ x ∈ seen ++ [val], m1.height ≤ x) ∧
      l1.height ∈ seen ++ [val] ∧ (∀ x ∈ seen ++ [val], x ≤ l1.height) ∧ P m1.height ∧ P l1.height := by
    have pm0 : P m.height := hP m (by simp)
    have pl0 : P l.height := hP l (by simp)
    rw [← List.cons_append, bumpLast_snoc, List.cons_append]
    have hlast' : (m :: (mid ++ [{ l with pos := l.pos + 1 }])).getLast? = some { l with pos := l.pos + 1 } := by
      rw [← List.cons_append, List.getLast?_append]; rfl
    unfold extremes
    dsimp only
    by_cases h1 : val < m.height
    · rw [if_pos h1]
      refine ⟨{ m with height := val }, { l with pos := l.pos + 1 }, rfl, rfl, rfl, rfl, rfl, le_of_lt h1, le_refl _,
        by simp, fun x hx => ?_, by simp [hmax], fun x hx => ?_, hv, pl0⟩
      · rcases List.mem_append.1 hx with hx | hx
        · exact le_of_lt (lt_of_lt_of_le h1 (hmin' x hx))
        · rw [List.mem_singleton.1 hx]
      · rcases List.mem_append.1 hx with hx | hx
        · exact hmax' x hx
        · rw [List.mem_singleton.1 hx]; exact le_of_lt (lt_of_lt_of_le h1 hml)
    · rw [if_neg h1, hlast']
      dsimp only
      have hmin1 : ∀ x ∈ seen ++ [val], m.height ≤ x := by
        intro x hx
        rcases List.mem_append.1 hx with hx | hx
        · exact hmin' x hx
        · rw [List.mem_singleton.1 hx]; exact not_lt.1 h1
      by_cases h2 : val > l.height
      · rw [if_pos h2, ← List.cons_append, raiseLast_snoc, List.cons_append]
        refine ⟨m, { l with pos := l.pos + 1, height := val }, rfl, rfl, rfl, rfl, rfl, le_refl _, le_of_lt h2,
          by simp [hmin], hmin1, by simp, fun x hx => ?_, pm0, hv⟩
        rcases List.mem_append.1 hx with hx | hx
        · exact le_of_lt (lt_of_le_of_lt (hmax' x hx) h2)
        · rw [List.mem_singleton.1 hx]
      · rw [if_neg h2]
        refine ⟨m, { l with pos := l.pos + 1 }, rfl, rfl, rfl, rfl, rfl, le_refl _, le_refl _, by simp [hmin], hmin1,
          by simp [hmax], fun x hx => ?_, pm0, pl0⟩
        rcases List.mem_append.1 hx with hx | hx
        · exact hmax' x hx
        · rw [List.mem_singleton.1 hx]; exact not_lt.1 h2
  rw [List.pairwise_cons, List.pairwise_append] at ho
  obtain ⟨ho1, ho2, _, ho3⟩ := ho
  -- order after the extremes
  have hp1 : (mid ++ [l1]).Pairwise fun a b => a.pos < b.pos := by
    rw [List.pairwise_append]
    refine ⟨ho2.imp (fun h => h.1), by simp, fun a ha b hb => ?_⟩
    rw [List.mem_singleton.1 hb, hl1]
    have := (ho3 a ha l (by simp)).1
    omega
  obtain ⟨mid', b1, b2, b3, b4, b5⟩ := backPass_snoc val mid l1 hp1
  have hh1 : ((mid' ++ [l1]).map (·.height)).Pairwise (· ≤ ·) := by
    rw [List.map_append, b3, List.pairwise_append]
    refine ⟨?_, by simp, fun a ha b hb => ?_⟩
    · rw [List.pairwise_map]; exact ho2.imp (fun h => h.2)
    · obtain ⟨a', ha', rfl⟩ := List.mem_map.1 ha
      rw [List.map_singleton, List.mem_singleton] at hb
      rw [hb]
      exact le_trans (ho3 a' ha' l (by simp)).2 hlle
  have hR : (m1 :: (mid' ++ [l1])).Pairwise R := by
    rw [List.pairwise_cons]
    constructor
    · intro x hx
      constructor
      · rw [hm1]
        refine b5 m.pos (fun y hy => ?_) x hx
        rcases List.mem_append.1 hy with hy | hy
        · exact (ho1 y (by simp [hy])).1
        · rw [List.mem_singleton.1 hy, hl1]
          have := (ho1 l (by simp)).1
          omega
      · have : x.height ∈ (mid' ++ [l1]).map (·.height) := List.mem_map_of_mem hx
        rw [List.map_append, b3] at this
        rcases List.mem_append.1 this with this | this
        · obtain ⟨y, hy, e⟩ := List.mem_map.1 this
          rw [← e]
          exact le_trans hmle (ho1 y (by simp [hy])).2
        · rw [List.map_singleton, List.mem_singleton] at this
          rw [this]
          exact le_trans hmle (le_trans hml hlle)
    · rw [List.pairwise_map] at hh1
      exact (b4.and hh1).imp fun h => h
  have hP' : ∀ x ∈ m1 :: (mid' ++ [l1]), P x.height := by
    intro x hx
    rcases List.mem_cons.1 hx with rfl | hx
    · exact pm
    · have : x.height ∈ (mid' ++ [l1]).map (·.height) := List.mem_map_of_mem hx
      rw [List.map_append, b3] at this
      rcases List.mem_append.1 this with this | this
      · obtain ⟨y, hy, e⟩ := List.mem_map.1 this
        rw [← e]
        exact hP y (by simp [hy])
      · rw [List.map_singleton, List.mem_singleton] at this
        rw [this]; exact pl
  obtain ⟨mid'', q1, q2, q3, q4⟩ := quadPass_snoc ha l.pos mid' m1 l1 hR hP'
  refine ⟨m1 :: (mid'' ++ [l1]), ?_, ?_, ?_⟩
  · unfold add
    rw [hlast]
    dsimp only
    rw [he]
    simp only [b1, q1, Option.bind_eq_bind, Option.bind_some]
  · refine ⟨?_, q2, m1, mid'', l1, rfl, by rw [hm1, hm], ?_, g1, g2, g3, g4⟩
    · rw [← hq]
      simp [q3, b2, hmq, hlq]
    · rw [hl1, hl]; simp
  · intro x hx
    simp only [List.mem_cons, List.mem_append, List.not_mem_nil, or_false] at hx
    rcases hx with rfl | hx | rfl
    · exact pm
    · exact q4 x hx
    · exact pl

theorem ok_addAll {adj : Adjust K} {P : K → Prop} (ha : Keeps adj P) {qps seen : List K} {ms : List (Marker K)} (h : Ok qps seen ms)
    (hP : ∀ x ∈ ms, P x.height) (vals : List K) (hv : ∀ v ∈ vals, P v) :
    ∃ ms', addAll adj ms vals = some ms' ∧ Ok qps (seen ++ vals) ms' ∧ ∀ x ∈ ms', P x.height := by
  induction vals generalizing seen ms with
  | nil => exact ⟨ms, rfl, by simpa using h, hP⟩
  | cons v vals ih =>
    obtain ⟨ms1, h1, h2, p2⟩ := ok_add ha h hP v (hv v (by simp))
    obtain ⟨ms2, h3, h4, p4⟩ := ih h2 p2 (fun x hx => hv x (List.mem_cons_of_mem _ hx))
    exact ⟨ms2, by simp [addAll, h1, h3], by simpa using h4, p4⟩


theorem move_spec (F : Rounding K) (d : Int) (hd : d = 1 ∨ d = -1) (l c r : Marker K) (hl : R l c) (hr : R c r)
    (hlo : l.pos < c.pos + d) (hhi : c.pos + d < r.pos) (pl : F.Is l.height) (pc : F.Is c.height) (pr : F.Is r.height) :
    ∃ c', move F d l c r = some c' ∧ R l c' ∧ R c' r ∧ c'.q = c.q ∧ F.Is c'.height := by
  have k0 : ((r.pos - l.pos : Int) : K) ≠ 0 := by
    have : r.pos - l.pos ≠ 0 := by have := hl.1; have := hr.1; omega
    exact_mod_cast this
  have k1 : ((c.pos - l.pos : Int) : K) ≠ 0 := by
    have : c.pos - l.pos ≠ 0 := by have := hl.1; omega
    exact_mod_cast this
  have k2 : ((r.pos - c.pos : Int) : K) ≠ 0 := by
    have : r.pos - c.pos ≠ 0 := by have := hr.1; omega
    exact_mod_cast this
  have k3 : ((l.pos - c.pos : Int) : K) ≠ 0 := by
    have : l.pos - c.pos ≠ 0 := by have := hl.1; omega
    exact_mod_cast this
  unfold move
  dsimp only
  rw [pdiv_ne k0, pdiv_ne k1, pdiv_ne k2]
  simp only [Option.map_some, Option.bind_eq_bind, Option.bind_some]
  split
  · rename_i h
    exact ⟨_, rfl, ⟨hlo, le_of_lt h.1⟩, ⟨hhi, le_of_lt h.2⟩, rfl, F.idem _⟩
  · rcases hd with rfl | rfl
    · rw [if_pos rfl]
      have h2 : (2 : K) ≤ ((r.pos - c.pos : Int) : K) := by
        have : (2 : Int) ≤ r.pos - c.pos := by omega
        exact_mod_cast this
      obtain ⟨a, b⟩ := F.toward_up pc pr hr.2 h2
      rw [pdiv_ne k2]
      refine ⟨_, rfl, ⟨hlo, ?_⟩, ⟨hhi, ?_⟩, rfl, F.idem _⟩
      · exact le_trans hl.2 a
      · exact b
    · rw [if_neg (by decide), pdiv_ne k3]
      have h2 : (2 : K) ≤ ((c.pos - l.pos : Int) : K) := by
        have : (2 : Int) ≤ c.pos - l.pos := by omega
        exact_mod_cast this
      have e : F.rnd (c.height - F.rnd (F.rnd (l.height - c.height) / ((l.pos - c.pos : Int) : K))) =
          F.rnd (c.height + F.rnd (F.rnd (l.height - c.height) / ((c.pos - l.pos : Int) : K))) := by
        have : ((l.pos - c.pos : Int) : K) = -((c.pos - l.pos : Int) : K) := by push_cast; ring
        rw [this, div_neg, F.neg, sub_neg_eq_add]
      obtain ⟨a, b⟩ := F.toward_down pc pl hl.2 h2
      refine ⟨_, rfl, ⟨hlo, ?_⟩, ⟨hhi, ?_⟩, rfl, F.idem _⟩
      · dsimp only; rw [e]; exact a
      · dsimp only; rw [e]; exact le_trans b hr.2

theorem adjust_keeps (F : Rounding K) : Keeps (adjust F) F.Is := by
  intro prev l c r hl hr pl pc pr
  unfold adjust
  dsimp only
  split
  · exact ⟨c, rfl, hl, hr, rfl, pc⟩
  · have hd : ∀ d : Int, d = 1 ∨ d = -1 → ∃ c',
        (if ¬ (l.pos < c.pos + d ∧ c.pos + d < r.pos) then some c else move F d l c r) = some c' ∧ R l c' ∧ R c' r ∧
          c'.q = c.q ∧ F.Is c'.height := by
      intro d hd
      split
      · exact ⟨c, rfl, hl, hr, rfl, pc⟩
      · rename_i h
        rw [not_not] at h
        exact move_spec F _ hd l c r hl hr h.1 h.2 pl pc pr
    split
    · exact hd 1 (.inl rfl)
    · exact hd (-1) (.inr rfl)

theorem initial_heights {P : K → Prop} (qps data : List K) (h : ∀ x ∈ data, P x) : ∀ m ∈ initial qps data, P m.height := by
  intro m hm
  simp only [initial, List.mem_map, Prod.exists] at hm
  obtain ⟨a, b, i, hi, rfl⟩ := hm
  have h1 := List.mem_map_of_mem (f := Prod.fst) hi
  rw [List.zipIdx_map_fst] at h1
  have h2 := (List.of_mem_zip h1).2
  rw [List.mem_mergeSort] at h2
  exact h b (List.mem_of_mem_take h2)

/-- **C131**: in floating point, whatever the precision, for any points and any observations, at least as many as the constructor asks
for: nothing is divided by zero, estimates do not decrease with the point, and the first and last are the exact extremes. -/
theorem C131_estimates (F : Rounding K) (points data vals : List K) (hd : points.length + 2 ≤ data.length)
    (hf : ∀ x ∈ data ++ vals, F.Is x) :
    ∃ ms0 ms, make (adjust F) points data = some ms0 ∧ addAll (adjust F) ms0 vals = some ms ∧
      (getQuantiles ms).map Prod.fst = 0 :: points ++ [1] ∧
      ((getQuantiles ms).map Prod.snd).Pairwise (· ≤ ·) ∧
      ∃ lo hi, ((getQuantiles ms).map Prod.snd).head? = some lo ∧ ((getQuantiles ms).map Prod.snd).getLast? = some hi ∧
        MinMax (data ++ vals) lo hi := by
  have hl : (0 :: points ++ [1] : List K).length = points.length + 2 := by simp
  have ha := adjust_keeps F
  obtain ⟨ms0, h1, h2, p2⟩ := ok_addAll ha (ok_initial (0 :: points ++ [1]) data (by omega) (by omega))
    (initial_heights _ data fun x hx => hf x (List.mem_append_left _ hx))
    (data.drop (0 :: points ++ [1] : List K).length)
    (fun v hv => hf v (List.mem_append_left _ (List.mem_of_mem_drop hv)))
  rw [List.take_append_drop] at h2
  obtain ⟨ms, h3, h4, -⟩ := ok_addAll ha h2 p2 vals (fun v hv => hf v (List.mem_append_right _ hv))
  obtain ⟨m, mid, l, e, p1, p2, q1, q2, q3, q4⟩ := h4.shape
  refine ⟨ms0, ms, by unfold make; dsimp only; rw [if_neg (by omega)]; exact h1, h3, ?_, ?_, m.height, l.height, ?_, ?_,
    ⟨q1, q2⟩, ⟨q3, q4⟩⟩
  · rw [← h4.points]; simp [getQuantiles, Function.comp_def]
  · simp only [getQuantiles, List.map_map, Function.comp_def]
    rw [List.pairwise_map]; exact h4.ordered.imp fun h => h.2
  · rw [e]; simp [getQuantiles]
  · rw [e, ← List.cons_append, getQuantiles, List.map_append, List.map_append, List.getLast?_append]; simp

/-! With exact arithmetic the model is `Verif.Model.P2`. -/

theorem move_exact (d : Int) (l c r : Marker K) : move exact d l c r = P2.move d l c r := by
  unfold move P2.move
  have h : ∀ o : Option K, o.map (exact : Rounding K).rnd = o := fun o => Option.map_id_apply
  simp only [h]
  simp only [exact, id]
  push_cast
  rfl

theorem adjust_exact : adjust (exact : Rounding K) = P2.adjust := by
  funext prev l c r
  unfold adjust P2.adjust
  simp only [move_exact]
  rfl

theorem quadPass_exact (prev : Int) (l : Marker K) (ms : List (Marker K)) :
    quadPass P2.adjust prev l ms = P2.quadPass prev l ms := by
  induction ms generalizing l with
  | nil => rfl
  | cons c ms ih =>
    cases ms with
    | nil => rfl
    | cons r ms => simp only [quadPass, P2.quadPass, ih]

theorem add_exact (ms : List (Marker K)) (v : K) : add P2.adjust ms v = P2.add ms v := by
  have : quadPass (K := K) P2.adjust = P2.quadPass := by
    funext prev l ms; exact quadPass_exact prev l ms
  unfold add P2.add
  rw [this]
  rfl

theorem addAll_exact (ms : List (Marker K)) (vs : List K) : addAll P2.adjust ms vs = P2.addAll ms vs := by
  induction vs generalizing ms with
  | nil => rfl
  | cons v vs ih => simp only [addAll, P2.addAll, add_exact, ih]

/-- With exact arithmetic the estimator is that of C52. -/
theorem C131_exact (points data vals : List K) (ms : List (Marker K)) :
    make (adjust exact) points data = P2.make points data ∧ addAll (adjust exact) ms vals = P2.addAll ms vals := by
  rw [adjust_exact]
  exact ⟨by unfold make P2.make; simp only [addAll_exact], addAll_exact ms vals⟩

/-- Doubles: the median of seven values. -/
example : ∃ ms0 ms, make (adjust binary64) [(1 / 2 : ℚ)] [5, 1, 3, 3] = some ms0 ∧ addAll (adjust binary64) ms0 [7, 0, 2] = some ms ∧
    (getQuantiles ms).map Prod.fst = [0, 1 / 2, 1] := by
  obtain ⟨a, b, h1, h2, h3, -⟩ := C131_estimates binary64 [(1 / 2 : ℚ)] [5, 1, 3, 3] [7, 0, 2] (by simp) (by
    intro x hx
    simp only [List.mem_append, List.mem_cons, List.not_mem_nil, or_false] at hx
    rcases hx with (rfl | rfl | rfl | rfl) | (rfl | rfl | rfl)
    · exact_mod_cast binary64_int (K := ℚ) (k := 5) (by norm_num)
    · exact_mod_cast binary64_int (K := ℚ) (k := 1) (by norm_num)
    · exact_mod_cast binary64_int (K := ℚ) (k := 3) (by norm_num)
    · exact_mod_cast binary64_int (K := ℚ) (k := 3) (by norm_num)
    · exact_mod_cast binary64_int (K := ℚ) (k := 7) (by norm_num)
    · exact_mod_cast binary64_int (K := ℚ) (k := 0) (by norm_num)
    · exact_mod_cast binary64_int (K := ℚ) (k := 2) (by norm_num))
  exact ⟨a, b, h1, h2, h3⟩

end Verif.FltP2
