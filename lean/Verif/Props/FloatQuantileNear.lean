import Verif.Props.FloatQuantile
/-!
# Reservoir quantiles in floating point are accurate (C132)
-/
namespace Verif.FltQuant

open Verif.Flt Verif.Quant
open scoped List

variable {K : Type} [Field K] [LinearOrder K] [IsStrictOrderedRing K] [FloorRing K]

/-- The list `0 * W - l[0], 1 * W - l[1], …`. -/
def tilted (W : K) (l : List K) : List K := l.mapIdx fun i a => i * W - a

theorem tilted_get (W : K) {l : List K} {i : Nat} {a : K} (h : l[i]? = some a) : (tilted W l)[i]? = some (i * W - a) := by
  simp [tilted, List.getElem?_mapIdx, h]

theorem tilted_sorted {W lo hi : K} {l : List K} (hb : ∀ x ∈ l, lo ≤ x ∧ x ≤ hi) (hW : hi - lo ≤ W) :
    (tilted W l).Pairwise (· ≤ ·) := by
  rw [List.pairwise_iff_getElem]
  intro i j hi' hj' hij
  simp only [tilted, List.length_mapIdx] at hi' hj'
  simp only [tilted, List.getElem_mapIdx]
  have h1 := hb _ (List.getElem_mem hi')
  have h2 := hb _ (List.getElem_mem hj')
  have h3 : ((i : K) + 1) ≤ j := by exact_mod_cast hij
  have hW0 : 0 ≤ W := by linarith
  nlinarith

theorem tilted_interp (W : K) {l : List K} {x v : K} (h : Interp l x v) : Interp (tilted W l) x (x * W - v) := by
  obtain ⟨i, t, a, b, t0, t1, hx, ha, hb, rfl⟩ := h
  refine ⟨i, t, i * W - a, ((i + 1 : Nat) : K) * W - b, t0, t1, hx, tilted_get W ha, hb.imp id (tilted_get W), ?_⟩
  rw [hx]; push_cast; ring

/-- The broken line through sorted points is nowhere steeper than the distance between bounds of the points. -/
theorem interp_steep {lo hi : K} {l : List K} (hl : l.Pairwise (· ≤ ·)) (hb : ∀ x ∈ l, lo ≤ x ∧ x ≤ hi) {x y v w : K}
    (hv : Interp l x v) (hw : Interp l y w) : |v - w| ≤ (hi - lo) * |x - y| := by
  have key : ∀ {x y v w : K}, x ≤ y → Interp l x v → Interp l y w → |v - w| ≤ (hi - lo) * |x - y| := by
    intro x y v w hxy hv hw
    have h1 := interp_mono hl hxy hv hw
    have h2 := interp_mono (tilted_sorted hb le_rfl) hxy (tilted_interp (hi - lo) hv) (tilted_interp (hi - lo) hw)
    rw [abs_sub_comm v, abs_of_nonneg (by linarith), abs_sub_comm x, abs_of_nonneg (by linarith)]
    linarith
  rcases le_total x y with h | h
  · exact key h hv hw
  · rw [abs_sub_comm v, abs_sub_comm x]
    exact key h hw hv

/-- **C132**, accuracy: in floating point every quantile of the values kept is there, and it differs from the interpolation of the
sorted values at `q * (n - 1)` by a few units in the last place of the largest value, and by the error of the position times the
spread of the values. -/
theorem C132_accurate {F : Rounding K} {u η : K} (hn : F.Near u η) (hu0 : 0 ≤ u) (hu : u ≤ 1 / 2) (he : 0 ≤ η) (store : K → K)
    (ops : List (Op K)) (hne : added ops ≠ []) (hl : F.Is (((added ops).length : K) - 1)) (q : K) (h0 : 0 < q) (h1 : q < 1)
    (lo hi M : K) (hb : ∀ x ∈ added ops, lo ≤ store x ∧ store x ≤ hi) (hM : ∀ x ∈ added ops, |store x| ≤ M) :
    ∃ v w, (resQuantile F (run store none ops) q).1 = .ok v ∧
      Interp (sorted ((added ops).map store)) (q * (((added ops).length : K) - 1)) w ∧
      |v - w| ≤ 7 * u * M + 4 * η * (M + 1) + (hi - lo) * (u * (((added ops).length : K) - 1) + η) := by
  obtain ⟨w, -, hw⟩ := C50_quantile store ops hne q h0 h1
  obtain ⟨acc, h⟩ := inv_run store none ops
  obtain ⟨rfl, hlen⟩ := h.none_len rfl
  have hp : (run store none ops).data ~ (added ops).map store :=
    h.data_sub.perm_of_length_le (by simp [hlen])
  have hmem : ∀ y ∈ (run store none ops).data, ∃ x ∈ added ops, store x = y := by
    intro y hy
    have := hp.mem_iff.1 hy
    simpa using this
  obtain ⟨v, w', hv, hw', hd⟩ := quantile_near hn hu0 hu he (run store none ops) q h.isSorted
    (by intro e; rw [e] at hlen; exact hne (List.length_eq_zero_iff.1 hlen.symm)) h0 h1 (by rw [hlen]; exact hl)
    (M := M) (by intro y hy; obtain ⟨x, hx, rfl⟩ := hmem y hy; exact hM x hx)
  have hs : sorted (run store none ops).data = sorted ((added ops).map store) :=
    eq_sorted (sorted_pairwise _) ((sorted_perm _).trans hp)
  rw [hs, hlen] at hw'
  have hst := interp_steep (lo := lo) (hi := hi) (sorted_pairwise _) (by
    intro y hy
    obtain ⟨x, hx, rfl⟩ := List.mem_map.1 ((sorted_perm _).mem_iff.1 hy)
    exact hb x hx) hw' hw
  refine ⟨v, w, hv, hw, ?_⟩
  obtain ⟨x0, hx0⟩ := List.exists_mem_of_ne_nil _ hne
  have hW : 0 ≤ hi - lo := by have := hb x0 hx0; linarith
  have hn1 : (0 : K) ≤ ((added ops).length : K) - 1 := by
    have : 1 ≤ (added ops).length := List.length_pos_iff.2 hne
    have : (1 : K) ≤ (added ops).length := by exact_mod_cast this
    linarith
  have hidx : |F.rnd (q * (((added ops).length : K) - 1)) - q * (((added ops).length : K) - 1)| ≤
      u * (((added ops).length : K) - 1) + η := by
    refine (hn _).trans ?_
    rw [abs_of_nonneg (mul_nonneg h0.le hn1)]
    have : q * (((added ops).length : K) - 1) ≤ ((added ops).length : K) - 1 := by nlinarith
    gcongr
  have htri : |v - w| ≤ |v - w'| + |w' - w| := by
    have := abs_add_le (v - w') (w' - w); rwa [sub_add_sub_cancel] at this
  have := mul_le_mul_of_nonneg_left hidx hW
  linarith

/-- The median of 3.0 and 5.0 in doubles: 4.0, up to `9 / 2 ** 50` or so. -/
example : ∃ v w, (resQuantile binary64 (run (ieee 24 (-149)) none [Op.add (5 : ℚ) 0, Op.add 3 0]) (1 / 2)).1 = .ok v ∧
    Interp (sorted ((added [Op.add (5 : ℚ) 0, Op.add 3 0]).map (ieee 24 (-149)))) (1 / 2 * ((2 : ℕ) - 1)) w ∧
    |v - w| ≤ 7 * 2 ^ (-53 : ℤ) * 5 + 4 * 2 ^ (-1075 : ℤ) * (5 + 1) + (5 - 3) * (2 ^ (-53 : ℤ) * ((2 : ℕ) - 1) + 2 ^ (-1075 : ℤ)) :=
  C132_accurate binary64_near (two_zpow_pos _).le (by norm_num) (two_zpow_pos _).le _ [Op.add (5 : ℚ) 0, Op.add 3 0] (by simp [added])
    (by decide +kernel) (1 / 2) (by norm_num) (by norm_num) 3 5 5 (by decide +kernel) (by decide +kernel)

end Verif.FltQuant
