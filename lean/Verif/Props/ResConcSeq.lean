import Verif.Model.ResConc
import Mathlib.Algebra.Order.Field.Rat
import Mathlib.Data.Rat.Floor
/-!
# C114: one thread alone uses a reservoir as the sequential model says
-/
namespace Verif.ResConc

open Verif.Quant Verif.Accum

variable {K : Type} [Field K] [LinearOrder K] [IsStrictOrderedRing K] [FloorRing K] {store : K → K}

/-- Steps of thread `t` alone lead from `s` to `s'`. -/
def Alone (store : K → K) (t : Tid) (s s' : Sys K) : Prop := ∃ n, run store s (List.replicate n (t, .go)) = s'

/-- The accumulator of `s` is the sequential one `r`. -/
structure Rep (s : Sys K) (r : Res K) : Prop where
  data : r.data = s.arr s.data
  sorted : r.isSorted = s.sorted
  base : r.base = ⟨s.count, s.min, s.max⟩
  cap : r.cap = none

/-- A new accumulator. -/
theorem rep_init (n : Nat) : Rep (init n : Sys K) (resInit none) := ⟨rfl, rfl, rfl, rfl⟩

theorem alone_go {t : Tid} {s : Sys K} {p : PC K} (hp : s.pcs[t]? = some p) {s' : Sys K} (s1 : Sys K) (hg : go store s t p = s1)
    (h : Alone store t s1 s') : Alone store t s s' := by
  subst hg
  obtain ⟨n, h⟩ := h
  refine ⟨n + 1, ?_⟩
  rw [List.replicate_succ, run, List.foldl_cons]
  simpa [step, hp, run] using h

/-- **C114**, one thread alone: `add` is that of the sequential model. -/
theorem C114_add_sequential (s : Sys K) (r : Res K) (t : Tid) (hp : s.pcs[t]? = some .idle) (v : K) (rnd : Nat) (h : Rep s r) :
    ∃ s' r', resAdd store r v rnd = .ok r' ∧ Alone store t (step store s t (.add v)) s' ∧ s'.pcs = s.pcs ∧ s'.calls = s.calls ++ [v] ∧
      s'.reads = s.reads ∧ Rep s' r' := by
  obtain ⟨ht, hp'⟩ := List.getElem?_eq_some_iff.1 hp
  have e1 : s.pcs.set t .idle = s.pcs := by rw [← hp']; exact List.set_getElem_self ht
  have e0 : step store s t (.add v) = { s with calls := s.calls ++ [v], pcs := s.pcs.set t (.load v) } := by
    simp [step, hp, call, Sys.to]
  have hat : ∀ (q : PC K), (s.pcs.set t q)[t]? = some q := fun q => by simp [ht]
  have hr : resAdd store r v rnd = .ok { r with data := r.data ++ [store v], isSorted := false, base := baseAdd r.base v } := by
    simp [resAdd, h.cap, below]
  refine ⟨{ s with calls := s.calls ++ [v], arr := fun b => if b = s.data then s.arr s.data ++ [store v] else s.arr b, sorted := false, count := s.count + 1, min := if fin v < s.min then fin v else s.min, max := if fin v > s.max then fin v else s.max },
    _, hr, ?_, rfl, rfl, rfl, ?_⟩
  · rw [e0]
    refine alone_go (hat _) { s with calls := s.calls ++ [v], pcs := s.pcs.set t (.append v s.data) }
      (by simp only [go, Sys.to, List.set_set]) ?_
    refine alone_go (hat _) { s with calls := s.calls ++ [v], pcs := s.pcs.set t (.flag v), arr := fun b => if b = s.data then s.arr s.data ++ [store v] else s.arr b }
      (by simp only [go, Sys.to, List.set_set]) ?_
    refine alone_go (hat _) { s with calls := s.calls ++ [v], pcs := s.pcs.set t (.rdCount v), arr := fun b => if b = s.data then s.arr s.data ++ [store v] else s.arr b, sorted := false }
      (by simp only [go, Sys.to, List.set_set]) ?_
    refine alone_go (hat _) { s with calls := s.calls ++ [v], pcs := s.pcs.set t (.wrCount v s.count), arr := fun b => if b = s.data then s.arr s.data ++ [store v] else s.arr b, sorted := false }
      (by simp only [go, Sys.to, List.set_set]) ?_
    refine alone_go (hat _) { s with calls := s.calls ++ [v], pcs := s.pcs.set t (.cmpMin v), arr := fun b => if b = s.data then s.arr s.data ++ [store v] else s.arr b, sorted := false, count := s.count + 1 }
      (by simp only [go, Sys.to, List.set_set]) ?_
    have last : ∀ m : Ext K, Alone store t
        { s with calls := s.calls ++ [v], pcs := s.pcs.set t (.cmpMax v), arr := fun b => if b = s.data then s.arr s.data ++ [store v] else s.arr b, sorted := false, count := s.count + 1, min := m }
        { s with calls := s.calls ++ [v], arr := fun b => if b = s.data then s.arr s.data ++ [store v] else s.arr b, sorted := false, count := s.count + 1, min := m, max := if fin v > s.max then fin v else s.max } := by
      intro m
      by_cases hm : fin v > s.max
      · refine alone_go (hat _) { s with calls := s.calls ++ [v], pcs := s.pcs.set t (.setMax v), arr := fun b => if b = s.data then s.arr s.data ++ [store v] else s.arr b, sorted := false, count := s.count + 1, min := m }
          (by simp only [go, Sys.to, List.set_set, if_pos hm]) ?_
        refine alone_go (hat _) _ rfl ⟨0, ?_⟩
        simp only [List.replicate_zero, run, List.foldl_nil, go, Sys.to, List.set_set, if_pos hm, e1]
      · refine alone_go (hat _) _ rfl ⟨0, ?_⟩
        simp only [List.replicate_zero, run, List.foldl_nil, go, Sys.to, List.set_set, if_neg hm, e1]
    by_cases hm : fin v < s.min
    · refine alone_go (hat _) { s with calls := s.calls ++ [v], pcs := s.pcs.set t (.setMin v), arr := fun b => if b = s.data then s.arr s.data ++ [store v] else s.arr b, sorted := false, count := s.count + 1 }
        (by simp only [go, Sys.to, List.set_set, if_pos hm]) ?_
      refine alone_go (hat _) { s with calls := s.calls ++ [v], pcs := s.pcs.set t (.cmpMax v), arr := fun b => if b = s.data then s.arr s.data ++ [store v] else s.arr b, sorted := false, count := s.count + 1, min := fin v }
        (by simp only [go, Sys.to, List.set_set]) ?_
      rw [if_pos hm]
      exact last _
    · refine alone_go (hat _) { s with calls := s.calls ++ [v], pcs := s.pcs.set t (.cmpMax v), arr := fun b => if b = s.data then s.arr s.data ++ [store v] else s.arr b, sorted := false, count := s.count + 1 }
        (by simp only [go, Sys.to, List.set_set, if_neg hm]) ?_
      rw [if_neg hm]
      exact last _
  · refine ⟨?_, rfl, ?_, h.cap⟩
    · simp [h.data]
    · simp [h.base, baseAdd]

/-- **C114**, one thread alone: `_get_quantile` is that of the sequential model, for all points. -/
theorem C114_read_sequential (s : Sys K) (r : Res K) (t : Tid) (hp : s.pcs[t]? = some .idle) (q : K) (h : Rep s r) :
    ∃ s', Alone store t (step store s t (.read q)) s' ∧ s'.pcs = s.pcs ∧ s'.calls = s.calls ∧
      s'.reads = s.reads ++ [(q, s.calls, (resQuantile r q).1)] ∧ Rep s' (resQuantile r q).2 := by
  obtain ⟨ht, hp'⟩ := List.getElem?_eq_some_iff.1 hp
  have e1 : s.pcs.set t .idle = s.pcs := by rw [← hp']; exact List.set_getElem_self ht
  have hat : ∀ (q : PC K), (s.pcs.set t q)[t]? = some q := fun q => by simp [ht]
  by_cases hq : 0 < q ∧ q < 1
  swap
  · refine ⟨{ s with reads := s.reads ++ [(q, s.calls, .error .value)] }, ⟨0, ?_⟩, rfl, rfl, ?_, ?_⟩
    · simp [run, step, hp, call, hq]
    · simp [resQuantile, hq]
    · rw [show (resQuantile r q).2 = r by simp [resQuantile, hq]]
      exact ⟨h.data, h.sorted, h.base, h.cap⟩
  have e0 : step store s t (.read q) = { s with pcs := s.pcs.set t (.test q) } := by
    simp only [step, hp, call, if_pos hq, Sys.to]
  have h1 : (resQuantile r q).2 = sortData r := by simp [resQuantile, hq]
  have h2 : (resQuantile r q).1 = quantAt (sortData r).data (sortData r).data.length q := by simp [resQuantile, hq, quantAt]
  rw [e0, h1, h2]
  cases hs : s.sorted with
  | true =>
    have h3 : sortData r = r := by simp [sortData, h.sorted, hs]
    rw [h3]
    refine ⟨{ s with reads := s.reads ++ [(q, s.calls, quantAt r.data r.data.length q)] }, ?_, rfl, rfl, rfl,
      ⟨h.data, h.sorted, h.base, h.cap⟩⟩
    refine alone_go (hat _) { s with pcs := s.pcs.set t (.take q) } (by simp only [go, Sys.to, List.set_set, hs, if_true]) ?_
    refine alone_go (hat _) { s with pcs := s.pcs.set t (.size q s.data) } (by simp only [go, Sys.to, List.set_set]) ?_
    refine alone_go (hat _) { s with pcs := s.pcs.set t (.item q s.data (s.arr s.data).length) }
      (by simp only [go, Sys.to, List.set_set]) ?_
    refine alone_go (hat _) _ rfl ⟨0, ?_⟩
    simp only [List.replicate_zero, run, List.foldl_nil, go, Sys.to, List.set_set, e1, h.data]
  | false =>
    have h3 : sortData r = { r with data := ascending (s.arr s.data), isSorted := true } := by
      simp [sortData, h.sorted, hs, ascending, h.data]
    rw [h3]
    refine ⟨{ s with arr := fun b => if b = s.next then ascending (s.arr s.data) else s.arr b, next := s.next + 1, data := s.next, sorted := true, reads := s.reads ++ [(q, s.calls, quantAt (ascending (s.arr s.data)) (ascending (s.arr s.data)).length q)] },
      ?_, rfl, rfl, rfl, ⟨by simp, rfl, h.base, h.cap⟩⟩
    refine alone_go (hat _) { s with pcs := s.pcs.set t (.copy q) }
      (by simp only [go, Sys.to, List.set_set, hs, Bool.false_eq_true, if_false]) ?_
    refine alone_go (hat _) { s with pcs := s.pcs.set t (.put q s.next), arr := fun b => if b = s.next then ascending (s.arr s.data) else s.arr b, next := s.next + 1 }
      (by simp only [go, Sys.to, List.set_set]) ?_
    refine alone_go (hat _) { s with pcs := s.pcs.set t (.mark q), arr := fun b => if b = s.next then ascending (s.arr s.data) else s.arr b, next := s.next + 1, data := s.next }
      (by simp only [go, Sys.to, List.set_set]) ?_
    refine alone_go (hat _) { s with pcs := s.pcs.set t (.take q), arr := fun b => if b = s.next then ascending (s.arr s.data) else s.arr b, next := s.next + 1, data := s.next, sorted := true }
      (by simp only [go, Sys.to, List.set_set]) ?_
    refine alone_go (hat _) { s with pcs := s.pcs.set t (.size q s.next), arr := fun b => if b = s.next then ascending (s.arr s.data) else s.arr b, next := s.next + 1, data := s.next, sorted := true }
      (by simp only [go, Sys.to, List.set_set]) ?_
    refine alone_go (hat _) { s with pcs := s.pcs.set t (.item q s.next (ascending (s.arr s.data)).length), arr := fun b => if b = s.next then ascending (s.arr s.data) else s.arr b, next := s.next + 1, data := s.next, sorted := true }
      (by simp only [go, Sys.to, List.set_set, if_true]) ?_
    refine alone_go (hat _) _ rfl ⟨0, ?_⟩
    simp only [List.replicate_zero, run, List.foldl_nil, go, Sys.to, List.set_set, e1, if_true]

/-- The hypotheses can be met: a new accumulator, then one with a value. -/
example : ∃ (s : Sys ℚ) (r : Res ℚ), s.pcs[1]? = some .idle ∧ s.calls = [3] ∧ Rep s r := by
  obtain ⟨s', r', -, -, h1, h2, -, h3⟩ := C114_add_sequential (store := id) (init 2) (resInit none) 1 rfl (3 : ℚ) 0 (rep_init 2)
  exact ⟨s', r', by rw [h1]; rfl, h2, h3⟩

end Verif.ResConc
