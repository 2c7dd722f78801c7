import Verif.Props.P2Conc
import Verif.Model.P2
import Mathlib.Algebra.Order.Field.Rat
import Mathlib.Data.Rat.Floor
/-!
# C117: one thread alone uses a P2 accumulator as the sequential model says
-/
namespace Verif.P2Conc

open Verif.Quant (resAdd resQuantile sortData Res)

variable {K : Type} [Field K] [LinearOrder K] [IsStrictOrderedRing K] [FloorRing K]

/-- Steps of thread `t` alone lead from `s` to `s'`. -/
def Alone (points : Nat) (t : Tid) (s s' : Sys K) : Prop := ∃ n, run points s (List.replicate n (t, .go)) = s'

/-- The accumulator of `s` is the sequential one `a`: its estimator is the one made from the values `s` knows it by, or neither has an
estimator and the temporary accumulators have the same values. -/
structure Rep (pts : List K) (s : Sys K) (a : P2.Acc K) : Prop where
  points : a.points = pts
  some : ∀ l, s.est = some l → pts.length + 2 ≤ l.length ∧ s.gone = true ∧ ∃ ms, P2.make pts l = some ms ∧ a.est = some ms
  none : s.est = none → s.gone = false ∧ a.est = none ∧ a.tmp.data = s.tmp ∧ a.tmp.base.count = s.tmp.length ∧ a.tmp.cap = none ∧
    (a.tmp.isSorted = true → s.tmp.Pairwise (· ≤ ·))

/-- A new accumulator. -/
theorem rep_init (pts : List K) (n : Nat) : Rep pts (init n) (P2.accInit pts) :=
  ⟨rfl, by simp [init], fun _ => ⟨rfl, rfl, rfl, rfl, rfl, fun _ => by simp [init]⟩⟩

omit [IsStrictOrderedRing K] [FloorRing K] in
theorem alone_go {points : Nat} {t : Tid} {s : Sys K} {p : PC K} (hp : s.pcs[t]? = some p) {s' : Sys K}
    (s1 : Sys K) (hg : go points s t p = s1) (h : Alone points t s1 s') : Alone points t s s' := by
  subst hg
  obtain ⟨n, h⟩ := h
  refine ⟨n + 1, ?_⟩
  rw [List.replicate_succ, run, List.foldl_cons]
  simpa [step, hp, run] using h

omit [IsStrictOrderedRing K] [FloorRing K] in
theorem alone_refl {points : Nat} {t : Tid} (s : Sys K) : Alone points t s s := ⟨0, rfl⟩

theorem make_snoc (pts l : List K) (v : K) (ms : List (P2.Marker K)) (hl : pts.length + 2 ≤ l.length) (h : P2.make pts l = some ms) :
    P2.make pts (l ++ [v]) = P2.add ms v := by
  have hall : ∀ (vs : List K) (m0 : List (P2.Marker K)), P2.addAll m0 (vs ++ [v]) = (P2.addAll m0 vs).bind fun m => P2.add m v := by
    intro vs
    induction vs with
    | nil => intro m0; simp [P2.addAll, Option.bind_eq_bind]
    | cons x vs ih =>
      intro m0
      simp only [List.cons_append, P2.addAll, Option.bind_eq_bind]
      cases P2.add m0 x with
      | none => rfl
      | some m1 => simp [ih]
  have hlen : (0 :: pts ++ [(1 : K)]).length = pts.length + 2 := by simp
  unfold P2.make at h ⊢
  simp only [hlen] at h ⊢
  rw [if_neg (by omega)] at h
  rw [if_neg (by simp; omega)]
  have e1 : P2.initial (0 :: pts ++ [1]) (l ++ [v]) = P2.initial (0 :: pts ++ [1]) l := by
    unfold P2.initial
    rw [hlen, List.take_append_of_le_length hl]
  rw [e1, List.drop_append_of_le_length hl, hall, h]
  rfl

/-- **C117**, one thread alone: `add` is that of the sequential model. -/
theorem C117_add_sequential (pts : List K) (s : Sys K) (a a' : P2.Acc K) (t : Tid) (hp : s.pcs[t]? = some .idle) (v : K)
    (h : Rep pts s a) (ha : P2.accAdd id a v = some a') :
    ∃ s', Alone pts.length t (step pts.length s t (.add v)) s' ∧ s'.pcs = s.pcs ∧ s'.calls = s.calls ++ [v] ∧ s'.failed = s.failed ∧
      s'.reads = s.reads ∧ Rep pts s' a' := by
  obtain ⟨ht, hp'⟩ := List.getElem?_eq_some_iff.1 hp
  have e1 : s.pcs.set t .idle = s.pcs := by rw [← hp']; exact List.set_getElem_self ht
  have e0 : step pts.length s t (.add v) = { s.to t (.look v) with calls := s.calls ++ [v] } := by simp [step, hp, call]
  rw [e0]
  have hat : ∀ (q : PC K), (s.pcs.set t q)[t]? = some q := fun q => by simp [ht]
  have e2 : ({ s.to t (.look v) with calls := s.calls ++ [v] } : Sys K) = { s with calls := s.calls ++ [v], pcs := s.pcs.set t (.look v) } := rfl
  rw [e2]
  cases he : s.est with
  | some l =>
    obtain ⟨hl, hg, ms, hm, hae⟩ := h.some l he
    rw [P2.accAdd, hae] at ha
    dsimp only at ha
    obtain ⟨ms', hms', rfl⟩ := Option.map_eq_some_iff.1 ha
    refine ⟨{ s with calls := s.calls ++ [v], est := some (l ++ [v]), fed := s.fed ++ [v] }, ?_, rfl, rfl, rfl, rfl, h.points, ?_, by simp⟩
    · refine alone_go (hat _) { s with calls := s.calls ++ [v], pcs := s.pcs.set t (.feed v) } (by simp [go, Sys.to, he]) ?_
      refine alone_go (hat _) _ rfl ⟨0, ?_⟩
      simp [run, go, Sys.to, he, e1]
    · intro l' hl'
      simp only [Option.some.injEq] at hl'
      subst hl'
      exact ⟨by simp; omega, hg, ms', by rw [make_snoc pts l v ms hl hm, hms'], rfl⟩
  | none =>
    obtain ⟨hg, hae, hd, hc, hcap, hs⟩ := h.none he
    rw [P2.accAdd, hae] at ha
    have hr : resAdd id a.tmp v 0 = .ok { a.tmp with data := a.tmp.data ++ [v], isSorted := false, base := Quant.baseAdd a.tmp.base v } := by
      simp [resAdd, hcap, Quant.below]
    rw [hr] at ha
    dsimp only at ha
    have hcount : (Quant.baseAdd a.tmp.base v).count = (s.tmp ++ [v]).length := by simp [Quant.baseAdd, hc]
    rw [hcount, h.points] at ha
    by_cases hth : (s.tmp ++ [v]).length ≥ pts.length + 2
    · rw [if_pos hth, hd] at ha
      obtain ⟨ms, hms, rfl⟩ := Option.map_eq_some_iff.1 ha
      refine ⟨{ s with calls := s.calls ++ [v], tmp := s.tmp ++ [v], est := some (s.tmp ++ [v]), gone := true }, ?_, rfl, rfl, rfl, rfl,
        rfl, ?_, by simp⟩
      · refine alone_go (hat _) { s with calls := s.calls ++ [v], pcs := s.pcs.set t (.temp v) } (by simp [go, Sys.to, he]) ?_
        refine alone_go (hat _) { s with calls := s.calls ++ [v], pcs := s.pcs.set t (.tadd v true) } (by simp [go, Sys.to, hg]) ?_
        refine alone_go (hat _) { s with calls := s.calls ++ [v], pcs := s.pcs.set t .test, tmp := s.tmp ++ [v] } (by simp [go, Sys.to]) ?_
        refine alone_go (hat _) { s with calls := s.calls ++ [v], pcs := s.pcs.set t .build, tmp := s.tmp ++ [v] }
          (by simp only [go, Sys.to, if_pos hth, List.set_set]) ?_
        refine alone_go (hat _) { s with calls := s.calls ++ [v], pcs := s.pcs.set t (.put (s.tmp ++ [v])), tmp := s.tmp ++ [v] }
          (by simp only [go, Sys.to, List.set_set]) ?_
        refine alone_go (hat _)
          { s with calls := s.calls ++ [v], pcs := s.pcs.set t .drop, tmp := s.tmp ++ [v], est := some (s.tmp ++ [v]) }
          (by simp only [go, Sys.to, List.set_set]) ?_
        refine alone_go (hat _) _ rfl ⟨0, ?_⟩
        simp only [List.replicate_zero, run, List.foldl_nil, go, Sys.to, List.set_set, e1]
      · intro l' hl'
        simp only [Option.some.injEq] at hl'
        subst hl'
        exact ⟨hth, rfl, ms, hms, rfl⟩
    · rw [if_neg hth] at ha
      simp only [Option.some.injEq] at ha
      subst ha
      refine ⟨{ s with calls := s.calls ++ [v], tmp := s.tmp ++ [v] }, ?_, rfl, rfl, rfl, rfl, rfl, by simp [he], ?_⟩
      · refine alone_go (hat _) { s with calls := s.calls ++ [v], pcs := s.pcs.set t (.temp v) } (by simp [go, Sys.to, he]) ?_
        refine alone_go (hat _) { s with calls := s.calls ++ [v], pcs := s.pcs.set t (.tadd v true) } (by simp [go, Sys.to, hg]) ?_
        refine alone_go (hat _) { s with calls := s.calls ++ [v], pcs := s.pcs.set t .test, tmp := s.tmp ++ [v] } (by simp [go, Sys.to]) ?_
        refine alone_go (hat _) _ rfl ⟨0, ?_⟩
        simp only [List.replicate_zero, run, List.foldl_nil, go, Sys.to, List.set_set, if_neg hth, e1]
      · intro _
        exact ⟨hg, rfl, by simp [hd], hcount, hcap, by simp⟩

/-- What is read from an accumulator that knows the values `l`: before there is an estimator the quantile of those values, then that of
the estimator made from them. -/
def readFrom (pts : List K) (l : List K) (estimator : Bool) (q : K) : Except Quant.Exc K :=
  if estimator then
    match P2.make pts l with
    | some ms => match P2.getQuantile ms q with | some v => .ok v | none => .error .value
    | none => .error .value
  else (resQuantile ⟨Quant.baseInit, l, false, none⟩ q).1

/-- **C117**, one thread alone: `_get_quantile` is that of the sequential model. -/
theorem C117_read_sequential (pts : List K) (s : Sys K) (a : P2.Acc K) (t : Tid) (hp : s.pcs[t]? = some .idle) (q : K)
    (hq : 0 < q ∧ q < 1) (h : Rep pts s a) :
    ∃ s' l, Alone pts.length t (step pts.length s t .read) s' ∧ s'.pcs = s.pcs ∧ s'.calls = s.calls ∧ s'.failed = s.failed ∧
      s'.reads = s.reads ++ [some l] ∧ (P2.accQuantile a q).1 = readFrom pts l s.est.isSome q ∧ Rep pts s' (P2.accQuantile a q).2 := by
  obtain ⟨ht, hp'⟩ := List.getElem?_eq_some_iff.1 hp
  have e1 : s.pcs.set t .idle = s.pcs := by rw [← hp']; exact List.set_getElem_self ht
  have e0 : step pts.length s t .read = s.to t .ask := by simp [step, hp, call]
  rw [e0]
  have hat : ∀ (q : PC K), (s.pcs.set t q)[t]? = some q := fun q => by simp [ht]
  cases he : s.est with
  | some l =>
    obtain ⟨hl, hg, ms, hm, hae⟩ := h.some l he
    refine ⟨{ s with reads := s.reads ++ [some l] }, l, ?_, rfl, rfl, rfl, rfl, ?_, ?_⟩
    · refine alone_go (hat _) _ rfl ⟨0, ?_⟩
      simp [run, go, Sys.to, he, e1]
    · simp only [P2.accQuantile, hae, readFrom, Option.isSome_some, if_true, hm]
      cases P2.getQuantile ms q <;> rfl
    · have : (P2.accQuantile a q).2 = a := by
        simp only [P2.accQuantile, hae]
        cases P2.getQuantile ms q <;> rfl
      rw [this]
      exact ⟨h.points, h.some, h.none⟩
  | none =>
    obtain ⟨hg, hae, hd, hc, hcap, hs⟩ := h.none he
    have hsort : (sortData a.tmp).data = ascending s.tmp := by
      unfold sortData
      split
      · rename_i hi
        rw [hd]
        exact (List.mergeSort_of_pairwise (by simpa using hs hi)).symm
      · simp [hd, ascending]
    refine ⟨{ s with tmp := ascending s.tmp, reads := s.reads ++ [some s.tmp] }, s.tmp, ?_, rfl, rfl, rfl, rfl, ?_, ?_⟩
    · refine alone_go (hat _) { s with pcs := s.pcs.set t .askTemp } (by simp [go, Sys.to, he]) ?_
      refine alone_go (hat _) _ rfl ⟨0, ?_⟩
      simp [run, go, Sys.to, he, hg, e1]
    · have hrhs : (sortData (⟨Quant.baseInit, s.tmp, false, none⟩ : Res K)).data = ascending s.tmp := by simp [sortData, ascending]
      simp only [P2.accQuantile, hae, readFrom, resQuantile, hq, and_self, not_true, if_false, hsort, hrhs, Option.isSome_none,
        Bool.false_eq_true]
    · have h2 : (resQuantile a.tmp q).2 = sortData a.tmp := by simp [resQuantile, hq]
      have h3 : (sortData a.tmp).base = a.tmp.base ∧ (sortData a.tmp).cap = a.tmp.cap := by
        unfold sortData; split <;> simp
      refine ⟨?_, by simp [he], fun _ => ?_⟩
      · simp only [P2.accQuantile, hae]; exact h.points
      · simp only [P2.accQuantile, hae, h2]
        refine ⟨hg, trivial, hsort, ?_, by rw [h3.2, hcap], fun _ => ?_⟩
        · rw [h3.1, hc]; simp [ascending]
        · simpa [ascending] using List.pairwise_mergeSort (l := s.tmp) (le := fun x y => decide (x ≤ y))
            (fun a b c => by simpa using le_trans) (fun a b => by simpa using le_total a b)

/-- The hypotheses can be met. -/
example : Rep [1/2] (init 2) (P2.accInit [(1/2 : ℚ)]) ∧ (init 2 : Sys ℚ).pcs[1]? = some .idle ∧
    ∃ a', P2.accAdd id (P2.accInit [(1/2 : ℚ)]) 3 = some a' :=
  ⟨rep_init _ 2, rfl, by simp [P2.accAdd, P2.accInit, resAdd, Quant.resInit, Quant.below, Quant.baseAdd, Quant.baseInit]⟩

end Verif.P2Conc
