import Verif.Model.P2Sink
import Verif.Props.P2
import Verif.Props.SinkTables
/-!
# C139: a QuantileSink with P2 can be shown at any time
-/
namespace Verif.P2Sink

open Verif.Dct Verif.Quant Verif.P2
open scoped List

variable {K : Type} [Field K] [LinearOrder K] [IsStrictOrderedRing K] [FloorRing K]

/-! ## Specification -/

/-- The values of the actions called `n` of loggers called `l`. -/
def values (ops : List (Op K)) (l n : String) : List K :=
  ops.filterMap fun o => match o with | .end_ l' n' v => if l' = l ∧ n' = n then some v else none | _ => none

/-- The full claim: whatever has happened, `to_dict` and `repr` return. -/
def Shown : Prop :=
  ∀ (K : Type) [Field K] [LinearOrder K] [IsStrictOrderedRing K] [FloorRing K] (store : K → K) (points : List K)
    (_ : ∀ p ∈ points, 0 < p ∧ p < 1) (_ : points.Pairwise (· < ·)) (_ : points ≠ []) (ops : List (Op K)),
    (∃ d, (toDict (run store points ops)).1 = .ok d) ∧ ∃ d, (repr (run store points ops)).1 = .ok d

/-! ## One accumulator -/

/-- Quantiles that can be read after `vals`. -/
def Readable (points vals : List K) (q : K) : Prop :=
  (vals.length < points.length + 2 ∧ 0 < q ∧ q < 1) ∨ (points.length + 2 ≤ vals.length ∧ (q = 0 ∨ q ∈ points ∨ q = 1))

theorem acc_read {store : K → K} {points vals : List K} {a : Acc K} (h : AccOk store points vals a) (hne : vals ≠ []) (q : K) :
    (Readable points vals q → ∃ v, (accQuantile a q).1 = .ok v) ∧ (¬ Readable points vals q → (accQuantile a q).1 = .error .value) := by
  by_cases hk : vals.length < points.length + 2
  · obtain ⟨he, hi⟩ := h.collecting hk
    obtain ⟨_, hlen⟩ := hi.none_len rfl
    have hr : Readable points vals q ↔ 0 < q ∧ q < 1 := by
      unfold Readable
      constructor
      · rintro (h | h)
        · exact h.2
        · omega
      · exact fun h => .inl ⟨hk, h⟩
    rw [hr]
    constructor
    · rintro ⟨h0, h1⟩
      obtain ⟨v, hv, -⟩ := quantile_interp a.tmp q hi.isSorted
        (by intro e; rw [e] at hlen; exact hne (List.length_eq_zero_iff.1 hlen.symm)) h0 h1
      exact ⟨v, by simp [accQuantile, he, hv]⟩
    · intro hn
      simp only [accQuantile, he, resQuantile]
      rw [if_pos hn]
  · obtain ⟨ms, d, he, hd, hok⟩ := h.estimating (by omega)
    have hr : Readable points vals q ↔ (getQuantile ms q).isSome := by
      have h1 : Readable points vals q ↔ (q = 0 ∨ q ∈ points ∨ q = 1) := by
        unfold Readable
        constructor
        · rintro (h | h)
          · exact absurd h.1 hk
          · exact h.2
        · exact fun h => .inr ⟨by omega, h⟩
      have : (q = 0 ∨ q ∈ points ∨ q = 1) ↔ q ∈ ms.map (·.q) := by rw [hok.points]; simp
      rw [h1, this]
      simp [getQuantile, Option.isSome_map, List.find?_isSome]
    rw [hr]
    unfold accQuantile
    simp only [he]
    constructor
    · intro h
      obtain ⟨v, hv⟩ := Option.isSome_iff_exists.1 h
      exact ⟨v, by simp [hv]⟩
    · intro h
      have : getQuantile ms q = none := by simpa using h
      simp [this]

theorem read_base (a : Acc K) (q : K) : (accQuantile a q).2.base = a.base ∧ (accQuantile a q).2.points = a.points := by
  unfold accQuantile
  split
  · split <;> exact ⟨rfl, rfl⟩
  · exact ⟨rfl, rfl⟩

/-- `a` is what has become of a fresh accumulator that was given `vals`, and read any number of times. -/
def Hist (store : K → K) (points vals : List K) (a : Acc K) : Prop :=
  ∃ ops, accRun store (accInit points) ops = some a ∧ accAdded ops = vals

theorem Hist.ok {store : K → K} {points vals : List K} {a : Acc K} (h : Hist store points vals a) : AccOk store points vals a := by
  obtain ⟨ops, h1, rfl⟩ := h
  obtain ⟨a', h2, h3⟩ := accOk_run store points ops
  rw [h1] at h2; cases h2; exact h3

theorem accRun_append (store : K → K) (a : Acc K) (o1 o2 : List (AccOp K)) :
    accRun store a (o1 ++ o2) = (accRun store a o1).bind fun b => accRun store b o2 := by
  induction o1 generalizing a with
  | nil => rfl
  | cons o o1 ih =>
    cases o with
    | add v =>
      simp only [List.cons_append, accRun]
      cases accAdd store a v with
      | none => rfl
      | some b => exact ih b
    | read q => exact ih _

theorem accAdded_append (o1 o2 : List (AccOp K)) : accAdded (o1 ++ o2) = accAdded o1 ++ accAdded o2 := by
  induction o1 with
  | nil => rfl
  | cons o o1 ih => cases o <;> simp [accAdded, ih]

theorem hist_init (store : K → K) (points : List K) : Hist store points [] (accInit points) := ⟨[], rfl, rfl⟩

theorem hist_read {store : K → K} {points vals : List K} {a : Acc K} (h : Hist store points vals a) (q : K) :
    Hist store points vals (accQuantile a q).2 := by
  obtain ⟨ops, h1, rfl⟩ := h
  exact ⟨ops ++ [.read q], by rw [accRun_append, h1]; rfl, by simp [accAdded_append, accAdded]⟩

theorem hist_add {store : K → K} {points vals : List K} {a : Acc K} (h : Hist store points vals a) (v : K) :
    ∃ b, accAdd store a v = some b ∧ Hist store points (vals ++ [v]) b := by
  obtain ⟨b, hb, -⟩ := accOk_add h.ok v
  obtain ⟨ops, h1, rfl⟩ := h
  exact ⟨b, hb, ops ++ [.add v], by rw [accRun_append, h1]; simp [accRun, hb], by simp [accAdded_append, accAdded]⟩

/-- Reading does not change what is read. -/
theorem read_read (a : Acc K) (q q' : K) : (accQuantile (accQuantile a q).2 q').1 = (accQuantile a q').1 := by
  cases he : a.est with
  | some ms =>
    have : (accQuantile a q).2 = a := by
      simp only [accQuantile, he]
      split <;> rfl
    rw [this]
  | none =>
    have hs : ∀ r : Res K, (resQuantile (sortData r) q').1 = (resQuantile r q').1 := by
      intro r
      have : sortData (sortData r) = sortData r := by
        unfold sortData; split <;> simp_all
      unfold resQuantile
      split
      · rfl
      · simp only [this]
    have hr : (resQuantile a.tmp q).2 = a.tmp ∨ (resQuantile a.tmp q).2 = sortData a.tmp := by
      unfold resQuantile
      split
      · exact .inl rfl
      · exact .inr rfl
    have e : ∀ b : Acc K, b.est = none → (accQuantile b q').1 = (resQuantile b.tmp q').1 := by
      intro b hb; simp [accQuantile, hb]
    have h2 : (accQuantile a q).2 = { a with tmp := (resQuantile a.tmp q).2 } := by simp [accQuantile, he]
    rw [e a he, e _ (by rw [h2]; exact he), h2]
    rcases hr with h | h <;> rw [h]
    exact hs _

theorem readAll_ok {store : K → K} {points vals : List K} (hne : vals ≠ []) (qs : List K) {a : Acc K} (h : Hist store points vals a) :
    Hist store points vals (readAll a qs).2 ∧ (readAll a qs).2.base = a.base ∧ (readAll a qs).2.points = a.points ∧
    ((∀ q ∈ qs, Readable points vals q) → ∃ vs, (readAll a qs).1 = .ok vs ∧
      List.Forall₂ (fun q v => (accQuantile a q).1 = .ok v) qs vs) ∧
    (∀ q', (accQuantile (readAll a qs).2 q').1 = (accQuantile a q').1) ∧
    (¬ (∀ q ∈ qs, Readable points vals q) → (readAll a qs).1 = .error .value) := by
  induction qs generalizing a with
  | nil => exact ⟨h, rfl, rfl, fun _ => ⟨[], rfl, .nil⟩, fun _ => rfl, fun hn => absurd (by simp) hn⟩
  | cons q qs ih =>
    obtain ⟨h1, h2⟩ := acc_read h.ok hne q
    have h3 := hist_read h q
    have h4 := read_base a q
    by_cases hq : Readable points vals q
    · obtain ⟨v, hv⟩ := h1 hq
      have e : accQuantile a q = (.ok v, (accQuantile a q).2) := by rw [← hv]
      obtain ⟨i1, i2, i3, i4, i6, i5⟩ := ih h3
      have i7 : ∀ q', (accQuantile (readAll (accQuantile a q).2 qs).2 q').1 = (accQuantile a q').1 :=
        fun q' => (i6 q').trans (read_read a q q')
      rw [readAll, e]
      dsimp only
      by_cases hall : ∀ x ∈ qs, Readable points vals x
      · obtain ⟨vs, hvs, hlen⟩ := i4 hall
        have e2 : readAll (accQuantile a q).2 qs = (.ok vs, (readAll (accQuantile a q).2 qs).2) := by rw [← hvs]
        rw [e2]
        refine ⟨i1, i2.trans h4.1, i3.trans h4.2, fun _ => ⟨_, rfl, .cons hv (hlen.imp fun x y hxy => (read_read a q x).symm.trans hxy)⟩, i7,
          fun hn => absurd ?_ hn⟩
        intro x hx
        rcases List.mem_cons.1 hx with rfl | hx
        · exact hq
        · exact hall x hx
      · have e2 : readAll (accQuantile a q).2 qs = (.error .value, (readAll (accQuantile a q).2 qs).2) := by rw [← i5 hall]
        rw [e2]
        exact ⟨i1, i2.trans h4.1, i3.trans h4.2, fun hn => absurd (fun x hx => hn x (by simp [hx])) hall, i7, fun _ => rfl⟩
    · have e : accQuantile a q = (.error .value, (accQuantile a q).2) := by rw [← h2 hq]
      rw [readAll, e]
      exact ⟨h3, h4.1, h4.2, fun hn => absurd (hn q (by simp)) hq, read_read a q, fun _ => rfl⟩

/-- The quartiles can be read. -/
def Quartiles (points vals : List K) : Prop :=
  vals.length < points.length + 2 ∨ ((1 / 4 : K) ∈ points ∧ (1 / 2 : K) ∈ points ∧ (3 / 4 : K) ∈ points)

theorem quarters : (0 : K) < 1 / 4 ∧ (1 / 4 : K) < 1 ∧ (0 : K) < 1 / 2 ∧ (1 / 2 : K) < 1 ∧ (0 : K) < 3 / 4 ∧ (3 / 4 : K) < 1 := by
  refine ⟨?_, ?_, ?_, ?_, ?_, ?_⟩ <;> norm_num

theorem readable_mid {points vals : List K} {q : K} (h0 : 0 < q) (h1 : q < 1) :
    Readable points vals q ↔ vals.length < points.length + 2 ∨ q ∈ points := by
  unfold Readable
  constructor
  · rintro (h | ⟨-, rfl | h | rfl⟩)
    · exact .inl h.1
    · exact absurd h0 (lt_irrefl _)
    · exact .inr h
    · exact absurd h1 (lt_irrefl _)
  · rintro (h | h)
    · exact .inl ⟨h, h0, h1⟩
    · by_cases hk : vals.length < points.length + 2
      · exact .inl ⟨hk, h0, h1⟩
      · exact .inr ⟨by omega, .inr (.inl h)⟩

theorem readable_quartiles (points vals : List K) :
    (∀ q ∈ [(1 / 4 : K), 1 / 2, 3 / 4], Readable points vals q) ↔ Quartiles points vals := by
  obtain ⟨a1, a2, b1, b2, c1, c2⟩ := quarters (K := K)
  simp only [List.mem_cons, List.not_mem_nil, or_false, forall_eq_or_imp, forall_eq, readable_mid a1 a2, readable_mid b1 b2,
    readable_mid c1 c2, Quartiles]
  tauto

/-- What an entry shows of an accumulator with `len` values: a trimean from its quartiles, and its quantiles. -/
def Tells (points : List K) (len : Nat) (a : Acc K) (r : Nat × K × List (K × Accum.Ext K)) : Prop :=
  r.1 = len - (points.length + 2) ∧
  (∃ x y z, (accQuantile a (1 / 4)).1 = .ok x ∧ (accQuantile a (1 / 2)).1 = .ok y ∧ (accQuantile a (3 / 4)).1 = .ok z ∧
    r.2.1 = (x + 2 * y + z) / 4) ∧
  ∃ vs : List K, List.Forall₂ (fun q v => (accQuantile a q).1 = .ok v) points vs ∧
    r.2.2 = (0, a.base.min) :: (points.zip vs).map (fun p => (p.1, (p.2 : Accum.Ext K))) ++ [(1, a.base.max)]

/-- What an entry shows. -/
theorem entry_spec {store : K → K} {points vals : List K} (hp : ∀ p ∈ points, 0 < p ∧ p < 1) (hne : vals ≠ []) {a : Acc K}
    (h : Hist store points vals a) :
    Hist store points vals (entry a).2 ∧
    (Quartiles points vals → ∃ r, (entry a).1 = .ok r ∧ Tells points vals.length a r) ∧
    (¬ Quartiles points vals → (entry a).1 = .error .value) := by
  obtain ⟨h1, h2, h3, h4, h6, h5⟩ := readAll_ok hne [(1 / 4 : K), 1 / 2, 3 / 4] h
  rw [readable_quartiles] at h4 h5
  by_cases hq : Quartiles points vals
  · obtain ⟨vs, hvs, hlen⟩ := h4 hq
    obtain ⟨x, y, z, rfl, hx, hy, hz⟩ : ∃ x y z, vs = [x, y, z] ∧ (accQuantile a (1 / 4)).1 = .ok x ∧ (accQuantile a (1 / 2)).1 = .ok y ∧
        (accQuantile a (3 / 4)).1 = .ok z := by
      cases hlen with
      | cons hx h => cases h with
        | cons hy h => cases h with
          | cons hz h => cases h; exact ⟨_, _, _, rfl, hx, hy, hz⟩
    have e : readAll a [(1 / 4 : K), 1 / 2, 3 / 4] = (.ok [x, y, z], (readAll a [(1 / 4 : K), 1 / 2, 3 / 4]).2) := by rw [← hvs]
    generalize hb : (readAll a [(1 / 4 : K), 1 / 2, 3 / 4]).2 = b at *
    obtain ⟨i1, i2, i3, i4, -, -⟩ := readAll_ok hne b.points h1
    have hpts : b.points = points := h1.ok.points_eq
    have hall : ∀ q ∈ b.points, Readable points vals q := by
      rw [hpts]; exact fun q hq => (readable_mid (hp q hq).1 (hp q hq).2).2 (.inr hq)
    obtain ⟨ws, hws, hwl⟩ := i4 hall
    have e2 : readAll b b.points = (.ok ws, (readAll b b.points).2) := by rw [← hws]
    have e3 : entry a = (.ok (a.base.count, (x + 2 * y + z) / 4, (0, b.base.min) ::
        (b.points.zip ws).map (fun p => (p.1, (p.2 : Accum.Ext K))) ++ [(1, b.base.max)]), (readAll b b.points).2) := by
      simp only [entry, trimean, e, quantiles]
      rw [e2]
    rw [e3]
    refine ⟨i1, fun _ => ⟨_, rfl, h.ok.count, ⟨x, y, z, hx, hy, hz, rfl⟩, ws, ?_, by rw [h2, hpts]⟩, fun hn => absurd hq hn⟩
    rw [hpts] at hwl
    exact hwl.imp fun q v hqv => (h6 q).symm.trans hqv
  · have e : readAll a [(1 / 4 : K), 1 / 2, 3 / 4] = (.error .value, (readAll a [(1 / 4 : K), 1 / 2, 3 / 4]).2) := by rw [← h5 hq]
    have e3 : entry a = (.error .value, (readAll a [(1 / 4 : K), 1 / 2, 3 / 4]).2) := by
      simp only [entry, trimean]
      rw [e]
    rw [e3]
    exact ⟨h1, fun h => absurd h hq, fun _ => rfl⟩

/-- What an entry of `repr` shows. -/
theorem brief_spec {store : K → K} {points vals : List K} (hne : vals ≠ []) {a : Acc K} (h : Hist store points vals a) :
    Hist store points vals (brief a).2 ∧
    (vals.length < points.length + 2 ∨ (1 / 2 : K) ∈ points → ∃ m, (accQuantile a (1 / 2)).1 = .ok m ∧
      (brief a).1 = .ok (vals.length - (points.length + 2), m)) ∧
    (¬ (vals.length < points.length + 2 ∨ (1 / 2 : K) ∈ points) → (brief a).1 = .error .value) := by
  have hm := readable_mid (points := points) (vals := vals) (quarters (K := K)).2.2.1 quarters.2.2.2.1
  obtain ⟨h1, h2⟩ := acc_read h.ok hne (1 / 2)
  have h3 := hist_read h (1 / 2 : K)
  rw [hm] at h1 h2
  by_cases hq : vals.length < points.length + 2 ∨ (1 / 2 : K) ∈ points
  · obtain ⟨v, hv⟩ := h1 hq
    have e : accQuantile a (1 / 2) = (.ok v, (accQuantile a (1 / 2)).2) := by rw [← hv]
    have e2 : brief a = (.ok (a.base.count, v), (accQuantile a (1 / 2)).2) := by rw [brief, e]
    rw [e2]
    exact ⟨h3, fun _ => ⟨v, hv, by rw [h.ok.count]⟩, fun hn => absurd hq hn⟩
  · have e : accQuantile a (1 / 2) = (.error .value, (accQuantile a (1 / 2)).2) := by rw [← h2 hq]
    have e2 : brief a = (.error .value, (accQuantile a (1 / 2)).2) := by rw [brief, e]
    rw [e2]
    exact ⟨h3, fun h => absurd h hq, fun _ => rfl⟩

/-! ## Tables -/

section Map

variable {A R : Type} (f : A → Except Exc R × A)

theorem mapAcc_keys (d : Dict String A) : keys (mapAcc f d).2 = keys d := by
  induction d with
  | nil => rfl
  | cons p d ih =>
    obtain ⟨k, a⟩ := p
    rw [mapAcc]
    split
    · rfl
    · split
      · rename_i h; simp only [keys, List.map_cons] at ih ⊢; rw [← ih, h]
      · rename_i h; simp only [keys, List.map_cons] at ih ⊢; rw [← ih, h]

/-- Every value is left as it was or as reading it leaves it. -/
theorem mapAcc_get (d : Dict String A) (k : String) :
    (get? d k = none → get? (mapAcc f d).2 k = none) ∧
    ∀ a, get? d k = some a → get? (mapAcc f d).2 k = some a ∨ get? (mapAcc f d).2 k = some (f a).2 := by
  induction d with
  | nil => exact ⟨fun h => h, fun a h => by cases h⟩
  | cons p d ih =>
    obtain ⟨k', b⟩ := p
    have hne : ∀ d' : Dict String A, ∀ c, k' ≠ k → get? ((k', c) :: d') k = get? d' k := fun d' c h => by simp [get?, h]
    have heq : ∀ d' : Dict String A, ∀ c, k' = k → get? ((k', c) :: d') k = some c := fun d' c h => by simp [get?, h]
    by_cases hk : k' = k
    · rw [heq _ _ hk]
      refine ⟨by simp, fun a ha => .inr ?_⟩
      cases ha
      rw [mapAcc]
      split
      · rename_i h; rw [heq _ _ hk, h]
      · rename_i h
        split <;> (rw [heq _ _ hk, h])
    · rw [hne _ _ hk, mapAcc]
      split
      · rw [hne _ _ hk]; exact ⟨id, fun a h => .inl h⟩
      · split
        · rename_i h; rw [hne _ _ hk]; rw [h] at ih; exact ih
        · rename_i h; rw [hne _ _ hk]; rw [h] at ih; exact ih

/-- The loop returns if reading every value does; each entry is what reading its value gives. -/
theorem mapAcc_ok (d : Dict String A) (h : ∀ p ∈ d, ∃ r, (f p.2).1 = .ok r) :
    ∃ rs, (mapAcc f d).1 = .ok rs ∧ ∀ k, get? rs k = (get? d k).bind fun a => (f a).1.toOption := by
  induction d with
  | nil => exact ⟨[], rfl, fun _ => rfl⟩
  | cons p d ih =>
    obtain ⟨k', b⟩ := p
    obtain ⟨r, hr⟩ := h (k', b) (by simp)
    obtain ⟨rs, h1, h2⟩ := ih fun p hp => h p (by simp [hp])
    have e : f b = (.ok r, (f b).2) := by rw [← hr]
    have e2 : mapAcc f d = (.ok rs, (mapAcc f d).2) := by rw [← h1]
    refine ⟨(k', r) :: rs, by rw [mapAcc, e]; dsimp only; rw [e2], fun k => ?_⟩
    simp only [get?]
    split
    · simp only [Option.bind_some]
      rw [show (f b).1 = .ok r from hr]; rfl
    · exact h2 k

/-- It raises what reading a value raises first. -/
theorem mapAcc_error (d : Dict String A) (x : Exc) (h : ∀ p ∈ d, ∀ y, (f p.2).1 = .error y → y = x)
    (hex : ∃ p ∈ d, (f p.2).1 = .error x) : (mapAcc f d).1 = .error x := by
  induction d with
  | nil => obtain ⟨p, hp, -⟩ := hex; cases hp
  | cons p d ih =>
    obtain ⟨k', b⟩ := p
    rw [mapAcc]
    split
    · rename_i y _ e
      rw [h (k', b) (by simp) y (by rw [e])]
    · rename_i r _ e
      obtain ⟨q, hq, hqx⟩ := hex
      have hq' : q ∈ d := by
        rcases List.mem_cons.1 hq with rfl | hq
        · rw [e] at hqx; cases hqx
        · exact hq
      have := ih (fun p hp => h p (by simp [hp])) ⟨q, hq', hqx⟩
      split
      · rename_i e2; rw [e2] at this; exact this
      · rename_i e2; rw [e2] at this; cases this

end Map

/-- What holds of the table after `ops`. -/
structure TabOk (store : K → K) (points : List K) (ops : List (Op K)) (t : Table K) : Prop where
  nodup : (keys t).Nodup
  nodup2 : ∀ l d, get? t l = some d → (keys d).Nodup
  absent : ∀ l n, values ops l n = [] → ((get? t l).bind fun d => get? d n) = none
  present : ∀ l n, values ops l n ≠ [] → ∃ a, ((get? t l).bind fun d => get? d n) = some a ∧ Hist store points (values ops l n) a
  logger : ∀ l, (get? t l).isSome → ∃ n, values ops l n ≠ []

theorem values_snoc (ops : List (Op K)) (o : Op K) (l n : String) :
    values (ops ++ [o]) l n = values ops l n ++ values [o] l n := by simp [values]

/-- A loop over the table whose reads keep the accumulators in order keeps the table in order. -/
theorem tabOk_map {R : Type} {store : K → K} {points : List K} {ops : List (Op K)} {t : Table K} (h : TabOk store points ops t)
    (f : Acc K → Except Exc R × Acc K) (hf : ∀ vals a, vals ≠ [] → Hist store points vals a → Hist store points vals (f a).2) :
    TabOk store points ops (mapAcc (mapAcc f) t).2 := by
  have hcell : ∀ l n, (((get? t l).bind fun d => get? d n) = none → ((get? (mapAcc (mapAcc f) t).2 l).bind fun d => get? d n) = none) ∧
      ∀ a, ((get? t l).bind fun d => get? d n) = some a → ((get? (mapAcc (mapAcc f) t).2 l).bind fun d => get? d n) = some a ∨
        ((get? (mapAcc (mapAcc f) t).2 l).bind fun d => get? d n) = some (f a).2 := by
    intro l n
    have h1 := mapAcc_get (mapAcc f) t l
    cases hl : get? t l with
    | none => rw [h1.1 hl]; simp
    | some d =>
      have h2 := mapAcc_get f d n
      simp only [Option.bind_some]
      rcases h1.2 d hl with h3 | h3 <;> rw [h3] <;> simp only [Option.bind_some]
      · exact ⟨id, fun a ha => .inl ha⟩
      · exact h2
  refine ⟨by rw [mapAcc_keys]; exact h.nodup, ?_, ?_, ?_, ?_⟩
  · intro l d hd
    have h1 := mapAcc_get (mapAcc f) t l
    cases hl : get? t l with
    | none => rw [h1.1 hl] at hd; cases hd
    | some d' =>
      rcases h1.2 d' hl with h3 | h3
      · rw [h3] at hd; cases hd; exact h.nodup2 l _ hl
      · rw [h3] at hd; cases hd; rw [mapAcc_keys]; exact h.nodup2 l _ hl
  · intro l n hv
    exact (hcell l n).1 (h.absent l n hv)
  · intro l n hv
    obtain ⟨a, ha, hok⟩ := h.present l n hv
    rcases (hcell l n).2 a ha with h3 | h3
    · exact ⟨a, h3, hok⟩
    · exact ⟨_, h3, hf _ a hv hok⟩
  · intro l hl
    refine h.logger l ?_
    rw [get?_isSome] at hl ⊢
    rwa [mapAcc_keys] at hl

theorem tabOk_run (store : K → K) (points : List K) (hp : ∀ p ∈ points, 0 < p ∧ p < 1) (ops : List (Op K)) :
    TabOk store points ops (run store points ops) := by
  induction ops using List.reverseRecOn with
  | nil => exact ⟨by simp [run, keys], by simp [run, get?], by simp [run, get?], by simp [values], by simp [run, get?]⟩
  | append_singleton ops o ih =>
    have hrun : run store points (ops ++ [o]) = step store points (run store points ops) o := by simp [run]
    rw [hrun]
    generalize run store points ops = t at ih
    cases o with
    | toDict =>
      have hv : ∀ l n, values (ops ++ [.toDict]) l n = values ops l n := fun l n => by simp [values]
      obtain ⟨h1, h2, h3, h4, h5⟩ := tabOk_map ih entry fun vals a hne h => (entry_spec hp hne h).1
      exact ⟨h1, h2, by simp only [hv]; exact h3, by simp only [hv]; exact h4, by simp only [hv]; exact h5⟩
    | repr =>
      have hv : ∀ l n, values (ops ++ [.repr]) l n = values ops l n := fun l n => by simp [values]
      obtain ⟨h1, h2, h3, h4, h5⟩ := tabOk_map ih brief fun vals a hne h => (brief_spec hne h).1
      exact ⟨h1, h2, by simp only [hv]; exact h3, by simp only [hv]; exact h4, by simp only [hv]; exact h5⟩
    | end_ l n v =>
      have hv : ∀ l' n', values (ops ++ [.end_ l n v]) l' n' = values ops l' n' ++ if l = l' ∧ n = n' then [v] else [] := by
        intro l' n'
        rw [values_snoc]
        congr 1
        simp only [values, List.filterMap_cons, List.filterMap_nil]
        split <;> split <;> simp_all
      have hc := Sinks.cell2_onEnd (fun _ : Unit => l) (fun _ => n) (accInit points) (fun a (_ : Unit) => (accAdd store a v).getD a) t ()
      have hadd : ∃ a, ((accAdd store (((get? t l).bind fun d => get? d n).getD (accInit points)) v).getD
          (((get? t l).bind fun d => get? d n).getD (accInit points))) = a ∧ Hist store points (values ops l n ++ [v]) a := by
        refine ⟨_, rfl, ?_⟩
        by_cases hvn : values ops l n = []
        · rw [ih.absent l n hvn, hvn, Option.getD_none]
          obtain ⟨a', e, h⟩ := hist_add (hist_init store points) v
          rw [e]; exact h
        · obtain ⟨a, ha, hok⟩ := ih.present l n hvn
          rw [ha, Option.getD_some]
          obtain ⟨a', e, h⟩ := hist_add hok v
          rw [e]; exact h
      refine ⟨nodup_set ih.nodup _ _, ?_, ?_, ?_, ?_⟩
      · intro l' d hd
        simp only [step, Sinks.onEnd2, get?_upd] at hd
        split at hd
        · cases hd
          refine nodup_set ?_ _ _
          cases hg : get? t l with
          | none => simp [keys]
          | some d' => exact ih.nodup2 _ _ hg
        · exact ih.nodup2 _ _ hd
      · intro l' n' hvn
        rw [hv] at hvn
        have hx : ¬ (l = l' ∧ n = n') := by
          intro hx; rw [if_pos hx] at hvn; simp at hvn
        simp only [step]
        rw [hc, if_neg hx]
        rw [if_neg hx, List.append_nil] at hvn
        exact ih.absent l' n' hvn
      · intro l' n' hvn
        simp only [step]
        rw [hc]
        rw [hv] at hvn ⊢
        by_cases hx : l = l' ∧ n = n'
        · obtain ⟨rfl, rfl⟩ := hx
          rw [if_pos ⟨rfl, rfl⟩, if_pos ⟨rfl, rfl⟩]
          obtain ⟨a, ha, hok⟩ := hadd
          exact ⟨a, by rw [ha], hok⟩
        · rw [if_neg hx] at hvn ⊢
          rw [if_neg hx]
          rw [List.append_nil] at hvn ⊢
          exact ih.present l' n' hvn
      · intro l' hl'
        simp only [step, Sinks.onEnd2, get?_upd] at hl'
        split at hl'
        · rename_i e
          exact ⟨n, by rw [hv, e]; simp⟩
        · obtain ⟨n', hn'⟩ := ih.logger l' hl'
          exact ⟨n', by rw [hv]; simp [hn']⟩

/-- Every value in the table is an accumulator of the events with its labels. -/
theorem tabOk_mem {store : K → K} {points : List K} {ops : List (Op K)} {t : Table K} (h : TabOk store points ops t)
    {p : String × Dict String (Acc K)} (hp : p ∈ t) {q : String × Acc K} (hq : q ∈ p.2) :
    values ops p.1 q.1 ≠ [] ∧ Hist store points (values ops p.1 q.1) q.2 := by
  have h1 := get?_of_mem h.nodup (k := p.1) (v := p.2) hp
  have h2 := get?_of_mem (h.nodup2 _ _ h1) (k := q.1) (v := q.2) hq
  have h3 : ((get? t p.1).bind fun d => get? d q.1) = some q.2 := by rw [h1]; exact h2
  have hne : values ops p.1 q.1 ≠ [] := by
    intro e; rw [h.absent _ _ e] at h3; cases h3
  obtain ⟨a, ha, hok⟩ := h.present _ _ hne
  rw [h3] at ha; cases ha
  exact ⟨hne, hok⟩

/-- A loop over the table, given when reading an accumulator returns. -/
theorem table_map {R : Type} {store : K → K} {points : List K} {ops : List (Op K)} {t : Table K} (h : TabOk store points ops t)
    (f : Acc K → Except Exc R × Acc K) (ok : List K → Prop)
    (h1 : ∀ vals a, vals ≠ [] → Hist store points vals a → ok vals → ∃ r, (f a).1 = .ok r)
    (h2 : ∀ vals a, vals ≠ [] → Hist store points vals a → ¬ ok vals → (f a).1 = .error .value) :
    ((∀ l n, values ops l n ≠ [] → ok (values ops l n)) → ∃ d, (mapAcc (mapAcc f) t).1 = .ok d ∧
      ∀ l n, (values ops l n = [] → ((get? d l).bind fun r => get? r n) = none) ∧
        (values ops l n ≠ [] → ∃ a r, Hist store points (values ops l n) a ∧ (f a).1 = .ok r ∧
          ((get? d l).bind fun r => get? r n) = some r)) ∧
    ((∃ l n, values ops l n ≠ [] ∧ ¬ ok (values ops l n)) → (mapAcc (mapAcc f) t).1 = .error .value) := by
  constructor
  · intro hall
    have hin : ∀ p ∈ t, ∀ q ∈ p.2, ∃ r, (f q.2).1 = .ok r := by
      intro p hp q hq
      obtain ⟨hne, hok⟩ := tabOk_mem h hp hq
      exact h1 _ _ hne hok (hall _ _ hne)
    have hout : ∀ p ∈ t, ∃ r, (mapAcc f p.2).1 = .ok r := fun p hp => by
      obtain ⟨r, hr, -⟩ := mapAcc_ok f p.2 (hin p hp)
      exact ⟨r, hr⟩
    obtain ⟨d, hd, hg⟩ := mapAcc_ok (mapAcc f) t hout
    refine ⟨d, hd, fun l n => ?_⟩
    have hcell : ((get? d l).bind fun r => get? r n) = ((get? t l).bind fun x => get? x n).bind fun a => (f a).1.toOption := by
      rw [hg]
      cases hl : get? t l with
      | none => rfl
      | some x =>
        obtain ⟨rs, h3, h4⟩ := mapAcc_ok f x (hin (l, x) (mem_of_get? hl))
        simp only [Option.bind_some]
        rw [h3]
        exact h4 n
    rw [hcell]
    constructor
    · intro hv; rw [h.absent l n hv]; rfl
    · intro hv
      obtain ⟨a, ha, hok⟩ := h.present l n hv
      obtain ⟨r, hr⟩ := h1 _ _ hv hok (hall l n hv)
      exact ⟨a, r, hok, hr, by rw [ha, Option.bind_some, hr]; rfl⟩
  · rintro ⟨l, n, hv, hn⟩
    have hin : ∀ p ∈ t, ∀ q ∈ p.2, ∀ y, (f q.2).1 = .error y → y = .value := by
      intro p hp q hq y hy
      obtain ⟨hne, hok⟩ := tabOk_mem h hp hq
      by_cases ho : ok (values ops p.1 q.1)
      · obtain ⟨r, hr⟩ := h1 _ _ hne hok ho
        rw [hr] at hy; cases hy
      · rw [h2 _ _ hne hok ho] at hy; cases hy; rfl
    have hone : ∀ p ∈ t, ∀ y, (mapAcc f p.2).1 = .error y → y = .value := by
      intro p hp y hy
      by_cases hex : ∃ q ∈ p.2, (f q.2).1 = .error .value
      · rw [mapAcc_error f p.2 .value (hin p hp) hex] at hy; cases hy; rfl
      · have : ∀ q ∈ p.2, ∃ r, (f q.2).1 = .ok r := by
          intro q hq
          cases e : (f q.2).1 with
          | ok r => exact ⟨r, rfl⟩
          | error y => exact absurd ⟨q, hq, by rw [e, hin p hp q hq y e]⟩ hex
        obtain ⟨r, hr, -⟩ := mapAcc_ok f p.2 this
        rw [hr] at hy; cases hy
    obtain ⟨a, ha, hok⟩ := h.present l n hv
    cases hl : get? t l with
    | none => rw [hl] at ha; cases ha
    | some x =>
      rw [hl, Option.bind_some] at ha
      refine mapAcc_error (mapAcc f) t .value hone ⟨(l, x), mem_of_get? hl, ?_⟩
      exact mapAcc_error f x .value (hin (l, x) (mem_of_get? hl)) ⟨(n, a), mem_of_get? ha, h2 _ _ hv hok hn⟩

/-! ## C139 -/

/-- **C139, `to_dict`.**  After any events, and however often it was shown before: `to_dict` returns if every pair of labels has
too few events for estimates, or the quartiles are tracked; it has an entry for exactly the pairs seen, with the count, trimean and quantiles
of an accumulator that was given the values of that pair, in order, and nothing else (C53 is about those).  It raises ValueError
otherwise.  (What is missing for the full claim is shown by `C139_violated`.) -/
theorem C139_to_dict_partial (store : K → K) (points : List K) (hp : ∀ p ∈ points, 0 < p ∧ p < 1) (ops : List (Op K)) :
    ((∀ l n, values ops l n ≠ [] → Quartiles points (values ops l n)) →
      ∃ d, (toDict (run store points ops)).1 = .ok d ∧
        ∀ l n, (values ops l n = [] → ((get? d l).bind fun r => get? r n) = none) ∧
          (values ops l n ≠ [] → ∃ a r, Hist store points (values ops l n) a ∧ Tells points (values ops l n).length a r ∧
            ((get? d l).bind fun r => get? r n) = some r)) ∧
    ((∃ l n, values ops l n ≠ [] ∧ ¬ Quartiles points (values ops l n)) → (toDict (run store points ops)).1 = .error .value) := by
  have key := table_map (tabOk_run store points hp ops) entry (Quartiles points)
    (fun vals a hne h hq => let ⟨r, e, _⟩ := (entry_spec hp hne h).2.1 hq; ⟨r, e⟩)
    (fun vals a hne h hq => (entry_spec hp hne h).2.2 hq)
  refine ⟨fun hall => ?_, key.2⟩
  obtain ⟨d, hd, hc⟩ := key.1 hall
  refine ⟨d, hd, fun l n => ⟨(hc l n).1, fun hv => ?_⟩⟩
  obtain ⟨a, r, hok, hr, hcell⟩ := (hc l n).2 hv
  obtain ⟨r', e, ht⟩ := (entry_spec hp hv hok).2.1 (hall l n hv)
  rw [hr] at e
  cases e
  exact ⟨a, r, hok, ht, hcell⟩

/-- **C139, `repr`**, likewise, if every pair has too few events for estimates, or the median is tracked. -/
theorem C139_repr_partial (store : K → K) (points : List K) (hp : ∀ p ∈ points, 0 < p ∧ p < 1) (ops : List (Op K)) :
    ((∀ l n, values ops l n ≠ [] → (values ops l n).length < points.length + 2 ∨ (1 / 2 : K) ∈ points) →
      ∃ d, (repr (run store points ops)).1 = .ok d ∧
        ∀ l n, (values ops l n = [] → ((get? d l).bind fun r => get? r n) = none) ∧
          (values ops l n ≠ [] → ∃ a m, Hist store points (values ops l n) a ∧ (accQuantile a (1 / 2)).1 = .ok m ∧
            ((get? d l).bind fun r => get? r n) = some ((values ops l n).length - (points.length + 2), m))) ∧
    ((∃ l n, values ops l n ≠ [] ∧ ¬ ((values ops l n).length < points.length + 2 ∨ (1 / 2 : K) ∈ points)) →
      (repr (run store points ops)).1 = .error .value) := by
  have key := table_map (tabOk_run store points hp ops) brief (fun vals => vals.length < points.length + 2 ∨ (1 / 2 : K) ∈ points)
    (fun vals a hne h hq => let ⟨_, _, e⟩ := (brief_spec hne h).2.1 hq; ⟨_, e⟩)
    (fun vals a hne h hq => (brief_spec hne h).2.2 hq)
  refine ⟨fun hall => ?_, key.2⟩
  obtain ⟨d, hd, hc⟩ := key.1 hall
  refine ⟨d, hd, fun l n => ⟨(hc l n).1, fun hv => ?_⟩⟩
  obtain ⟨a, r, hok, hr, hcell⟩ := (hc l n).2 hv
  obtain ⟨m, hm, e⟩ := (brief_spec hv hok).2.1 (hall l n hv)
  rw [hr] at e
  cases e
  exact ⟨a, m, hok, hm, hcell⟩

/-- **C139, quartiles tracked.**  With points that include the quartiles, as the default ones do, a sink can be shown at any
time. -/
theorem C139_quartiles (store : K → K) (points : List K) (hp : ∀ p ∈ points, 0 < p ∧ p < 1) (h1 : (1 / 4 : K) ∈ points)
    (h2 : (1 / 2 : K) ∈ points) (h3 : (3 / 4 : K) ∈ points) (ops : List (Op K)) :
    (∃ d, (toDict (run store points ops)).1 = .ok d) ∧ ∃ d, (repr (run store points ops)).1 = .ok d := by
  obtain ⟨d, hd, -⟩ := (C139_to_dict_partial store points hp ops).1 fun _ _ _ => .inr ⟨h1, h2, h3⟩
  obtain ⟨d', hd', -⟩ := (C139_repr_partial store points hp ops).1 fun _ _ _ => .inr h2
  exact ⟨⟨d, hd⟩, d', hd'⟩

/-- **C139 fails** for all other points: as soon as one pair of labels has as many events as there are points, and two more, `to_dict`
raises ValueError for good, for all loggers; and so does `repr` if the median is not tracked. -/
theorem C139_breaks (store : K → K) (points : List K) (hp : ∀ p ∈ points, 0 < p ∧ p < 1)
    (hq : ¬ ((1 / 4 : K) ∈ points ∧ (1 / 2 : K) ∈ points ∧ (3 / 4 : K) ∈ points)) (ops : List (Op K)) (l n : String)
    (hn : points.length + 2 ≤ (values ops l n).length) :
    (toDict (run store points ops)).1 = .error .value ∧
    ((1 / 2 : K) ∉ points → (repr (run store points ops)).1 = .error .value) := by
  have hv : values ops l n ≠ [] := by intro e; rw [e] at hn; simp at hn
  refine ⟨(C139_to_dict_partial store points hp ops).2 ⟨l, n, hv, ?_⟩, fun hm => (C139_repr_partial store points hp ops).2 ⟨l, n, hv, ?_⟩⟩
  · rintro (h | h)
    · omega
    · exact hq h
  · rintro (h | h)
    · omega
    · exact hm h

/-- Three actions and only the ninetieth percentile. -/
def sample : List (Op ℚ) := [.end_ "app" "load" 1, .toDict, .end_ "app" "load" 3, .repr, .end_ "app" "load" 2]

theorem C139_violated : ¬ Shown := by
  intro h
  obtain ⟨⟨d, hd⟩, -⟩ := h ℚ id [9 / 10] (by norm_num) (by simp) (by simp) sample
  have := (C139_breaks id [(9 / 10 : ℚ)] (by norm_num) (by norm_num) sample "app" "load" (by simp [values, sample])).1
  rw [this] at hd
  cases hd

/-- Before that, it could be shown. -/
example : ∃ d, (toDict (run id [(9 / 10 : ℚ)] (sample.take 3))).1 = .ok d := by
  obtain ⟨d, hd, -⟩ := (C139_to_dict_partial id [(9 / 10 : ℚ)] (by norm_num) (sample.take 3)).1 (by
    intro l n _
    left
    have : (values (sample.take 3) l n).length ≤ ((sample.take 3).filter fun o => match o with | .end_ .. => true | _ => false).length := by
      simp only [values, sample, List.take]
      by_cases h : "app" = l ∧ "load" = n <;> simp [h]
    simp [sample] at this ⊢
    omega)
  exact ⟨d, hd⟩

/-- The default points include the quartiles (quantile.py:14). -/
def prag : List ℚ := [1 / 100, 5 / 100, 25 / 100, 50 / 100, 75 / 100, 90 / 100, 95 / 100, 99 / 100]

example (ops : List (Op ℚ)) : ∃ d, (toDict (run id prag ops)).1 = .ok d :=
  (C139_quartiles id prag (by unfold prag; norm_num) (by unfold prag; norm_num) (by unfold prag; norm_num) (by unfold prag; norm_num) ops).1

end Verif.P2Sink
