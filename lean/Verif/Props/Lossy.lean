import Verif.Props.SinkTables
/-!
# C72: a CounterSink never loses a frequent key
-/
namespace Verif.Sinks

open Verif.Dct

/-- What a counter after `evs` (keys, in order) knows about each key, if `n` is the number of complete buckets: a tracked count
is short by at most the bucket noted with it, a key that is not tracked occurred at most `n` times. -/
def Lossy (evs : List String) (c : TCounter) : Prop :=
  c.total = evs.length ∧ c.bucket = evs.length / c.bucketSize + 1 ∧ (keys c.counts).Nodup ∧
    ∀ k, match get? c.counts k with
      | none => evs.count k ≤ c.bucket - 1
      | some (f, d) => f ≤ evs.count k ∧ evs.count k ≤ f + d ∧ d ≤ c.bucket - 1

theorem get?_filter {α β : Type} [DecidableEq α] {d : Dict α β} (hn : (keys d).Nodup) (p : α × β → Bool) (k : α) :
    get? (d.filter p) k = (get? d k).filter fun v => p (k, v) := by
  induction d with
  | nil => rfl
  | cons x d ih =>
    obtain ⟨a, v⟩ := x
    have hn' : a ∉ keys d ∧ (keys d).Nodup := by simpa [keys] using hn
    by_cases hak : a = k
    · subst hak
      have h0 : get? ((a, v) :: d) a = some v := by simp [get?]
      rw [h0]
      by_cases hp : p (a, v) = true
      · rw [List.filter_cons_of_pos hp]; simp [get?, Option.filter, hp]
      · rw [List.filter_cons_of_neg hp, ih hn'.2, get?_none.2 hn'.1]; simp [Option.filter, hp]
    · have h0 : get? ((a, v) :: d) k = get? d k := by simp [get?, hak]
      rw [h0, ← ih hn'.2]
      by_cases hp : p (a, v) = true
      · rw [List.filter_cons_of_pos hp]; simp [get?, hak]
      · rw [List.filter_cons_of_neg hp]

theorem succ_div_of_mod (n b : Nat) (hb : 0 < b) (h : (n + 1) % b = 0) : (n + 1) / b = n / b + 1 := by
  rw [Nat.succ_div, if_pos (Nat.dvd_of_mod_eq_zero h)]

theorem succ_div_of_not_mod (n b : Nat) (h : ¬ (n + 1) % b = 0) : (n + 1) / b = n / b := by
  rw [Nat.succ_div, if_neg (fun hd => h (Nat.mod_eq_zero_of_dvd hd)), Nat.add_zero]

theorem tcAdd_size (c : TCounter) (k : String) : (tcAdd c k).bucketSize = c.bucketSize := by
  unfold tcAdd; dsimp only; split <;> rfl

theorem lossy_add (evs : List String) (c : TCounter) (hb : 0 < c.bucketSize) (h : Lossy evs c) (k : String) :
    Lossy (evs ++ [k]) (tcAdd c k) := by
  obtain ⟨h1, h2, h3, h4⟩ := h
  have hu : ∀ k', match get? (upd c.counts k (0, c.bucket - 1) fun p => (p.1 + 1, p.2)) k' with
      | none => (evs ++ [k]).count k' ≤ c.bucket - 1
      | some (f, d) => f ≤ (evs ++ [k]).count k' ∧ (evs ++ [k]).count k' ≤ f + d ∧ d ≤ c.bucket - 1 := by
    intro k'
    have h5 := h4 k'
    rw [get?_upd, List.count_append]
    by_cases hk : k = k'
    · subst hk
      rw [if_pos rfl, List.count_singleton_self]
      cases hg : get? c.counts k with
      | none => rw [hg] at h5; dsimp only [Option.getD_none] at h5 ⊢; omega
      | some fd =>
        obtain ⟨f, d⟩ := fd
        rw [hg] at h5; dsimp only [Option.getD_some] at h5 ⊢; omega
    · rw [if_neg hk, List.count_singleton, if_neg (by simpa using hk), Nat.add_zero]
      exact h5
  have hn : (keys (upd c.counts k (0, c.bucket - 1) fun p => (p.1 + 1, p.2))).Nodup := nodup_set h3 _ _
  unfold tcAdd
  dsimp only
  split
  · rename_i hm
    rw [h1] at hm
    have hd := succ_div_of_mod _ _ hb hm
    refine ⟨?_, ?_, hn.sublist (keys_filter _ _), ?_⟩
    · dsimp only; rw [List.length_append, h1]; rfl
    · dsimp only; rw [List.length_append, List.length_singleton, hd, h2]
    · intro k'
      dsimp only
      rw [get?_filter hn]
      have h6 := hu k'
      have hpos : 1 ≤ c.bucket := by rw [h2]; exact Nat.le_add_left _ _
      cases hg : get? (upd c.counts k (0, c.bucket - 1) fun p => (p.1 + 1, p.2)) k' with
      | none => rw [hg] at h6; dsimp only [Option.filter_none] at h6 ⊢; omega
      | some fd =>
        obtain ⟨f, d⟩ := fd
        rw [hg] at h6
        dsimp only at h6
        by_cases hp : f + d > c.bucket
        · rw [Option.filter_some, if_pos (by simpa using hp)]; dsimp only; omega
        · rw [Option.filter_some, if_neg (by simpa using hp)]; dsimp only; omega
  · rename_i hm
    rw [h1] at hm
    refine ⟨?_, ?_, hn, hu⟩
    · dsimp only; rw [List.length_append, h1]; rfl
    · dsimp only; rw [List.length_append, List.length_singleton, succ_div_of_not_mod _ _ hm, h2]

theorem lossy_run (b : Nat) (hb : 0 < b) (ks : List String) : Lossy ks (ks.foldl tcAdd (tcInit b)) ∧
    (ks.foldl tcAdd (tcInit b)).bucketSize = b := by
  induction ks using List.reverseRecOn with
  | nil => exact ⟨⟨rfl, by simp [tcInit], by simp [tcInit, keys], by simp [tcInit, get?]⟩, rfl⟩
  | append_singleton ks k ih =>
    rw [List.foldl_append, List.foldl_cons, List.foldl_nil, tcAdd_size]
    exact ⟨lossy_add _ _ (by rw [ih.2]; exact hb) ih.1 k, ih.2⟩

section

variable {L E : Type} [DecidableEq L] (b : Nat) (lg : E → L) (key : E → String)

/-- The table has, under a logger's name, what its own counter says, if no other logger has that name. -/
theorem counter_entry (lname : L → String) (evs : List E) (l : L) (hl : ∃ e ∈ evs, lg e = l)
    (hu : ∀ e ∈ evs, lname (lg e) = lname l → lg e = l) :
    get? (counterToDict lname (evs.foldl (counterOnEnd b lg key) [])) (lname l) =
      some (counterDict (((evs.filter fun e => decide (lg e = l)).map key).foldl tcAdd (tcInit b))) := by
  have h1 := counter_run b lg key evs l
  rw [if_pos hl] at h1
  rw [List.foldl_map]
  unfold counterToDict
  refine get?_build _ counterDict _ _ (List.mem_map.2 ⟨(l, _), mem_of_get? h1, rfl⟩) ?_
  intro p hp e
  obtain ⟨q, hq, rfl⟩ := List.mem_map.1 hp
  have hk : (keys (evs.foldl (counterOnEnd b lg key) [])).Nodup := by
    clear h1 hl hu hp hq
    induction evs using List.reverseRecOn with
    | nil => simp [keys]
    | append_singleton evs e ih => rw [List.foldl_append]; exact nodup_set ih _ _
  have h2 := get?_of_mem hk (k := q.1) (v := q.2) hq
  have h3 := counter_run b lg key evs q.1
  rw [h2] at h3
  by_cases hx : ∃ e ∈ evs, lg e = q.1
  · obtain ⟨ev, hev, hq1⟩ := hx
    have h4 := hu ev hev (by rw [hq1]; exact e)
    rw [← hq1, h4, h1] at h2
    exact (Option.some.inj h2).symm
  · rw [if_neg hx] at h3; cases h3

theorem get?_counterDict (c : TCounter) (k : String) (h1 : k ≠ ALL) (h2 : k ≠ MISSING) :
    get? (counterDict c) k = (get? c.counts k).map fun p => (p.1 : Int) := by
  unfold counterDict
  dsimp only
  rw [get?_set, if_neg (Ne.symm h1)]
  have h0 : get? (c.counts.map fun p => (p.1, (p.2.1 : Int))) k = (get? c.counts k).map fun p => (p.1 : Int) := by
    induction c.counts with
    | nil => rfl
    | cons x d ih => simp only [List.map_cons, get?]; split <;> simp_all
  split
  · exact h0
  · rw [get?_set, if_neg (Ne.symm h2), h0]

/-- C72: with buckets of `b` events (`b = int(1 / threshold)`), after any `N` end events of a logger of which `n` have the key
`k`: if the table has a count for `k`, it is at most `n` and short by at most `N / b`; if it has none, `n ≤ N / b`.  The logger's
name is its own, and the key none of the two special names. -/
theorem C72_counts (hb : 0 < b) (lname : L → String) (evs : List E) (l : L) (hl : ∃ e ∈ evs, lg e = l)
    (hu : ∀ e ∈ evs, lname (lg e) = lname l → lg e = l) (k : String) (h1 : k ≠ "__all__") (h2 : k ≠ "__missing__") :
    ∃ d, get? (counterToDict lname (evs.foldl (counterOnEnd b lg key) [])) (lname l) = some d ∧
      let N := evs.countP fun e => decide (lg e = l)
      let n := evs.countP fun e => decide (lg e = l ∧ key e = k)
      match get? d k with
      | some c => c ≤ (n : Int) ∧ (n : Int) ≤ c + ((N / b : Nat) : Int)
      | none => n ≤ N / b := by
  refine ⟨_, counter_entry b lg key lname evs l hl hu, ?_⟩
  dsimp only
  obtain ⟨ks, hks⟩ : ∃ ks, ks = (evs.filter fun e => decide (lg e = l)).map key := ⟨_, rfl⟩
  have hN : evs.countP (fun e => decide (lg e = l)) = ks.length := by
    rw [hks, List.length_map, List.countP_eq_length_filter]
  have hn : evs.countP (fun e => decide (lg e = l ∧ key e = k)) = ks.count k := by
    rw [hks, List.count, List.countP_map, List.countP_filter]
    refine List.countP_congr fun e _ => ?_
    simp [and_comm]
  obtain ⟨⟨a1, a2, a3, a4⟩, a5⟩ := lossy_run b hb ks
  rw [← hks, hN, hn, get?_counterDict _ _ h1 h2]
  have h6 := a4 k
  rw [a5] at a2
  obtain ⟨q, hq⟩ : ∃ q, q = ks.length / b := ⟨_, rfl⟩
  rw [← hq] at a2 ⊢
  cases hg : get? (ks.foldl tcAdd (tcInit b)).counts k with
  | none => rw [hg] at h6; dsimp only [Option.map_none] at h6 ⊢; omega
  | some fd =>
    obtain ⟨f, d⟩ := fd
    rw [hg] at h6
    dsimp only [Option.map_some] at h6 ⊢
    omega

/-- C72: every key that makes up more than one `b`-th of a logger's events is in the table. -/
theorem C72_frequent (hb : 0 < b) (lname : L → String) (evs : List E) (l : L)
    (hu : ∀ e ∈ evs, lname (lg e) = lname l → lg e = l) (k : String) (h1 : k ≠ "__all__") (h2 : k ≠ "__missing__")
    (hf : (evs.countP fun e => decide (lg e = l)) < b * evs.countP fun e => decide (lg e = l ∧ key e = k)) :
    ∃ d c, get? (counterToDict lname (evs.foldl (counterOnEnd b lg key) [])) (lname l) = some d ∧ get? d k = some c := by
  have hl : ∃ e ∈ evs, lg e = l := by
    by_contra hc
    push Not at hc
    have : evs.countP (fun e => decide (lg e = l ∧ key e = k)) = 0 := by
      rw [List.countP_eq_zero]
      intro e he hx
      exact hc e he (by simpa using (of_decide_eq_true hx).1)
    rw [this] at hf
    omega
  obtain ⟨d, h3, h4⟩ := C72_counts b lg key hb lname evs l hl hu k h1 h2
  dsimp only at h4
  cases hg : get? d k with
  | some c => exact ⟨d, c, h3, hg⟩
  | none =>
    rw [hg] at h4
    dsimp only at h4
    have h5 : b * (evs.countP fun e => decide (lg e = l ∧ key e = k)) ≤ evs.countP fun e => decide (lg e = l) :=
      (Nat.mul_le_mul_left b h4).trans (Nat.mul_div_le _ _)
    omega

end

/-- Buckets of two events, two loggers: "a" has three of the five events of logger 0. -/
example : ∃ d c, get? (counterToDict (fun n : Nat => if n = 0 then "app" else "db")
      ([(0, "a"), (0, "b"), (1, "c"), (0, "a"), (0, "d"), (0, "a")].foldl (counterOnEnd 2 Prod.fst Prod.snd) [])) "app" = some d ∧
    get? d "a" = some c := by
  obtain ⟨d, c, h⟩ := C72_frequent 2 (Prod.fst : Nat × String → Nat) Prod.snd (by decide)
    (fun n : Nat => if n = 0 then "app" else "db")
    [(0, "a"), (0, "b"), (1, "c"), (0, "a"), (0, "d"), (0, "a")] 0 (by simp) "a" (by decide) (by decide) (by decide)
  exact ⟨d, c, h⟩

/-- The bound is reached: after one bucket of two events "b" has been forgotten, though it occurred once. -/
example : counterToDict (fun _ : Nat => "app") ([(0, "a"), (0, "b")].foldl (counterOnEnd 2 Prod.fst Prod.snd) []) =
    [("app", [("__missing__", 2), ("__all__", 2)])] := by
  simp [counterOnEnd, upd, get?, Dct.set, tcAdd, tcInit, counterToDict, counterDict, uncommon, common, values, MISSING, ALL]

/-- Five events of one logger, kept in buckets of 2: what is shown for "a" is short of 3 by at most 2. -/
example := C72_counts 2 (Prod.fst : Nat × String → Nat) Prod.snd (by decide)
  (fun n : Nat => if n = 0 then "app" else "db") [(0, "a"), (0, "b"), (1, "c"), (0, "a"), (0, "d"), (0, "a")] 0 (by simp)
  (by simp) "a" (by decide) (by decide)

end Verif.Sinks
