import Verif.Spec.Wrapping
import Mathlib.Data.List.Basic
import Mathlib.Tactic.Common
/-!
# Lemmas about wrap_all and unwrap_all
-/
namespace Verif.Wrapping

/-- 1 if `p`, else 0. -/
def ind (p : Prop) [Decidable p] : Nat := if p then 1 else 0

theorem ind_le_one (p : Prop) [Decidable p] : ind p ≤ 1 := by unfold ind; split <;> omega
theorem ind_mono {p q : Prop} [Decidable p] [Decidable q] (h : p → q) : ind p ≤ ind q := by
  unfold ind; split <;> split <;> simp_all
theorem ind_true {p : Prop} [Decidable p] (h : p) : ind p = 1 := by simp [ind, h]
theorem ind_false {p : Prop} [Decidable p] (h : ¬ p) : ind p = 0 := by simp [ind, h]

/-- `v` is `v0` under `k` wrappers. -/
inductive Layers : Nat → AVal → AVal → Prop
  | zero (v : AVal) : Layers 0 v v
  | succ {k : Nat} {v v0 : AVal} (a : String) (l : Int) : Layers k v v0 → Layers (k + 1) (.wrapped a l v) v0

theorem Layers.named {k : Nat} {v v0 : AVal} (h : Layers k v v0) (h0 : v0.named = true) : v.named = true := by
  cases h with
  | zero => exact h0
  | succ a l h => rfl

section
variable (L : Layout) (skip : String → Bool) (h0 : Heap) (t : Oid)

/-- A function in sight of the target, on an object that can be changed. -/
def Active (o : Oid) (n : String) : Prop := Within L h0 t o ∧ IsFunction L skip h0 o n ∧ L.frozen o = false

/-- Only functions in sight have been replaced. -/
def Touched (h : Heap) : Prop := ∀ o n, h o n = h0 o n ∨ Active L skip h0 t o n ∧ ∃ v, h o n = some (.val v)

/-- Setting a function in sight does not show elsewhere. -/
def Frame : Prop := ∀ h, Touched L skip h0 t h → ∀ o n v, Active L skip h0 t o n →
  ∀ o' n', Within L h0 t o' → n' ∈ L.dir o' → (o' = o → n' ≠ n) →
    attr L (h.put o n v) o' n' = attr L h o' n'

/-- Every attribute in sight is the original under `K` wrappers. -/
structure LInv (h : Heap) (K : Oid → String → Nat) : Prop where
  touched : Touched L skip h0 t h
  level : ∀ o n, Within L h0 t o → n ∈ L.dir o →
    (∃ v v0, attr L h o n = some v ∧ attr L h0 o n = some v0 ∧ Layers (K o n) v v0 ∧
      (K o n ≠ 0 → Active L skip h0 t o n)) ∨
    (attr L h o n = none ∧ attr L h0 o n = none ∧ K o n = 0)

variable {L skip h0 t}

theorem LInv.init : LInv L skip h0 t h0 fun _ _ => 0 where
  touched _ _ := .inl rfl
  level o n _ _ := by
    cases h : attr L h0 o n with
    | none => exact .inr ⟨rfl, rfl, rfl⟩
    | some v => exact .inl ⟨v, v, rfl, rfl, .zero v, fun h => absurd rfl h⟩

theorem attr_put (h : Heap) (o : Oid) (n : String) (v : AVal) : attr L (h.put o n v) o n = some v := by
  simp [attr, Heap.put, Slot.get]

theorem Touched.put {h : Heap} (ht : Touched L skip h0 t h) {o : Oid} {n : String}
    (ha : Active L skip h0 t o n) (v : AVal) : Touched L skip h0 t (h.put o n v) := by
  intro o' n'
  by_cases he : o' = o ∧ n' = n
  · obtain ⟨rfl, rfl⟩ := he
    exact .inr ⟨ha, v, by simp [Heap.put]⟩
  · rw [show h.put o n v o' n' = h o' n' by simp [Heap.put, he]]
    exact ht o' n'

/-- The wrapper count with one place changed. -/
def upd (K : Oid → String → Nat) (o : Oid) (n : String) (k : Nat) : Oid → String → Nat :=
  fun o' n' => if o' = o ∧ n' = n then k else K o' n'

theorem LInv.put (hf : Frame L skip h0 t) {h : Heap} {K : Oid → String → Nat} (hi : LInv L skip h0 t h K)
    {o : Oid} {n : String} (ha : Active L skip h0 t o n) {v v0 : AVal} {k : Nat}
    (hv0 : attr L h0 o n = some v0) (hl : Layers k v v0) :
    LInv L skip h0 t (h.put o n v) (upd K o n k) where
  touched := hi.touched.put ha v
  level o' n' hw hd := by
    by_cases he : o' = o ∧ n' = n
    · obtain ⟨rfl, rfl⟩ := he
      exact .inl ⟨v, v0, attr_put .., hv0, by simpa [upd] using hl, fun _ => ha⟩
    · have h1 := hf h hi.touched o n v ha o' n' hw hd (fun h1 h2 => he ⟨h1, h2⟩)
      rw [h1]
      simp only [upd, he, if_false]
      exact hi.level o' n' hw hd

/-- A class attribute is still the same class. -/
theorem LInv.cls (hi : LInv L skip h0 t h K) {o : Oid} {n : String} (hw : Within L h0 t o) (hd : n ∈ L.dir o)
    {c : Oid} (hc : attr L h o n = some (.cls c)) : attr L h0 o n = some (.cls c) := by
  rcases hi.level o n hw hd with ⟨v, v0, h1, h2, h3, _⟩ | ⟨h1, _⟩
  · rw [hc] at h1; cases h1
    generalize K o n = k at h3
    cases h3
    exact h2
  · rw [hc] at h1; cases h1

theorem LInv.cls' (hi : LInv L skip h0 t h K) {o : Oid} {n : String} (hw : Within L h0 t o) (hd : n ∈ L.dir o)
    {c : Oid} (hc : attr L h0 o n = some (.cls c)) : attr L h o n = some (.cls c) := by
  rcases hi.level o n hw hd with ⟨v, v0, h1, h2, h3, h4⟩ | ⟨_, h2, _⟩
  · rw [hc] at h2; cases h2
    generalize hk : K o n = k at h3 h4
    cases h3 with
    | zero => exact h1
    | succ a l h =>
      obtain ⟨_, ⟨_, _, u, hu, hun⟩, _⟩ := h4 (by omega)
      rw [hc] at hu; cases hu; cases hun
  · rw [hc] at h2; cases h2

theorem Within.child {o c : Oid} (h : Within L h0 t o) (hc : Child L h0 o c) : Within L h0 t c :=
  Relation.ReflTransGen.tail h hc

/-! ### unwrap_all -/

/-- What a part of `unwrap_all` achieves, from `s` to `s'`, having gone over the names `ns` of `o`. -/
structure UDone (K : Oid → String → Nat) (o : Oid) (ns : List String) (s s' : UState)
    (K' : Oid → String → Nat) : Prop where
  inv : LInv L skip h0 t s'.heap K'
  le : ∀ p n, K' p n ≤ K p n
  less : ∀ p n, n ∈ L.dir p → K' p n = 0 ∨
    K' p n + ind (p = o ∧ n ∈ ns) + ind (p ∈ s'.seen) ≤ K p n + ind (p ∈ s.seen)
  mono : ∀ p ∈ s.seen, p ∈ s'.seen
  closed : ∀ p ∈ s'.seen, p ∉ s.seen → ∀ c, Child L h0 p c → c ∈ s'.seen
  kids : ∀ n ∈ ns, ∀ c, attr L h0 o n = some (.cls c) → c ∈ s'.seen
  within : ∀ p ∈ s'.seen, p ∈ s.seen ∨ Within L h0 t p

theorem UDone.nil {K : Oid → String → Nat} {s : UState} (o : Oid) (hi : LInv L skip h0 t s.heap K) :
    UDone (L := L) (skip := skip) (h0 := h0) (t := t) K o [] s s K where
  inv := hi
  le _ _ := Nat.le_refl _
  less p n _ := .inr (by rw [ind_false (p := p = o ∧ n ∈ []) (by simp)]; omega)
  mono _ h := h
  closed p h h' := absurd h h'
  kids n h := absurd h (by simp)
  within p h := .inl h

theorem unwrapNames_done (hf : Frame L skip h0 t) (hn : NothingWrapped L h0 t)
    (rec : Oid → UState → Option UState)
    (hrec : ∀ o s s' K, Within L h0 t o → LInv L skip h0 t s.heap K → rec o s = some s' →
      ∃ K', UDone (L := L) (skip := skip) (h0 := h0) (t := t) K o (L.dir o) s s' K')
    (o : Oid) (hw : Within L h0 t o) (ns : List String) (hns : ∀ n ∈ ns, n ∈ L.dir o) (s s' : UState)
    (K : Oid → String → Nat) (hi : LInv L skip h0 t s.heap K)
    (hr : unwrapNames L rec o ns s = some s') :
    ∃ K', UDone (L := L) (skip := skip) (h0 := h0) (t := t) K o ns s s' K' := by
  induction ns generalizing s K with
  | nil =>
    simp only [unwrapNames, Option.some.injEq] at hr
    subst hr
    exact ⟨K, .nil o hi⟩
  | cons n ns ih =>
    have hd : n ∈ L.dir o := hns n (by simp)
    have hns' : ∀ n ∈ ns, n ∈ L.dir o := fun m hm => hns m (by simp [hm])
    -- a name that is passed over
    have skipCase : K o n = 0 → (∀ c, attr L h0 o n = some (.cls c) → c ∈ s.seen) →
        unwrapNames L rec o ns s = some s' →
        ∃ K', UDone (L := L) (skip := skip) (h0 := h0) (t := t) K o (n :: ns) s s' K' := by
      intro hk hc h
      obtain ⟨K', h⟩ := ih hns' s K hi h
      refine ⟨K', h.inv, h.le, ?_, h.mono, h.closed, ?_, h.within⟩
      · intro p m hm
        by_cases hpm : p = o ∧ m = n
        · obtain ⟨rfl, rfl⟩ := hpm
          exact .inl (Nat.le_zero.1 (hk ▸ h.le p m))
        · rcases h.less p m hm with h1 | h1
          · exact .inl h1
          · have h2 := ind_mono (p := p = o ∧ m ∈ n :: ns) (q := p = o ∧ m ∈ ns) (by
              rintro ⟨h1, h2⟩
              rcases List.mem_cons.1 h2 with h2 | h2
              · exact absurd ⟨h1, h2⟩ hpm
              · exact ⟨h1, h2⟩)
            exact .inr (by omega)
      · intro m hm c hcm
        rcases List.mem_cons.1 hm with rfl | hm
        · exact h.mono _ (hc c hcm)
        · exact h.kids m hm c hcm
    -- a function that is not a class
    have fnCase : ∀ v, attr L s.heap o n = some v → (∀ c, v ≠ .cls c) →
        unwrapNames L rec o ns { s with heap := (unwrap L s.heap o n).getD s.heap } = some s' →
        ∃ K', UDone (L := L) (skip := skip) (h0 := h0) (t := t) K o (n :: ns) s s' K' := by
      intro v hv hnc h
      have hnc0 : ∀ c, attr L h0 o n ≠ some (.cls c) := fun c hc => by
        have := hi.cls' hw hd hc
        rw [hv] at this; cases this; exact hnc c rfl
      rcases hi.level o n hw hd with ⟨v', v0, h1, h2, h3, h4⟩ | ⟨h1, _⟩
      swap
      · rw [hv] at h1; cases h1
      rw [hv] at h1; cases h1
      generalize hk : K o n = k at h3 h4
      cases h3 with
      | zero =>
        have hin : v.inner? = none := hn o n v hw hd h2
        rw [show unwrap L s.heap o n = none by simp [unwrap, hv, hin]] at h
        exact skipCase hk (fun c hc => absurd hc (hnc0 c)) h
      | @succ k v1 _ a l hl =>
        have ha := h4 (by omega)
        have hfz : L.frozen o = false := ha.2.2
        rw [show unwrap L s.heap o n = some (s.heap.put o n v1) by
          simp [unwrap, hv, AVal.inner?, hfz]] at h
        have hi1 := hi.put hf ha h2 hl
        obtain ⟨K', h⟩ := ih hns' _ _ hi1 h
        have hupd : ∀ p m, upd K o n k p m ≤ K p m := by
          intro p m; unfold upd; split
          · rename_i hh; rw [hh.1, hh.2, hk]; omega
          · exact Nat.le_refl _
        refine ⟨K', h.inv, fun p m => Nat.le_trans (h.le p m) (hupd p m), ?_, h.mono, h.closed, ?_, h.within⟩
        · intro p m hm
          rcases h.less p m hm with h1 | h1
          · exact .inl h1
          · refine .inr ?_
            dsimp only at h1
            by_cases hpm : p = o ∧ m = n
            · obtain ⟨rfl, rfl⟩ := hpm
              simp only [upd, and_self, if_true] at h1
              have := ind_le_one (p = p ∧ m ∈ m :: ns)
              have h5 : K p m = k + 1 := hk
              rw [h5]
              have h6 : ind (p = p ∧ m ∈ m :: ns) = 1 := ind_true (by simp)
              omega
            · simp only [upd, hpm, if_false] at h1
              have h2 := ind_mono (p := p = o ∧ m ∈ n :: ns) (q := p = o ∧ m ∈ ns) (by
                rintro ⟨h1, h2⟩
                rcases List.mem_cons.1 h2 with h2 | h2
                · exact absurd ⟨h1, h2⟩ hpm
                · exact ⟨h1, h2⟩)
              omega
        · intro m hm c hcm
          rcases List.mem_cons.1 hm with rfl | hm
          · exact absurd hcm (hnc0 c)
          · exact h.kids m hm c hcm
    have notFn : ∀ v, attr L s.heap o n = some v → v.named = false → K o n = 0 := by
      intro v hv hnm
      rcases hi.level o n hw hd with ⟨v', v0, h1, h2, h3, h4⟩ | ⟨_, _, h3⟩
      · rw [hv] at h1; cases h1
        by_contra hk
        obtain ⟨_, ⟨_, _, u, hu, hun⟩, _⟩ := h4 hk
        rw [h2] at hu; cases hu
        rw [h3.named hun] at hnm; cases hnm
      · exact h3
    simp only [unwrapNames] at hr
    split at hr
    · rename_i hv
      refine skipCase ?_ ?_ hr
      · rcases hi.level o n hw hd with ⟨v', v0, h1, _⟩ | ⟨_, _, h3⟩
        · rw [hv] at h1; cases h1
        · exact h3
      · intro c hc
        have := hi.cls' hw hd hc
        rw [hv] at this; cases this
    · rename_i i hv
      refine skipCase (notFn _ hv rfl) ?_ hr
      intro c hc
      have := hi.cls' hw hd hc
      rw [hv] at this; cases this
    · rename_i c hv
      have hc0 := hi.cls hw hd hv
      split at hr
      · rename_i hc
        refine skipCase (notFn _ hv rfl) ?_ hr
        intro c' hc'
        rw [hc0] at hc'; cases hc'; exact hc
      · rename_i hc
        split at hr
        · cases hr
        · rename_i s1 hs1
          have hwc : Within L h0 t c := hw.child ⟨n, hd, hc0⟩
          obtain ⟨K1, d1⟩ := hrec c { s with seen := c :: s.seen } s1 K hwc hi hs1
          obtain ⟨K2, d2⟩ := ih hns' s1 K1 d1.inv hr
          have hc1 : c ∈ s1.seen := d1.mono c (by simp)
          refine ⟨K2, d2.inv, fun p m => Nat.le_trans (d2.le p m) (d1.le p m), ?_, fun p hp => d2.mono p (d1.mono p (by simp [hp])),
            ?_, ?_, ?_⟩
          · intro p m hm
            by_cases hpn : p = o ∧ m = n
            · obtain ⟨rfl, rfl⟩ := hpn
              left
              have := notFn _ hv rfl
              have h1 := d1.le p m
              have h2 := d2.le p m
              omega
            rcases d2.less p m hm with h2 | h2
            · exact .inl h2
            rcases d1.less p m hm with h1 | h1
            · left
              have := d2.le p m
              omega
            · right
              dsimp only at h1
              have h3 := ind_mono (p := p = o ∧ m ∈ n :: ns) (q := p = o ∧ m ∈ ns) (by
                rintro ⟨h1, h2⟩
                rcases List.mem_cons.1 h2 with h2 | h2
                · exact absurd ⟨h1, h2⟩ hpn
                · exact ⟨h1, h2⟩)
              by_cases hpc : p = c
              · subst hpc
                have h5 : ind (p = p ∧ m ∈ L.dir p) = 1 := ind_true (by simp [hm])
                have h6 : ind (p ∈ p :: s.seen) = 1 := ind_true (by simp)
                omega
              · have h5 : ind (p ∈ c :: s.seen) ≤ ind (p ∈ s.seen) := ind_mono (by simp [hpc])
                omega
          · intro p hp hps c' hc'
            by_cases hp1 : p ∈ s1.seen
            · refine d2.mono _ ?_
              by_cases hpc : p = c
              · subst hpc
                obtain ⟨m, hm, hmc⟩ := hc'
                exact d1.kids m hm c' hmc
              · exact d1.closed p hp1 (by simp [hpc, hps]) c' hc'
            · exact d2.closed p hp hp1 c' hc'
          · intro m hm c' hc'
            rcases List.mem_cons.1 hm with rfl | hm
            · rw [hc0] at hc'; cases hc'
              exact d2.mono _ hc1
            · exact d2.kids m hm c' hc'
          · intro p hp
            rcases d2.within p hp with h | h
            · rcases d1.within p h with h | h
              · rcases List.mem_cons.1 h with rfl | h
                · exact .inr hwc
                · exact .inl h
              · exact .inr h
            · exact .inr h
    · rename_i v h1 h2 hv
      exact fnCase v hv (fun c hc => h2 c hc) hr

theorem unwrapSub_done (hf : Frame L skip h0 t) (hn : NothingWrapped L h0 t) (fuel : Nat) :
    ∀ o s s' K, Within L h0 t o → LInv L skip h0 t s.heap K → unwrapSub L fuel o s = some s' →
      ∃ K', UDone (L := L) (skip := skip) (h0 := h0) (t := t) K o (L.dir o) s s' K' := by
  induction fuel with
  | zero => intro o s s' K _ _ h; simp [unwrapSub] at h
  | succ fuel ih =>
    intro o s s' K hw hi h
    exact unwrapNames_done hf hn _ ih o hw _ (fun _ h => h) s s' K hi h

/-! ### unwrap_all comes to an end -/

/-- Classes of a list not in another. -/
def unseen (univ seen : List Oid) : Nat := (univ.filter fun o => decide (o ∉ seen)).length

theorem unseen_cons {univ seen : List Oid} {c : Oid} (hc : c ∈ univ) (hs : c ∉ seen) :
    unseen univ (c :: seen) < unseen univ seen := by
  unfold unseen
  induction univ with
  | nil => cases hc
  | cons u us ih =>
    have hle : (us.filter fun o => decide (o ∉ c :: seen)).length ≤
        (us.filter fun o => decide (o ∉ seen)).length := by
      clear ih hc
      induction us with
      | nil => simp
      | cons x xs ih =>
        simp only [List.filter_cons]
        by_cases h1 : x ∉ seen
        · by_cases h2 : x ∉ c :: seen
          · simp only [h1, h2, not_false_eq_true, decide_true, if_true, List.length_cons]; omega
          · simp only [h1, h2, not_false_eq_true, decide_true, decide_false, if_true, List.length_cons]
            simp only [Bool.false_eq_true, if_false]; omega
        · have h2 : ¬ (x ∉ c :: seen) := by simp_all
          simp only [h1, h2, decide_false, Bool.false_eq_true, if_false]; exact ih
    by_cases huc : u = c
    · subst huc
      simp only [List.filter_cons]
      rw [if_neg (by simp), if_pos (by simpa using hs)]
      simp only [List.length_cons]; omega
    · have hc' : c ∈ us := by
        rcases List.mem_cons.1 hc with h | h
        · exact absurd h.symm huc
        · exact h
      have := ih hc'
      simp only [List.filter_cons]
      by_cases h1 : u ∉ seen
      · have h2 : u ∉ c :: seen := by simp [huc, h1]
        simp only [h1, h2, not_false_eq_true, decide_true, if_true, List.length_cons]; omega
      · have h2 : ¬ (u ∉ c :: seen) := by simp_all
        simp only [h1, h2, decide_false, Bool.false_eq_true, if_false]; exact this

theorem unseen_mono {univ seen seen' : List Oid} (h : ∀ p ∈ seen, p ∈ seen') :
    unseen univ seen' ≤ unseen univ seen := by
  unfold unseen
  induction univ with
  | nil => simp
  | cons x xs ih =>
    simp only [List.filter_cons]
    by_cases h1 : x ∉ seen'
    · have h2 : x ∉ seen := fun hx => h1 (h x hx)
      simp only [h1, h2, not_false_eq_true, decide_true, if_true, List.length_cons]; omega
    · simp only [h1, decide_false, Bool.false_eq_true, if_false]
      split
      · simp only [List.length_cons]; omega
      · exact ih

theorem unwrapNames_some (hf : Frame L skip h0 t) (hn : NothingWrapped L h0 t) (univ : List Oid)
    (huniv : ∀ c, Within L h0 t c → c ∈ univ) (fuel : Nat)
    (hrec : ∀ o s K, Within L h0 t o → LInv L skip h0 t s.heap K → unseen univ s.seen < fuel →
      ∃ s', unwrapSub L fuel o s = some s')
    (o : Oid) (hw : Within L h0 t o) (ns : List String) (hns : ∀ n ∈ ns, n ∈ L.dir o) (s : UState)
    (K : Oid → String → Nat) (hi : LInv L skip h0 t s.heap K) (hlt : unseen univ s.seen < fuel + 1) :
    ∃ s', unwrapNames L (unwrapSub L fuel) o ns s = some s' := by
  induction ns generalizing s K with
  | nil => exact ⟨s, rfl⟩
  | cons n ns ih =>
    have hd : n ∈ L.dir o := hns n (by simp)
    have hns' : ∀ n ∈ ns, n ∈ L.dir o := fun m hm => hns m (by simp [hm])
    simp only [unwrapNames]
    split
    · exact ih hns' s K hi hlt
    · exact ih hns' s K hi hlt
    · rename_i c hv
      have hc0 := hi.cls hw hd hv
      have hwc : Within L h0 t c := hw.child ⟨n, hd, hc0⟩
      split
      · exact ih hns' s K hi hlt
      · rename_i hc
        have hlt' := unseen_cons (huniv c hwc) hc
        obtain ⟨s1, hs1⟩ := hrec c { s with seen := c :: s.seen } K hwc hi (by dsimp only; omega)
        obtain ⟨K1, d1⟩ := unwrapSub_done hf hn fuel c { s with seen := c :: s.seen } s1 K hwc hi hs1
        rw [hs1]
        refine ih hns' s1 K1 d1.inv (Nat.lt_of_le_of_lt (unseen_mono d1.mono) ?_)
        dsimp only; omega
    · rename_i v h1 h2 hv
      -- one name, as a run of the loop over this name alone
      have hone : unwrapNames L (unwrapSub L fuel) o [n] s =
          some { s with heap := (unwrap L s.heap o n).getD s.heap } := by
        simp only [unwrapNames]
        split
        · rename_i h; rw [hv] at h; cases h
        · rename_i h; rw [hv] at h; cases h; exact absurd rfl (h1 _)
        · rename_i h; rw [hv] at h; cases h; exact absurd rfl (h2 _)
        · rfl
      obtain ⟨K1, d1⟩ := unwrapNames_done hf hn _ (unwrapSub_done hf hn fuel) o hw [n] (by simp [hd]) s _ K hi hone
      exact ih hns' _ K1 d1.inv hlt

theorem unwrapSub_some (hf : Frame L skip h0 t) (hn : NothingWrapped L h0 t) (univ : List Oid)
    (huniv : ∀ c, Within L h0 t c → c ∈ univ) (fuel : Nat) :
    ∀ o s K, Within L h0 t o → LInv L skip h0 t s.heap K → unseen univ s.seen < fuel →
      ∃ s', unwrapSub L fuel o s = some s' := by
  induction fuel with
  | zero => intro o s K _ _ h; omega
  | succ fuel ih =>
    intro o s K hw hi hlt
    exact unwrapNames_some hf hn univ huniv fuel ih o hw _ (fun _ h => h) s K hi hlt

/-! ### wrap_all -/

/-- A function `wrap_all` can wrap. -/
def CanWrap (c : WrapAllArgs) (o : Oid) (n : String) : Prop :=
  IsFunction L c.skip h0 o n ∧ L.frozen o = false ∧ ∀ v, attr L h0 o n = some v → c.cannot v = false

theorem make_none {c : WrapAllArgs} (hen : c.enable = true) {b : Bool} {a : String} {l : Int} {v : AVal}
    (h : (if b then none else c.make a l v) = none) : b = true ∨ c.cannot v = true := by
  simp only [WrapAllArgs.make, hen, if_true] at h
  split at h
  · exact .inl ‹_›
  · split at h
    · exact .inr ‹_›
    · cases h

theorem make_some {c : WrapAllArgs} (hen : c.enable = true) {b : Bool} {a : String} {l : Int} {v u : AVal}
    (h : (if b then none else c.make a l v) = some u) : b = false ∧ c.cannot v = false ∧ u = .wrapped a l v := by
  simp only [WrapAllArgs.make, hen, if_true] at h
  split at h
  · cases h
  · split at h
    · cases h
    · cases h; exact ⟨by simpa using ‹¬ b = true›, by simpa using ‹¬ c.cannot v = true›, rfl⟩

/-- What a part of `wrap_all` does, from `s` to `s'`, having gone over the names `ns` of `o`; `raised` says
whether it raised and `deep` whether classes are followed. -/
structure WDone (c : WrapAllArgs) (lb0 : String) (D : Nat) (K : Oid → String → Nat) (o : Oid)
    (ns : List String) (s s' : WState) (raised deep : Bool) (K' : Oid → String → Nat) : Prop where
  inv : LInv L c.skip h0 t s'.heap K'
  more : ∀ p n, K' p n + ind (p ∈ s.seen) ≤ K p n + ind (p = o ∧ n ∈ ns) + ind (p ∈ s'.seen)
  mono : ∀ p ∈ s.seen, p ∈ s'.seen
  within : ∀ p ∈ s'.seen, p ∈ s.seen ∨ Relation.TransGen (Child L h0) t p
  kmono : ∀ p n, K p n ≤ K' p n
  rmono : ∀ r ∈ s.ret, r ∈ s'.ret
  sound : ∀ r ∈ s'.ret, r ∈ s.ret ∨ ∃ d lb p n, d ≤ D ∧ Path L c.skip h0 t lb0 d lb p ∧
    Active L c.skip h0 t p n ∧ r = lb ++ "." ++ n ∧ K' p n ≠ 0
  grown : ∀ p n, K' p n ≠ K p n → ∃ d lb, d ≤ D ∧ Path L c.skip h0 t lb0 d lb p ∧ lb ++ "." ++ n ∈ s'.ret
  all : raised = false → ∀ n ∈ ns, CanWrap (L := L) (h0 := h0) c o n → K' o n ≠ 0
  allSeen : raised = false → ∀ p ∈ s'.seen, p ∉ s.seen → ∀ n, CanWrap (L := L) (h0 := h0) c p n → K' p n ≠ 0
  kids : raised = false → deep = true → ∀ n ∈ ns, c.skip n = false → ∀ k, attr L h0 o n = some (.cls k) →
    k ∈ s'.seen

theorem Path.within {D : Nat} {lb0 lb : String} {p : Oid} (h : Path L skip h0 t lb0 D lb p) :
    Within L h0 t p := by
  induction h with
  | here => exact Relation.ReflTransGen.refl
  | step _ hd _ ha ih => exact ih.child ⟨_, hd, ha⟩

theorem wrapNames_done {c : WrapAllArgs} (hen : c.enable = true) (hf : Frame L c.skip h0 t) (lb0 : String) (D d : Nat) (hdD : d ≤ D)
    (rec : Option (Oid → String → WState → WState × Bool))
    (hrec : ∀ r, rec = some r → d < D ∧ ∀ o lb s K, Path L c.skip h0 t lb0 (d + 1) lb o →
      LInv L c.skip h0 t s.heap K →
      ∃ K' b, WDone (L := L) (h0 := h0) (t := t) c lb0 D K o (L.dir o) s (r o lb s).1 (r o lb s).2 b K')
    (o : Oid) (lb : String) (hp : Path L c.skip h0 t lb0 d lb o) (ns : List String)
    (hns : ∀ n ∈ ns, n ∈ L.dir o) (hnd : ns.Nodup) (s : WState) (K : Oid → String → Nat)
    (hi : LInv L c.skip h0 t s.heap K) :
    ∃ K', WDone (L := L) (h0 := h0) (t := t) c lb0 D K o ns s (wrapNames L c rec o lb ns s).1
      (wrapNames L c rec o lb ns s).2 rec.isSome K' := by
  have hw := hp.within
  induction ns generalizing s K with
  | nil =>
    exact ⟨K, hi, fun p n => Nat.add_le_add_right (Nat.le_add_right _ _) _, fun _ h => h, fun _ h => .inl h,
      fun _ _ => Nat.le_refl _, fun _ h => h, fun _ h => .inl h, fun _ _ h => absurd rfl h, by simp, fun _ p h h' => absurd h h', by simp⟩
  | cons n ns ih =>
    have hd : n ∈ L.dir o := hns n (by simp)
    have hns' : ∀ n ∈ ns, n ∈ L.dir o := fun m hm => hns m (by simp [hm])
    obtain ⟨hnn, hnd'⟩ := List.nodup_cons.1 hnd
    have hmono : ∀ p m, ind (p = o ∧ m ∈ ns) ≤ ind (p = o ∧ m ∈ n :: ns) := fun p m =>
      ind_mono (fun h => ⟨h.1, by simp [h.2]⟩)
    -- stopping here with an exception
    have stop : ∃ K', WDone (L := L) (h0 := h0) (t := t) c lb0 D K o (n :: ns) s s true rec.isSome K' :=
      ⟨K, hi, fun p n => by omega, fun _ h => h, fun _ h => .inl h, fun _ _ => Nat.le_refl _, fun _ h => h,
        fun _ h => .inl h, fun _ _ h => absurd rfl h, by simp, by simp, by simp⟩
    -- a name that is passed over
    have skipCase : (CanWrap (L := L) (h0 := h0) c o n → K o n ≠ 0) →
        (rec.isSome = true → c.skip n = false → ∀ k, attr L h0 o n = some (.cls k) → k ∈ s.seen) →
        ∃ K', WDone (L := L) (h0 := h0) (t := t) c lb0 D K o (n :: ns) s
          (wrapNames L c rec o lb ns s).1 (wrapNames L c rec o lb ns s).2 rec.isSome K' := by
      intro hcan hcls
      obtain ⟨K', h⟩ := ih hns' hnd' s K hi
      refine ⟨K', h.inv, fun p m => ?_, h.mono, h.within, h.kmono, h.rmono, h.sound, h.grown, ?_, h.allSeen, ?_⟩
      · have := h.more p m
        have := hmono p m
        omega
      · intro hb m hm hc
        rcases List.mem_cons.1 hm with rfl | hm
        · have := h.kmono o m
          have := hcan hc
          omega
        · exact h.all hb m hm hc
      · intro hb hdp m hm hsk k hk
        rcases List.mem_cons.1 hm with rfl | hm
        · exact h.mono _ (hcls hdp hsk k hk)
        · exact h.kids hb hdp m hm hsk k hk
    -- the attribute as it was
    have orig : ∀ v, attr L s.heap o n = some v → K o n ≠ 0 ∨ attr L h0 o n = some v := by
      intro v hv
      rcases hi.level o n hw hd with ⟨v', v0, h1, h2, h3, h4⟩ | ⟨h1, _⟩
      · rw [hv] at h1; cases h1
        generalize hk : K o n = k at h3 h4
        cases h3 with
        | zero => exact .inr h2
        | succ a l h => exact .inl (by omega)
      · rw [hv] at h1; cases h1
    have notCls : ∀ v, attr L s.heap o n = some v → (∀ k, v ≠ .cls k) → ∀ k, attr L h0 o n ≠ some (.cls k) := by
      intro v hv hne k hk
      have := hi.cls' hw hd hk
      rw [hv] at this; cases this; exact hne k rfl
    simp only [wrapNames]
    split
    · rename_i hsk
      exact skipCase (fun h => by have := h.1.2.1; rw [hsk] at this; cases this)
        (fun _ h => by rw [hsk] at h; cases h)
    rename_i hsk
    have hsk' : c.skip n = false := by simpa using hsk
    split
    · exact stop
    rename_i v hv
    have notFn : v.named = false → CanWrap (L := L) (h0 := h0) c o n → K o n ≠ 0 := by
      intro hnm hc
      rcases orig v hv with h | h
      · exact h
      · obtain ⟨⟨_, _, u, hu, hun⟩, _⟩ := hc
        rw [h] at hu; cases hu; rw [hnm] at hun; cases hun
    split
    · exact skipCase (notFn rfl) (fun _ _ k hk => absurd hk (notCls _ hv (by simp) k))
    · rename_i k
      have hc0 := hi.cls hw hd hv
      have hch : Child L h0 o k := ⟨n, hd, hc0⟩
      split
      · exact skipCase (notFn rfl) (by simp)
      · rename_i r
        split
        · rename_i hks
          exact skipCase (notFn rfl) (fun _ _ k' hk' => by rw [hc0] at hk'; cases hk'; exact hks)
        · rename_i hks
          obtain ⟨hlt, hr⟩ := hrec r rfl
          obtain ⟨K1, b1, d1⟩ := hr k (lb ++ "." ++ n) { s with seen := k :: s.seen } K
            (.step hp hd hsk' hc0) hi
          have hmore1 : ∀ p m, K1 p m + ind (p ∈ s.seen) ≤
              K p m + ind (p ∈ (r k (lb ++ "." ++ n) { s with seen := k :: s.seen }).1.seen) := by
            intro p m
            have h1 := d1.more p m
            dsimp only at h1
            by_cases hpk : p = k
            · subst hpk
              have h2 : ind (p ∈ p :: s.seen) = 1 := ind_true (by simp)
              have h3 := ind_le_one (p = p ∧ m ∈ L.dir p)
              have h4 : ind (p ∈ s.seen) = 0 := ind_false hks
              omega
            · have h2 : ind (p ∈ s.seen) ≤ ind (p ∈ k :: s.seen) := ind_mono (by simp +contextual)
              have h3 : ind (p = k ∧ m ∈ L.dir k) = 0 := ind_false (by simp [hpk])
              omega
          have hmn : ∀ p ∈ s.seen, p ∈ (r k (lb ++ "." ++ n) { s with seen := k :: s.seen }).1.seen :=
            fun p hp => d1.mono p (by simp [hp])
          have hkn : k ∈ (r k (lb ++ "." ++ n) { s with seen := k :: s.seen }).1.seen := d1.mono k (by simp)
          have hwi : ∀ p ∈ (r k (lb ++ "." ++ n) { s with seen := k :: s.seen }).1.seen,
              p ∈ s.seen ∨ Relation.TransGen (Child L h0) t p := by
            intro p hp
            rcases d1.within p hp with h | h
            · rcases List.mem_cons.1 h with rfl | h
              · exact .inr (Relation.TransGen.tail' hw hch)
              · exact .inl h
            · exact .inr h
          have hall1 : (r k (lb ++ "." ++ n) { s with seen := k :: s.seen }).2 = false →
              ∀ p ∈ (r k (lb ++ "." ++ n) { s with seen := k :: s.seen }).1.seen, p ∉ s.seen →
              ∀ m, CanWrap (L := L) (h0 := h0) c p m → K1 p m ≠ 0 := by
            intro hb p hp hps m hm
            by_cases hpk : p = k
            · subst hpk
              exact d1.all hb m hm.1.1 hm
            · exact d1.allSeen hb p hp (by simp [hpk, hps]) m hm
          have hsound1 := d1.sound
          have hgrown1 := d1.grown
          have hrm1 := d1.rmono
          have hres : ∀ (x : WState × Bool), x = r k (lb ++ "." ++ n) { s with seen := k :: s.seen } →
              ∃ K', WDone (L := L) (h0 := h0) (t := t) c lb0 D K o (n :: ns) s
                (match x with
                  | (s, true) => (s, true)
                  | (s, false) => wrapNames L c (some r) o lb ns s).1
                (match x with
                  | (s, true) => (s, true)
                  | (s, false) => wrapNames L c (some r) o lb ns s).2 (some r).isSome K' := by
            rintro ⟨s1, b⟩ hx
            rw [← hx] at d1 hmore1 hmn hwi hkn hall1 hsound1 hgrown1 hrm1
            cases b with
            | true =>
              refine ⟨K1, d1.inv, fun p m => ?_, hmn, hwi, d1.kmono, hrm1, hsound1, hgrown1, by simp, by simp,
                by simp⟩
              have := hmore1 p m
              dsimp only at this ⊢
              omega
            | false =>
              obtain ⟨K2, d2⟩ := ih hns' hnd' s1 K1 d1.inv
              refine ⟨K2, d2.inv, fun p m => ?_, fun p hp => d2.mono p (hmn p hp), fun p hp => ?_,
                fun p m => Nat.le_trans (d1.kmono p m) (d2.kmono p m), fun x hx => d2.rmono x (hrm1 x hx), ?_, ?_,
                ?_, ?_, ?_⟩
              · have h1 := hmore1 p m
                have h2 := d2.more p m
                have h3 := hmono p m
                dsimp only at h1 h2 ⊢
                omega
              · rcases d2.within p hp with h | h
                · exact hwi p h
                · exact .inr h
              · intro x hx
                rcases d2.sound x hx with h | h
                · rcases hsound1 x h with h | ⟨d', lb', p, m, g1, g2, g3, g4, g5⟩
                  · exact .inl h
                  · refine .inr ⟨d', lb', p, m, g1, g2, g3, g4, ?_⟩
                    have := d2.kmono p m
                    omega
                · exact .inr h
              · intro p m hne
                by_cases h12 : K2 p m = K1 p m
                · obtain ⟨d', lb', g1, g2, g3⟩ := hgrown1 p m (by rw [← h12]; exact hne)
                  exact ⟨d', lb', g1, g2, d2.rmono _ g3⟩
                · exact d2.grown p m h12
              · intro hb m hm hc
                rcases List.mem_cons.1 hm with rfl | hm
                · have h1 := notFn rfl hc
                  have h2 := d1.kmono o m
                  have h3 := d2.kmono o m
                  omega
                · exact d2.all hb m hm hc
              · intro hb p hp hps m hm
                by_cases hp1 : p ∈ s1.seen
                · have h1 := hall1 rfl p hp1 hps m hm
                  have h2 := d2.kmono p m
                  omega
                · exact d2.allSeen hb p hp hp1 m hm
              · intro hb hdp m hm hsm k' hk'
                rcases List.mem_cons.1 hm with rfl | hm
                · rw [hc0] at hk'; cases hk'
                  exact d2.mono _ hkn
                · exact d2.kids hb hdp m hm hsm k' hk'
          exact hres _ rfl
    · rename_i hnp hncls
      have hcls0 := notCls v hv (fun k hk => hncls k hk)
      split
      · rename_i hnm
        split
        · rename_i hcan
          split
          · refine skipCase (fun hc => ?_) (fun _ _ k hk => absurd hk (hcls0 k))
            rcases orig v hv with h | h
            · exact h
            · have hno := make_none hen hcan
              rw [hc.2.1, hc.2.2 v h] at hno
              simp at hno
          · exact stop
        · rename_i u hcan
          obtain ⟨hfz, -, rfl⟩ := make_some hen hcan
          rcases hi.level o n hw hd with ⟨v', v0, h1, h2, h3, h4⟩ | ⟨h1, _⟩
          swap
          · rw [hv] at h1; cases h1
          rw [hv] at h1; cases h1
          have hfun : v0.named = true := by
            generalize hk : K o n = k at h3 h4
            cases h3 with
            | zero => exact hnm
            | succ a l h =>
              obtain ⟨_, ⟨_, _, u, hu, hun⟩, _⟩ := h4 (by omega)
              rw [h2] at hu; cases hu; exact hun
          have ha : Active L c.skip h0 t o n := ⟨hw, ⟨hd, hsk', v0, h2, hfun⟩, hfz⟩
          have hi1 := hi.put hf ha h2 (.succ (lb ++ "." ++ n) (c.levelFor n) h3)
          obtain ⟨K', d'⟩ := ih hns' hnd' { s with
              heap := s.heap.put o n (.wrapped (lb ++ "." ++ n) (c.levelFor n) v), ret := s.ret ++ [lb ++ "." ++ n] } _ hi1
          have hu : ∀ p m, K p m ≤ upd K o n (K o n + 1) p m := by
            intro p m; unfold upd; split
            · rename_i h; rw [h.1, h.2]; omega
            · exact Nat.le_refl _
          have hK : K' o n ≠ 0 := by
            have := d'.kmono o n
            rw [show upd K o n (K o n + 1) o n = K o n + 1 by simp [upd]] at this
            omega
          have hret : lb ++ "." ++ n ∈ (wrapNames L c rec o lb ns { s with
              heap := s.heap.put o n (.wrapped (lb ++ "." ++ n) (c.levelFor n) v), ret := s.ret ++ [lb ++ "." ++ n] }).1.ret :=
            d'.rmono _ (by simp)
          refine ⟨K', d'.inv, fun p m => ?_, d'.mono, d'.within, fun p m => Nat.le_trans (hu p m) (d'.kmono p m),
            fun x hx => d'.rmono x (by simp [hx]), ?_, ?_, ?_, d'.allSeen, ?_⟩
          · have h5 := d'.more p m
            dsimp only at h5
            by_cases hpm : p = o ∧ m = n
            · obtain ⟨rfl, rfl⟩ := hpm
              rw [show upd K p m (K p m + 1) p m = K p m + 1 by simp [upd]] at h5
              have h6 : ind (p = p ∧ m ∈ m :: ns) = 1 := ind_true (by simp)
              have h7 : ind (p = p ∧ m ∈ ns) = 0 := ind_false (by simp [hnn])
              omega
            · simp only [upd, hpm, if_false] at h5
              have := hmono p m
              omega
          · intro x hx
            rcases d'.sound x hx with h | h
            · rcases List.mem_append.1 h with h | h
              · exact .inl h
              · exact .inr ⟨d, lb, o, n, hdD, hp, ha, by simpa using h, hK⟩
            · exact .inr h
          · intro p m hne
            by_cases hpm : p = o ∧ m = n
            · obtain ⟨rfl, rfl⟩ := hpm
              exact ⟨d, lb, hdD, hp, hret⟩
            · exact d'.grown p m (by simpa only [upd, hpm, if_false] using hne)
          · intro hb m hm hc
            rcases List.mem_cons.1 hm with rfl | hm
            · exact hK
            · exact d'.all hb m hm hc
          · intro hb hdp m hm hsm k hk
            rcases List.mem_cons.1 hm with rfl | hm
            · exact absurd hk (hcls0 k)
            · exact d'.kids hb hdp m hm hsm k hk
      · rename_i hnm
        exact skipCase (notFn (by simpa using hnm)) (fun _ _ k hk => absurd hk (hcls0 k))

theorem wrapSub_done {c : WrapAllArgs} (hen : c.enable = true) (hf : Frame L c.skip h0 t) (hnd : ∀ o, (L.dir o).Nodup) (lb0 : String)
    (D r : Nat) : ∀ d, d + r = D → ∀ o lb s K, Path L c.skip h0 t lb0 d lb o → LInv L c.skip h0 t s.heap K →
      ∃ K', WDone (L := L) (h0 := h0) (t := t) c lb0 D K o (L.dir o) s (wrapSub L c r o lb s).1
        (wrapSub L c r o lb s).2 (decide (r ≠ 0)) K' := by
  induction r with
  | zero =>
    intro d hd o lb s K hp hi
    exact wrapNames_done hen hf lb0 D d (by omega) none (by simp) o lb hp _ (fun _ h => h) (hnd o) s K hi
  | succ r ih =>
    intro d hd o lb s K hp hi
    refine wrapNames_done hen hf lb0 D d (by omega) (some (wrapSub L c r)) ?_ o lb hp _ (fun _ h => h) (hnd o) s K hi
    intro r' hr'
    cases hr'
    refine ⟨by omega, fun o lb s K hp hi => ?_⟩
    obtain ⟨K', h⟩ := ih (d + 1) (by omega) o lb s K hp hi
    exact ⟨K', _, h⟩

/-- After `wrap_all` (even if it raised) and `unwrap_all`, no wrapper is left in sight. -/
theorem wrap_unwrap_level {c : WrapAllArgs} (hen : c.enable = true) (hf : Frame L c.skip h0 t)
    (hnd : ∀ o, (L.dir o).Nodup) (hn : NothingWrapped L h0 t) (univ : List Oid)
    (huniv : ∀ k, Within L h0 t k → k ∈ univ) (depth : Int) (label : String) (fuel : Nat)
    (hfuel : univ.length < fuel) :
    ∃ h', unwrapAll L fuel (wrapAll L c depth label h0 t).1.heap t = some h' ∧
      Touched L c.skip h0 t h' ∧ ∀ o n, Within L h0 t o → n ∈ L.dir o → attr L h' o n = attr L h0 o n := by
  have hw0 : Within L h0 t t := Relation.ReflTransGen.refl
  obtain ⟨K1, d1⟩ := wrapSub_done hen hf hnd label depth.toNat depth.toNat 0 (by omega) t label
    ⟨h0, [], []⟩ _ .here LInv.init
  have hlt : unseen univ ([] : List Oid) < fuel :=
    Nat.lt_of_le_of_lt (List.length_filter_le _ _) hfuel
  obtain ⟨s', hs'⟩ := unwrapSub_some hf hn univ huniv fuel t
    ⟨(wrapAll L c depth label h0 t).1.heap, []⟩ K1 hw0 d1.inv hlt
  obtain ⟨K2, d2⟩ := unwrapSub_done hf hn fuel t _ s' K1 hw0 d1.inv hs'
  refine ⟨s'.heap, by simp [unwrapAll, hs'], d2.inv.touched, ?_⟩
  intro o n hw hd
  have hplus : ∀ p, Relation.TransGen (Child L h0) t p → p ∈ s'.seen := by
    intro p hp
    induction hp with
    | single h => obtain ⟨m, hm, hc⟩ := h; exact d2.kids m hm _ hc
    | tail _ h ih => exact d2.closed _ ih (by simp) _ h
  have hk : K2 o n = 0 := by
    rcases d2.less o n hd with h | h
    · exact h
    · have h1 := d1.more o n
      dsimp only at h h1
      have h2 : ind (o = t ∧ n ∈ L.dir t) ≤ ind (o = t ∧ n ∈ L.dir t) := Nat.le_refl _
      have h3 : ind (o ∈ (wrapSub L c depth.toNat t label ⟨h0, [], []⟩).1.seen) ≤ ind (o ∈ s'.seen) :=
        ind_mono (fun h => by
          rcases d1.within o h with h | h
          · simp at h
          · exact hplus o h)
      have h4 : ind (o ∈ ([] : List Oid)) = 0 := ind_false (by simp)
      omega
  rcases d2.inv.level o n hw hd with ⟨v, v0, h1, h2, h3, _⟩ | ⟨h1, h2, _⟩
  · rw [hk] at h3
    cases h3
    rw [h1, h2]
  · rw [h1, h2]

end
end Verif.Wrapping
