import Verif.Model.ResConc
import Verif.Lemmas.Modes
import Verif.Props.Quantile
import Mathlib.Algebra.Order.Floor.Ring
import Mathlib.Data.Rat.Floor
/-!
# C114: a quantile accumulator keeps the values of all threads
-/
namespace Verif.ResConc
open Verif.Quant Verif.Accum
open Verif.Modes (flatMap_set)
open scoped List

variable {K : Type} [Field K] [LinearOrder K] [IsStrictOrderedRing K] [FloorRing K]

/-! ### The specification -/

/-- The value a thread is in `add` with. -/
def valOf : PC K → Option K
  | .load v | .append v _ | .flag v | .rdCount v | .wrCount v _ | .cmpMin v | .setMin v | .cmpMax v | .setMax v => some v
  | _ => none

/-- The point a thread is reading the quantile of. -/
def pointOf : PC K → Option K
  | .test q | .copy q | .put q _ | .mark q | .take q | .size q _ | .item q _ _ => some q
  | _ => none

/-- No thread is in a call. -/
def Quiescent (s : Sys K) : Prop := ∀ p ∈ s.pcs, p = .idle

/-- The values the accumulator has. -/
def held (s : Sys K) : List K := s.arr s.data

/-- The claim about values: whenever no call is under way, the accumulator has what was added. -/
def KeepsValues : Prop :=
  ∀ (n : Nat) (sched : List (Tid × Act ℚ)), Quiescent (run id (init n) sched) →
    held (run id (init n) sched) ~ (run id (init n) sched).calls

/-- The claim about the count and the extremes. -/
def KeepsCount : Prop :=
  ∀ (n : Nat) (sched : List (Tid × Act ℚ)), Quiescent (run id (init n) sched) →
    (run id (init n) sched).count = (run id (init n) sched).calls.length ∧
    Extremes (run id (init n) sched).calls (run id (init n) sched).min (run id (init n) sched).max

/-- The claim about reading: what is read with no other call under way is the interpolated quantile of the values added. -/
def ReadsRight : Prop :=
  ∀ (n : Nat) (sched : List (Tid × Act ℚ)), Quiescent (run id (init n) sched) →
    ∀ (t : Tid) (_ : t < n) (q : ℚ) (_ : 0 < q ∧ q < 1), (run id (init n) sched).calls ≠ [] →
    ∃ v, (run id (init n) (sched ++ (t, .read q) :: List.replicate 7 (t, .go))).reads.getLast? =
      some (q, (run id (init n) sched).calls, .ok v) ∧
      Interp (sorted (run id (init n) sched).calls) (q * (((run id (init n) sched).calls.length : ℚ) - 1)) v

/-- And reading never raises IndexError once there is a value that no `add` is under way with. -/
def ReadsNeverRaise : Prop :=
  ∀ (n : Nat) (pre post : List (Tid × Act ℚ)), Quiescent (run id (init n) pre) → (run id (init n) pre).calls ≠ [] →
    ∀ x ∈ (run id (init n) (pre ++ post)).reads.drop (run id (init n) pre).reads.length, x.2.2 ≠ .error .index

/-! ### It is false -/

/-- A thread goes on until it is through. -/
def goes (n : Nat) (t : Tid) : List (Tid × Act ℚ) := List.replicate n (t, .go)

/-- **C114** is false of the code: a value that is added while another thread reads a quantile goes to the array that the sorted
copy then replaces. -/
theorem C114_lost_value_violated : ∃ sched, Quiescent (run id (init 2) sched) ∧ (run id (init 2) sched).calls = [1, (2 : ℚ)] ∧
    held (run id (init 2) sched) = [1] ∧ (run id (init 2) sched).count = 2 :=
  ⟨[(0, .add 1)] ++ goes 9 0 ++ [(1, .read (1 / 2))] ++ goes 2 1 ++ [(0, .add 2)] ++ goes 9 0 ++ goes 5 1,
    by unfold Quiescent; decide +kernel, by decide +kernel, by decide +kernel, by decide +kernel⟩

theorem C114_violated : ¬ KeepsValues := by
  intro h
  obtain ⟨sched, h1, h2, h3, -⟩ := C114_lost_value_violated
  have := (h 2 sched h1).length_eq
  rw [h2, h3] at this
  simp at this

/-- Or the values are marked as sorted although one has been added since: from then on quantiles are wrong. -/
theorem C114_order_violated : ¬ ReadsRight := by
  intro h
  have hs : ∃ sched, Quiescent (run id (init 2) sched) ∧ (run id (init 2) sched).calls = [2, (1 : ℚ)] ∧
      (run id (init 2) (sched ++ (1, .read (1 / 4)) :: List.replicate 7 (1, .go))).reads.getLast? =
        some (1 / 4, [2, 1], .ok (7 / 4)) :=
    ⟨[(0, .add 2)] ++ goes 9 0 ++ [(1, .read (1 / 2))] ++ goes 3 1 ++ [(0, .add 1)] ++ goes 9 0 ++ goes 4 1,
      by unfold Quiescent; decide +kernel, by decide +kernel, by decide +kernel⟩
  obtain ⟨sched, h1, h2, h3⟩ := hs
  obtain ⟨v, hv, hi⟩ := h 2 sched h1 1 (by decide) (1 / 4) (by norm_num) (by rw [h2]; simp)
  rw [h3] at hv
  simp only [Option.some.injEq, Prod.mk.injEq, Except.ok.injEq] at hv
  obtain ⟨-, -, rfl⟩ := hv
  rw [h2] at hi
  have hsort : sorted [2, (1 : ℚ)] = [1, 2] := (eq_sorted (by decide +kernel) (List.Perm.swap _ _ _)).symm
  rw [hsort] at hi
  obtain ⟨i, t, a, b, t0, t1, hx, ha, hb, hv⟩ := hi
  have hi0 : i = 0 := by
    rcases i with _ | i
    · rfl
    · exfalso
      push_cast at hx
      have : (0 : ℚ) ≤ i := Nat.cast_nonneg i
      norm_num at hx
      linarith
  subst hi0
  norm_num at hx ha hb
  subst ha hx
  rcases hb with h | h
  · norm_num at h
  · rw [← h] at hv
    norm_num at hv

/-- Or the array has been replaced between taking it and asking for the length: reading raises. -/
theorem C114_index_violated : ¬ ReadsNeverRaise := by
  intro h
  refine h 3 ([(0, .add 1)] ++ goes 9 0)
    ([(1, .read (1 / 2)), (2, .read (1 / 2))] ++ goes 2 2 ++ goes 5 1 ++ goes 1 2 ++ [(0, .add 2)] ++ goes 9 0 ++ goes 2 1)
    (by unfold Quiescent; decide +kernel) (by decide +kernel) (1 / 2, [1, 2], .error .index) (by decide +kernel) rfl

/-- Two threads read the count before either writes it; and the larger of two values loses against the smaller. -/
theorem C114_count_violated : ¬ KeepsCount := by
  intro h
  have := (h 2 ([(0, .add 1), (1, .add 2)] ++ goes 4 0 ++ goes 9 1 ++ goes 5 0) (by unfold Quiescent; decide +kernel)).1
  revert this
  decide +kernel

theorem C114_max_violated : ∃ sched, Quiescent (run id (init 2) sched) ∧ (run id (init 2) sched).calls = [5, (9 : ℚ)] ∧
    (run id (init 2) sched).max = fin 5 :=
  ⟨[(0, .add 5), (1, .add 9)] ++ goes 8 0 ++ goes 9 1 ++ goes 1 0,
    by unfold Quiescent; decide +kernel, by decide +kernel, by decide +kernel⟩

/-! ### What holds of every schedule -/

variable (store : K → K)

/-- A step changes nothing, or it is a step of a thread in a call, or a thread calls. -/
theorem step_cases (s : Sys K) (t : Tid) (a : Act K) :
    step store s t a = s ∨ (∃ p, s.pcs[t]? = some p ∧ p ≠ .idle ∧ step store s t a = go store s t p) ∨
      (s.pcs[t]? = some .idle ∧ a ≠ .go ∧ step store s t a = call s t a) := by
  unfold step
  rcases hp : s.pcs[t]? with _ | p
  · exact .inl rfl
  · cases a with
    | go =>
      by_cases h : p = .idle
      · subst h; exact .inl rfl
      · exact .inr (.inl ⟨p, rfl, h, rfl⟩)
    | add v => cases p <;> first | exact .inl rfl | exact .inr (.inr ⟨rfl, by simp, rfl⟩)
    | read q => cases p <;> first | exact .inl rfl | exact .inr (.inr ⟨rfl, by simp, rfl⟩)

theorem run_snoc (s : Sys K) (sched : List (Tid × Act K)) (x : Tid × Act K) :
    run store s (sched ++ [x]) = step store (run store s sched) x.1 x.2 := by
  simp [run, List.foldl_append]

/-- The value that is still to be appended. -/
def pendOf : PC K → List K
  | .load v | .append v _ => [v]
  | _ => []

def pend (s : Sys K) : List K := s.pcs.flatMap pendOf

/-- A thread that has yet to count its value. -/
def uncounted : PC K → List Unit
  | .load _ | .append _ _ | .flag _ | .rdCount _ | .wrCount _ _ => [()]
  | _ => []

def toCount (s : Sys K) : Nat := (s.pcs.flatMap uncounted).length

structure Bound (s : Sys K) : Prop where
  arrs : ∀ a, s.arr a ++ (pend s).map store <+~ s.calls.map store
  count : s.count + toCount s ≤ s.calls.length
  stale : ∀ v c, .wrCount v c ∈ s.pcs → c + toCount s ≤ s.calls.length
  vals : ∀ p ∈ s.pcs, ∀ v, valOf p = some v → v ∈ s.calls
  min : s.min = posInf ∨ ∃ v ∈ s.calls, s.min = fin v
  max : s.max = negInf ∨ ∃ v ∈ s.calls, s.max = fin v

variable {store}

theorem mem_of_get {α : Type} {l : List α} {t : Nat} {p : α} (h : l[t]? = some p) : p ∈ l := List.mem_of_getElem? h

theorem ascending_perm (l : List K) : ascending l ~ l := List.mergeSort_perm l _

theorem bound_step {s : Sys K} (h : Bound store s) (t : Tid) (a : Act K) : Bound store (step store s t a) := by
  rcases step_cases store s t a with e | ⟨p, hp, hid, e⟩ | ⟨hp, ha, e⟩
  · rw [e]; exact h
  · rw [e]
    obtain ⟨X, hX, hX'⟩ := flatMap_set pendOf hp
    obtain ⟨U, hU, hU'⟩ := flatMap_set uncounted hp
    have hlen : ∀ q, ((s.pcs.set t q).flatMap uncounted).length = (uncounted q).length + U.length := by
      intro q; rw [(hU' q).length_eq, List.length_append]
    have hlen0 : toCount s = (uncounted p).length + U.length := by
      unfold toCount; rw [hU.length_eq, List.length_append]
    have hmem := mem_of_get hp
    have hvals : ∀ q, (∀ v, valOf q = some v → valOf p = some v) → ∀ r ∈ s.pcs.set t q, ∀ v, valOf r = some v → v ∈ s.calls := by
      intro q hq r hr v hv
      rcases List.mem_or_eq_of_mem_set hr with hr | rfl
      · exact h.vals r hr v hv
      · exact h.vals p hmem v (hq v hv)
    have hst : ∀ q, (∀ v c, q ≠ .wrCount v c) → (uncounted q).length ≤ (uncounted p).length →
        ∀ v c, .wrCount v c ∈ s.pcs.set t q → c + ((uncounted q).length + U.length) ≤ s.calls.length := by
      intro q hq hl v c hr
      rcases List.mem_or_eq_of_mem_set hr with hr | hr
      · have := h.stale v c hr; omega
      · exact absurd hr.symm (hq v c)
    -- all the arrays, when what is pending does not change
    have hsame : ∀ q, pendOf q = pendOf p → ∀ a, s.arr a ++ ((s.pcs.set t q).flatMap pendOf).map store <+~ s.calls.map store := by
      intro q hq a
      refine List.Subperm.trans (List.Perm.subperm ?_) (h.arrs a)
      refine List.Perm.append_left _ (List.Perm.map _ ?_)
      exact (hX' q).trans (by rw [hq]; exact hX.symm)
    cases p with
    | idle => exact absurd rfl hid
    | load v =>
      exact ⟨hsame _ rfl, by have := h.count; simp only [go, Sys.to, toCount, hlen]; simp [uncounted] at *; omega,
        fun v' c hr => by
          have := hst _ (by simp) (by simp [uncounted]) v' c hr
          simpa only [go, Sys.to, toCount, hlen] using this,
        hvals _ (by simp [valOf]), h.min, h.max⟩
    | append v a =>
      refine ⟨fun b => ?_, by have := h.count; simp only [go, Sys.to, toCount, hlen]; simp [uncounted] at *; omega,
        fun v' c hr => by
          have := hst _ (by simp) (by simp [uncounted]) v' c hr
          simpa only [go, Sys.to, toCount, hlen] using this,
        hvals _ (by simp [valOf]), h.min, h.max⟩
      have hb := h.arrs b
      have e1 : (pend s).map store ~ store v :: X.map store := by
        have := hX.map store
        simpa [pendOf, pend] using this
      have e2 : ((s.pcs.set t (.flag v)).flatMap pendOf).map store ~ X.map store := by
        have := (hX' (.flag v)).map store
        simpa [pendOf] using this
      change (if b = a then s.arr a ++ [store v] else s.arr b) ++ ((s.pcs.set t (.flag v)).flatMap pendOf).map store <+~ _
      refine List.Subperm.trans ?_ hb
      split
      · rename_i hba; subst hba
        refine List.Perm.subperm ?_
        rw [List.append_assoc]
        refine List.Perm.append_left _ ?_
        exact (List.Perm.append_left _ e2).trans e1.symm
      · refine List.Subperm.trans (List.Perm.subperm (List.Perm.append_left _ e2)) ?_
        refine List.Subperm.trans ?_ (List.Perm.subperm (List.Perm.append_left _ e1.symm))
        exact (List.Sublist.append_left (List.sublist_cons_self _ _) _).subperm
    | flag v =>
      exact ⟨hsame _ rfl, by have := h.count; simp only [go, Sys.to, toCount, hlen]; simp [uncounted] at *; omega,
        fun v' c hr => by
          have := hst _ (by simp) (by simp [uncounted]) v' c hr
          simpa only [go, Sys.to, toCount, hlen] using this,
        hvals _ (by simp [valOf]), h.min, h.max⟩
    | rdCount v =>
      refine ⟨hsame _ rfl, by have := h.count; simp only [go, Sys.to, toCount, hlen]; simp [uncounted] at *; omega,
        fun v' c hr => ?_, hvals _ (by simp [valOf]), h.min, h.max⟩
      have h1 := h.count
      simp only [go, Sys.to, toCount, hlen] at hr ⊢
      rcases List.mem_or_eq_of_mem_set hr with hr | hr
      · have := h.stale v' c hr; simp only [uncounted, List.length_singleton] at *; omega
      · cases hr; simp only [uncounted, List.length_singleton] at *; omega
    | wrCount v c =>
      have hc := h.stale v c hmem
      refine ⟨hsame _ rfl, ?_, fun v' c' hr => ?_, hvals _ (by simp [valOf]), h.min, h.max⟩
      · simp only [go, Sys.to, toCount, hlen]; simp [uncounted] at *; omega
      · have := hst (.cmpMin v) (by simp) (by simp [uncounted]) v' c' hr
        simpa only [go, Sys.to, toCount, hlen] using this
    | cmpMin v =>
      have hq : ∀ q : PC K, q = .setMin v ∨ q = .cmpMax v → Bound store (s.to t q) := by
        rintro q (rfl | rfl) <;>
        exact ⟨hsame _ rfl, by have := h.count; simp only [Sys.to, toCount, hlen]; simp [uncounted] at *; omega,
          fun v' c hr => by
            have := hst _ (by simp) (by simp [uncounted]) v' c hr
            simpa only [Sys.to, toCount, hlen] using this,
          hvals _ (by simp [valOf]), h.min, h.max⟩
      exact hq _ (by split <;> simp)
    | setMin v =>
      exact ⟨hsame _ rfl, by have := h.count; simp only [go, Sys.to, toCount, hlen]; simp [uncounted] at *; omega,
        fun v' c hr => by
          have := hst _ (by simp) (by simp [uncounted]) v' c hr
          simpa only [go, Sys.to, toCount, hlen] using this,
        hvals _ (by simp [valOf]), .inr ⟨v, h.vals _ hmem v rfl, rfl⟩, h.max⟩
    | cmpMax v =>
      have hq : ∀ q : PC K, q = .setMax v ∨ q = .idle → Bound store (s.to t q) := by
        rintro q (rfl | rfl) <;>
        exact ⟨hsame _ rfl, by have := h.count; simp only [Sys.to, toCount, hlen]; simp [uncounted] at *; omega,
          fun v' c hr => by
            have := hst _ (by simp) (by simp [uncounted]) v' c hr
            simpa only [Sys.to, toCount, hlen] using this,
          hvals _ (by simp [valOf]), h.min, h.max⟩
      exact hq _ (by split <;> simp)
    | setMax v =>
      exact ⟨hsame _ rfl, by have := h.count; simp only [go, Sys.to, toCount, hlen]; simp [uncounted] at *; omega,
        fun v' c hr => by
          have := hst _ (by simp) (by simp [uncounted]) v' c hr
          simpa only [go, Sys.to, toCount, hlen] using this,
        hvals _ (by simp [valOf]), h.min, .inr ⟨v, h.vals _ hmem v rfl, rfl⟩⟩
    | test q =>
      have hq : ∀ r : PC K, r = .take q ∨ r = .copy q → Bound store (s.to t r) := by
        rintro q (rfl | rfl) <;>
        exact ⟨hsame _ rfl, by have := h.count; simp only [Sys.to, toCount, hlen]; simp [uncounted] at *; omega,
          fun v' c hr => by
            have := hst _ (by simp) (by simp [uncounted]) v' c hr
            simpa only [Sys.to, toCount, hlen] using this,
          hvals _ (by simp [valOf]), h.min, h.max⟩
      exact hq _ (by split <;> simp)
    | copy q =>
      refine ⟨fun b => ?_, by have := h.count; simp only [go, Sys.to, toCount, hlen]; simp [uncounted] at *; omega,
        fun v' c hr => by
          have := hst _ (by simp) (by simp [uncounted]) v' c hr
          simpa only [go, Sys.to, toCount, hlen] using this,
        hvals _ (by simp [valOf]), h.min, h.max⟩
      change (if b = s.next then ascending (s.arr s.data) else s.arr b) ++
        ((s.pcs.set t (.put q s.next)).flatMap pendOf).map store <+~ _
      split
      · exact List.Subperm.trans (List.Perm.subperm (List.Perm.append_right _ (ascending_perm _))) (hsame (.put q s.next) rfl s.data)
      · exact hsame (.put q s.next) rfl b
    | put q b =>
      exact ⟨hsame _ rfl, by have := h.count; simp only [go, Sys.to, toCount, hlen]; simp [uncounted] at *; omega,
        fun v' c hr => by
          have := hst _ (by simp) (by simp [uncounted]) v' c hr
          simpa only [go, Sys.to, toCount, hlen] using this,
        hvals _ (by simp [valOf]), h.min, h.max⟩
    | mark q =>
      exact ⟨hsame _ rfl, by have := h.count; simp only [go, Sys.to, toCount, hlen]; simp [uncounted] at *; omega,
        fun v' c hr => by
          have := hst _ (by simp) (by simp [uncounted]) v' c hr
          simpa only [go, Sys.to, toCount, hlen] using this,
        hvals _ (by simp [valOf]), h.min, h.max⟩
    | take q =>
      exact ⟨hsame _ rfl, by have := h.count; simp only [go, Sys.to, toCount, hlen]; simp [uncounted] at *; omega,
        fun v' c hr => by
          have := hst _ (by simp) (by simp [uncounted]) v' c hr
          simpa only [go, Sys.to, toCount, hlen] using this,
        hvals _ (by simp [valOf]), h.min, h.max⟩
    | size q a =>
      exact ⟨hsame _ rfl, by have := h.count; simp only [go, Sys.to, toCount, hlen]; simp [uncounted] at *; omega,
        fun v' c hr => by
          have := hst _ (by simp) (by simp [uncounted]) v' c hr
          simpa only [go, Sys.to, toCount, hlen] using this,
        hvals _ (by simp [valOf]), h.min, h.max⟩
    | item q a n =>
      exact ⟨hsame _ rfl, by have := h.count; simp only [go, Sys.to, toCount, hlen]; simp [uncounted] at *; omega,
        fun v' c hr => by
          have := hst _ (by simp) (by simp [uncounted]) v' c hr
          simpa only [go, Sys.to, toCount, hlen] using this,
        hvals _ (by simp [valOf]), h.min, h.max⟩
  · rw [e]
    obtain ⟨X, hX, hX'⟩ := flatMap_set pendOf hp
    obtain ⟨U, hU, hU'⟩ := flatMap_set uncounted hp
    have hlen : ∀ q, ((s.pcs.set t q).flatMap uncounted).length = (uncounted q).length + U.length := by
      intro q; rw [(hU' q).length_eq, List.length_append]
    have hlen0 : toCount s = U.length := by
      unfold toCount; rw [hU.length_eq, List.length_append]; simp [uncounted]
    cases a with
    | go => exact absurd rfl ha
    | add v =>
      refine ⟨fun a => ?_, ?_, fun v' c hr => ?_, fun r hr v' hv' => ?_, ?_, ?_⟩
      · change s.arr a ++ ((s.pcs.set t (.load v)).flatMap pendOf).map store <+~ (s.calls ++ [v]).map store
        have e2 : ((s.pcs.set t (.load v)).flatMap pendOf).map store ~ (pend s).map store ++ [store v] := by
          refine ((hX' (.load v)).map store).trans ?_
          have e3 := (hX.map store).symm
          simp only [pendOf, List.nil_append, List.map_append, List.map_cons, List.map_nil] at e3 ⊢
          exact List.perm_append_comm.trans (List.Perm.append_right _ e3)
        refine List.Subperm.trans (List.Perm.subperm (List.Perm.append_left _ e2)) ?_
        rw [← List.append_assoc, List.map_append]
        exact (List.subperm_append_right _).2 (h.arrs a)
      · have := h.count
        simp only [call, Sys.to, toCount, hlen, List.length_append]
        simp [uncounted] at *; omega
      · simp only [call, Sys.to, toCount, hlen, List.length_append] at hr ⊢
        rcases List.mem_or_eq_of_mem_set hr with hr | hr
        · have := h.stale v' c hr; simp only [uncounted, List.length_singleton] at *; omega
        · cases hr
      · change v' ∈ s.calls ++ [v]
        rcases List.mem_or_eq_of_mem_set hr with hr | rfl
        · exact List.mem_append_left _ (h.vals r hr v' hv')
        · simp only [valOf, Option.some.injEq] at hv'; simp [hv']
      · rcases h.min with hm | ⟨w, hw, hm⟩
        · exact .inl hm
        · exact .inr ⟨w, List.mem_append_left _ hw, hm⟩
      · rcases h.max with hm | ⟨w, hw, hm⟩
        · exact .inl hm
        · exact .inr ⟨w, List.mem_append_left _ hw, hm⟩
    | read q =>
      simp only [call]
      split
      · refine ⟨fun a => ?_, by have := h.count; simp only [Sys.to, toCount, hlen]; simp [uncounted] at *; omega,
          fun v' c hr => ?_, fun r hr v' hv' => ?_, h.min, h.max⟩
        · refine List.Subperm.trans (List.Perm.subperm ?_) (h.arrs a)
          exact List.Perm.append_left _ (((hX' (.test q)).trans hX.symm).map store)
        · simp only [Sys.to, toCount, hlen] at hr ⊢
          rcases List.mem_or_eq_of_mem_set hr with hr | hr
          · have := h.stale v' c hr; simp only [uncounted, List.length_nil] at *; omega
          · cases hr
        · rcases List.mem_or_eq_of_mem_set hr with hr | rfl
          · exact h.vals r hr v' hv'
          · simp [valOf] at hv'
      · exact ⟨h.arrs, h.count, h.stale, h.vals, h.min, h.max⟩

omit [Field K] [LinearOrder K] [IsStrictOrderedRing K] [FloorRing K] in
theorem flatMap_idle {β : Type} (f : PC K → List β) (hf : f .idle = []) (n : Nat) :
    (List.replicate n (PC.idle : PC K)).flatMap f = [] := by
  rw [List.flatMap_eq_nil_iff]
  intro p hp
  rw [List.eq_of_mem_replicate hp, hf]

omit [Field K] [LinearOrder K] [IsStrictOrderedRing K] [FloorRing K] in
theorem bound_init (n : Nat) : Bound store (init n : Sys K) :=
  ⟨fun a => by simp [init, pend, flatMap_idle pendOf rfl, List.Subperm.refl], by simp [init, toCount, flatMap_idle uncounted rfl],
    fun v c hr => by have := List.eq_of_mem_replicate hr; simp at this,
    fun p hp v hv => by rw [List.eq_of_mem_replicate hp] at hv; simp [valOf] at hv, .inl rfl, .inl rfl⟩

theorem bound_run (n : Nat) (sched : List (Tid × Act K)) : Bound store (run store (init n) sched) := by
  induction sched using List.reverseRecOn with
  | nil => exact bound_init n
  | append_singleton xs x ih => rw [run_snoc]; exact bound_step ih _ _

/-- **C114** (any threads, any schedule): nothing is made up or kept twice.  What the accumulator has are values that were added,
each at most as often; it does not count more; and its least and its greatest value are values that were added. -/
theorem C114_nothing_invented_partial (store : K → K) (n : Nat) (sched : List (Tid × Act K)) :
    let s := run store (init n) sched
    held s <+~ s.calls.map store ∧ s.count ≤ s.calls.length ∧
      (s.min = posInf ∨ ∃ v ∈ s.calls, s.min = fin v) ∧ (s.max = negInf ∨ ∃ v ∈ s.calls, s.max = fin v) := by
  intro s
  have h : Bound store s := bound_run n sched
  refine ⟨List.Subperm.trans ?_ (h.arrs s.data), by have := h.count; omega, h.min, h.max⟩
  exact (List.sublist_append_left _ _).subperm

/-! ### When no thread reads while another adds -/

/-- Not one thread in `add` and another reading. -/
def Apart (s : Sys K) : Prop := ∀ p ∈ s.pcs, ∀ p' ∈ s.pcs, valOf p = none ∨ pointOf p' = none

/-- At no time of the execution. -/
def AlwaysApart (store : K → K) (n : Nat) (sched : List (Tid × Act K)) : Prop :=
  ∀ pre, pre <+: sched → Apart (run store (init n) pre)

def Asc (l : List K) : Prop := l.Pairwise (· ≤ ·)

theorem ascending_asc (l : List K) : Asc (ascending l) := sorted_pairwise l

/-- What a thread relies on. -/
def Loc (s : Sys K) : PC K → Prop
  | .append _ a => a = s.data
  | .put _ b => b < s.next ∧ s.arr b ~ s.arr s.data ∧ Asc (s.arr b)
  | .mark _ | .take _ => Asc (s.arr s.data)
  | .size _ a => a < s.next ∧ s.arr a ~ s.arr s.data ∧ Asc (s.arr a)
  | .item _ a n => a < s.next ∧ s.arr a ~ s.arr s.data ∧ Asc (s.arr a) ∧ n = (s.arr a).length
  | _ => True

/-- What is read of values, one thread alone (`resQuantile` of the sequential model). -/
def alone (vals : List K) (q : K) : Except Quant.Exc K := (resQuantile ⟨baseInit, vals, false, none⟩ q).1

structure Kept (store : K → K) (s : Sys K) : Prop where
  data : s.data < s.next
  perm : s.arr s.data ++ (pend s).map store ~ s.calls.map store
  loc : ∀ p ∈ s.pcs, Loc s p
  points : ∀ p ∈ s.pcs, ∀ q, pointOf p = some q → 0 < q ∧ q < 1
  flag : s.sorted = true → Asc (s.arr s.data) ∨ ∃ v, .flag v ∈ s.pcs
  reads : ∀ x ∈ s.reads, x.2.2 = alone (x.2.1.map store) x.1

omit [Field K] [LinearOrder K] [IsStrictOrderedRing K] [FloorRing K] in
theorem set_mem {l : List (PC K)} {t : Nat} {p q : PC K} (hp : l[t]? = some p) : q ∈ l.set t q := by
  have : t < l.length := by
    rw [List.getElem?_eq_some_iff] at hp; exact hp.1
  exact List.mem_of_getElem? (i := t) (by simp [this])

omit [Field K] [LinearOrder K] [IsStrictOrderedRing K] [FloorRing K] in
theorem kept_of_other {l : List (PC K)} {t : Nat} {p q r : PC K} (hp : l[t]? = some p) (hr : r ∈ l) (hne : r ≠ p) : r ∈ l.set t q := by
  obtain ⟨i, hi, rfl⟩ := List.mem_iff_getElem.1 hr
  have hti : t ≠ i := by
    rintro rfl
    rw [List.getElem?_eq_getElem hi] at hp
    exact hne (Option.some.inj hp)
  exact List.mem_of_getElem? (i := i) (by simp [List.getElem?_set, hti, hi])

theorem quantAt_alone {l vals : List K} {q : K} (ha : Asc l) (hp : l ~ vals) (hq : 0 < q ∧ q < 1) :
    quantAt l l.length q = alone vals q := by
  have e : l = Quant.sorted vals := eq_sorted ha hp
  unfold quantAt alone resQuantile
  rw [if_neg (not_not.2 hq)]
  have hd : sortData (⟨baseInit, vals, false, none⟩ : Quant.Res K) = ⟨baseInit, Quant.sorted vals, true, none⟩ := by
    simp [sortData, Quant.sorted]
  rw [hd, e]

theorem kept_step {s : Sys K} (h : Kept store s) (hap : Apart s) (t : Tid) (a : Act K) (hap' : Apart (step store s t a)) :
    Kept store (step store s t a) := by
  rcases step_cases store s t a with e | ⟨p, hp, hid, e⟩ | ⟨hp, ha, e⟩
  · rw [e]; exact h
  · rw [e]
    obtain ⟨X, hX, hX'⟩ := flatMap_set pendOf hp
    have hmem := mem_of_get hp
    have hloc := h.loc p hmem
    -- what is pending does not change
    have hsame : ∀ q, pendOf q = pendOf p →
        s.arr s.data ++ ((s.pcs.set t q).flatMap pendOf).map store ~ s.calls.map store := by
      intro q hq
      refine List.Perm.trans ?_ h.perm
      refine List.Perm.append_left _ (List.Perm.map _ ?_)
      exact (hX' q).trans (by rw [hq]; exact hX.symm)
    have hpts : ∀ q, (∀ x, pointOf q = some x → pointOf p = some x) →
        ∀ r ∈ s.pcs.set t q, ∀ x, pointOf r = some x → 0 < x ∧ x < 1 := by
      intro q hq r hr x hx
      rcases List.mem_or_eq_of_mem_set hr with hr | rfl
      · exact h.points r hr x hx
      · exact h.points p hmem x (hq x hx)
    have hother : ∀ q (s' : Sys K), Loc s' q → (∀ r ∈ s.pcs, Loc s r → Loc s' r) → ∀ r ∈ s.pcs.set t q, Loc s' r := by
      intro q s' h1 h2 r hr
      rcases List.mem_or_eq_of_mem_set hr with hr | rfl
      · exact h2 r hr (h.loc r hr)
      · exact h1
    have hflag : ∀ q, (∀ v, p ≠ .flag v) → s.sorted = true → Asc (s.arr s.data) ∨ ∃ v, .flag v ∈ s.pcs.set t q := by
      intro q hq hs
      rcases h.flag hs with h1 | ⟨v, hv⟩
      · exact .inl h1
      · exact .inr ⟨v, kept_of_other hp hv (fun e => hq v e.symm)⟩
    -- a thread that reads reads alone, as far as adding goes
    have hnoadd : (pointOf p).isSome → ∀ r ∈ s.pcs, valOf r = none := by
      intro hq r hr
      rcases hap r hr p hmem with h1 | h1
      · exact h1
      · rw [h1] at hq; simp at hq
    have hnoread : (valOf p).isSome → ∀ r ∈ s.pcs, pointOf r = none := by
      intro hq r hr
      rcases hap p hmem r hr with h1 | h1
      · rw [h1] at hq; simp at hq
      · exact h1
    have hsorted : (pointOf p).isSome → s.sorted = true → Asc (s.arr s.data) := by
      intro hq hs
      rcases h.flag hs with h1 | ⟨v, hv⟩
      · exact h1
      · have := hnoadd hq _ hv; simp [valOf] at this
    -- the steps that only go on
    have hplain : ∀ q, pendOf q = pendOf p → (∀ x, pointOf q = some x → pointOf p = some x) → (∀ v, p ≠ .flag v) → Loc s q →
        Kept store (s.to t q) := by
      intro q h1 h2 h3 h4
      exact ⟨h.data, hsame q h1, hother q _ h4 (fun r _ hr => hr), hpts q h2, hflag q h3, h.reads⟩
    cases p with
    | idle => exact absurd rfl hid
    | load v => exact hplain _ rfl (by simp [pointOf]) (by simp) rfl
    | append v a =>
      have ha : a = s.data := hloc
      subst ha
      refine ⟨h.data, ?_, ?_, hpts _ (by simp [pointOf]), fun _ => .inr ⟨v, set_mem hp⟩, h.reads⟩
      · change (if s.data = s.data then s.arr s.data ++ [store v] else s.arr s.data) ++
          ((s.pcs.set t (.flag v)).flatMap pendOf).map store ~ _
        rw [if_pos rfl, List.append_assoc]
        refine List.Perm.trans (List.Perm.append_left _ ?_) h.perm
        refine (List.Perm.append_left _ ((hX' _).map store)).trans ?_
        exact (hX.map store).symm
      · refine hother _ _ trivial ?_
        intro r hr hl
        have := hnoread rfl r hr
        cases r <;> first | exact trivial | exact hl | simp [pointOf] at this
    | flag v =>
      exact ⟨h.data, hsame _ rfl, hother _ _ trivial (fun r _ hr => hr), hpts _ (by simp [pointOf]), by simp [go], h.reads⟩
    | rdCount v => exact hplain _ rfl (by simp [pointOf]) (by simp) trivial
    | wrCount v c =>
      exact ⟨h.data, hsame _ rfl, hother _ _ trivial (fun r _ hr => hr), hpts _ (by simp [pointOf]), hflag _ (by simp), h.reads⟩
    | cmpMin v =>
      refine hplain (if fin v < s.min then .setMin v else .cmpMax v) ?_ ?_ (by simp) ?_ <;> split <;>
        first | rfl | trivial | simp [pointOf]
    | setMin v =>
      exact ⟨h.data, hsame _ rfl, hother _ _ trivial (fun r _ hr => hr), hpts _ (by simp [pointOf]), hflag _ (by simp), h.reads⟩
    | cmpMax v =>
      refine hplain (if fin v > s.max then .setMax v else .idle) ?_ ?_ (by simp) ?_ <;> split <;>
        first | rfl | trivial | simp [pointOf]
    | setMax v =>
      exact ⟨h.data, hsame _ rfl, hother _ _ trivial (fun r _ hr => hr), hpts _ (by simp [pointOf]), hflag _ (by simp), h.reads⟩
    | test q =>
      change Kept store (s.to t (if s.sorted then .take q else .copy q))
      split
      · rename_i hs
        exact hplain _ rfl (by simp [pointOf]) (by simp) (hsorted rfl hs)
      · exact hplain _ rfl (by simp [pointOf]) (by simp) trivial
    | copy q =>
      have hd : s.data ≠ s.next := Nat.ne_of_lt h.data
      have harr : ∀ b, b < s.next → (go store s t (.copy q)).arr b = s.arr b := fun b hb => if_neg (Nat.ne_of_lt hb)
      have hnew : (go store s t (.copy q)).arr s.next = ascending (s.arr s.data) := if_pos rfl
      have hdata : (go store s t (.copy q)).arr s.data = s.arr s.data := harr _ h.data
      refine ⟨Nat.lt_succ_of_lt h.data, ?_, ?_, hpts _ (by simp [pointOf]), ?_, h.reads⟩
      · change (go store s t (.copy q)).arr s.data ++ _ ~ _
        rw [hdata]; exact hsame (.put q s.next) rfl
      · refine hother (.put q s.next) _ ?_ ?_
        · refine ⟨Nat.lt_succ_self _, ?_, ?_⟩
          · change (go store s t (.copy q)).arr s.next ~ (go store s t (.copy q)).arr s.data
            rw [hnew, hdata]; exact ascending_perm _
          · rw [hnew]; exact ascending_asc _
        · intro r hr hl
          cases r with
          | put q' b =>
            obtain ⟨h1, h2, h3⟩ := hl
            refine ⟨Nat.lt_succ_of_lt h1, ?_, ?_⟩
            · change (go store s t (.copy q)).arr b ~ (go store s t (.copy q)).arr s.data
              rw [harr _ h1, hdata]; exact h2
            · rw [harr _ h1]; exact h3
          | mark q' => change Asc ((go store s t (.copy q)).arr s.data); rw [hdata]; exact hl
          | take q' => change Asc ((go store s t (.copy q)).arr s.data); rw [hdata]; exact hl
          | size q' b =>
            obtain ⟨h1, h2, h3⟩ := hl
            refine ⟨Nat.lt_succ_of_lt h1, ?_, ?_⟩
            · change (go store s t (.copy q)).arr b ~ (go store s t (.copy q)).arr s.data
              rw [harr _ h1, hdata]; exact h2
            · rw [harr _ h1]; exact h3
          | item q' b n =>
            obtain ⟨h1, h2, h3, h4⟩ := hl
            refine ⟨Nat.lt_succ_of_lt h1, ?_, ?_, ?_⟩
            · change (go store s t (.copy q)).arr b ~ (go store s t (.copy q)).arr s.data
              rw [harr _ h1, hdata]; exact h2
            · rw [harr _ h1]; exact h3
            · rw [harr _ h1]; exact h4
          | _ => first | exact hl | trivial
      · intro hs
        change Asc ((go store s t (.copy q)).arr s.data) ∨ _
        rw [hdata]
        exact .inl (hsorted rfl hs)
    | put q b =>
      obtain ⟨h1, h2, h3⟩ := hloc
      refine ⟨h1, ?_, ?_, hpts _ (by simp [pointOf]), fun _ => .inl h3, h.reads⟩
      · exact (List.Perm.append_right _ h2).trans (hsame (.mark q) rfl)
      · refine hother _ _ h3 ?_
        intro r hr hl
        have hv := hnoadd rfl r hr
        cases r with
        | append v a => simp [valOf] at hv
        | put q' c => exact ⟨hl.1, hl.2.1.trans h2.symm, hl.2.2⟩
        | mark q' => exact h3
        | take q' => exact h3
        | size q' c => exact ⟨hl.1, hl.2.1.trans h2.symm, hl.2.2⟩
        | item q' c n => exact ⟨hl.1, hl.2.1.trans h2.symm, hl.2.2⟩
        | _ => trivial
    | mark q =>
      exact ⟨h.data, hsame _ rfl, hother _ _ hloc (fun r _ hr => hr), hpts _ (by simp [pointOf]), fun _ => .inl hloc, h.reads⟩
    | take q => exact hplain _ rfl (by simp [pointOf]) (by simp) ⟨h.data, List.Perm.refl _, hloc⟩
    | size q a =>
      obtain ⟨h1, h2, h3⟩ := hloc
      exact hplain _ rfl (by simp [pointOf]) (by simp) ⟨h1, h2, h3, h2.length_eq.symm⟩
    | item q a n =>
      obtain ⟨h1, h2, h3, rfl⟩ := hloc
      refine ⟨h.data, hsame _ rfl, hother _ _ trivial (fun r _ hr => hr), hpts _ (by simp [pointOf]), hflag _ (by simp), ?_⟩
      intro x hx
      rcases List.mem_append.1 hx with hx | hx
      · exact h.reads x hx
      · rw [List.mem_singleton.1 hx]
        refine quantAt_alone h3 (h2.trans ?_) (h.points _ hmem q rfl)
        have hnil : pend s = [] := by
          unfold pend
          rw [List.flatMap_eq_nil_iff]
          intro r hr
          have := hnoadd rfl r hr
          cases r <;> first | rfl | simp [valOf] at this
        have := h.perm
        rw [hnil] at this
        simpa using this
  · rw [e] at hap' ⊢
    obtain ⟨X, hX, hX'⟩ := flatMap_set pendOf hp
    have hother : ∀ q (s' : Sys K), Loc s' q → (∀ r ∈ s.pcs, Loc s r → Loc s' r) → ∀ r ∈ s.pcs.set t q, Loc s' r := by
      intro q s' h1 h2 r hr
      rcases List.mem_or_eq_of_mem_set hr with hr | rfl
      · exact h2 r hr (h.loc r hr)
      · exact h1
    have hflag : ∀ q, s.sorted = true → Asc (s.arr s.data) ∨ ∃ v, .flag v ∈ s.pcs.set t q := by
      intro q hs
      rcases h.flag hs with h1 | ⟨v, hv⟩
      · exact .inl h1
      · exact .inr ⟨v, kept_of_other hp hv (by simp)⟩
    cases a with
    | go => exact absurd rfl ha
    | add v =>
      refine ⟨h.data, ?_, hother _ _ trivial ?_, ?_, hflag _, h.reads⟩
      · change s.arr s.data ++ ((s.pcs.set t (.load v)).flatMap pendOf).map store ~ (s.calls ++ [v]).map store
        have e2 : ((s.pcs.set t (.load v)).flatMap pendOf).map store ~ (pend s).map store ++ [store v] := by
          refine ((hX' (.load v)).map store).trans ?_
          have e3 := (hX.map store).symm
          simp only [pendOf, List.nil_append, List.map_append, List.map_cons, List.map_nil] at e3 ⊢
          exact List.perm_append_comm.trans (List.Perm.append_right _ e3)
        refine (List.Perm.append_left _ e2).trans ?_
        rw [← List.append_assoc, List.map_append]
        exact List.Perm.append_right _ h.perm
      · intro r _ hl
        cases r <;> exact hl
      · intro r hr x hx
        rcases List.mem_or_eq_of_mem_set hr with hr | rfl
        · exact h.points r hr x hx
        · simp [pointOf] at hx
    | read q =>
      simp only [call]
      split
      · rename_i hq
        refine ⟨h.data, ?_, hother _ _ trivial (fun r _ hr => hr), ?_, hflag _, h.reads⟩
        · exact (List.Perm.append_left _ (((hX' (.test q)).trans hX.symm).map store)).trans h.perm
        · intro r hr x hx
          rcases List.mem_or_eq_of_mem_set hr with hr | rfl
          · exact h.points r hr x hx
          · simp only [pointOf, Option.some.injEq] at hx; subst hx; exact hq
      · rename_i hq
        refine ⟨h.data, h.perm, h.loc, h.points, h.flag, ?_⟩
        intro x hx
        rcases List.mem_append.1 hx with hx | hx
        · exact h.reads x hx
        · rw [List.mem_singleton.1 hx]
          simp only [alone, resQuantile]
          rw [if_pos hq]

theorem kept_init (n : Nat) : Kept store (init n : Sys K) :=
  ⟨by simp [init], by simp [init, pend, flatMap_idle pendOf rfl],
    fun p hp => by rw [List.eq_of_mem_replicate hp]; trivial,
    fun p hp q hq => by rw [List.eq_of_mem_replicate hp] at hq; simp [pointOf] at hq,
    fun _ => .inl List.Pairwise.nil, by simp [init]⟩

theorem kept_run (n : Nat) (sched : List (Tid × Act K)) (hap : AlwaysApart store n sched) :
    Kept store (run store (init n) sched) := by
  induction sched using List.reverseRecOn with
  | nil => exact kept_init n
  | append_singleton xs x ih =>
    have h1 : AlwaysApart store n xs := fun pre hpre => hap pre (hpre.trans (List.prefix_append _ _))
    have h2 := hap _ (List.prefix_rfl)
    rw [run_snoc] at h2 ⊢
    exact kept_step (ih h1) (h1 xs List.prefix_rfl) _ _ h2

/-- **C114** (values): as long as no thread reads while another adds, whatever the threads that add do to each other, no value is
lost.  Missing for the full property: it is false (`C114_violated`). -/
theorem C114_values_partial (store : K → K) (n : Nat) (sched : List (Tid × Act K)) (hap : AlwaysApart store n sched)
    (hq : Quiescent (run store (init n) sched)) :
    held (run store (init n) sched) ~ (run store (init n) sched).calls.map store := by
  have h := (kept_run n sched hap).perm
  have hnil : pend (run store (init n) sched) = [] := by
    unfold pend
    rw [List.flatMap_eq_nil_iff]
    intro r hr
    rw [hq r hr]; rfl
  rw [hnil] at h
  simpa [held] using h

/-- **C114** (reading): and what any number of threads read then, at points in (0, 1), is the interpolated quantile of all the
values added by then.  Missing for the full property: it is false (`C114_order_violated`). -/
theorem C114_reads_partial (store : K → K) (n : Nat) (sched : List (Tid × Act K)) (hap : AlwaysApart store n sched) :
    ∀ q vals r, (q, vals, r) ∈ (run store (init n) sched).reads → 0 < q → q < 1 → vals ≠ [] →
      ∃ v, r = .ok v ∧ Interp (Quant.sorted (vals.map store)) (q * ((vals.length : K) - 1)) v := by
  intro q vals r hr h0 h1 hne
  have h := (kept_run n sched hap).reads _ hr
  obtain ⟨v, hv, hi⟩ := quantile_interp ⟨baseInit, vals.map store, false, none⟩ q (by simp) (by simpa using hne) h0 h1
  refine ⟨v, ?_, ?_⟩
  · exact h.trans hv
  · simpa using hi

instance (s : Sys ℚ) : Decidable (Apart s) := by unfold Apart; infer_instance

/-- Two threads add at once, then two threads read at once. -/
def Sample.apart : List (Tid × Act ℚ) :=
  [(0, .add 7), (1, .add 3)] ++ goes 1 0 ++ goes 4 1 ++ goes 8 0 ++ goes 5 1 ++
    [(0, .read (1 / 2)), (1, .read (1 / 4))] ++ goes 2 0 ++ goes 7 1 ++ goes 5 0

example : AlwaysApart id 2 Sample.apart ∧ Quiescent (run id (init 2) Sample.apart) ∧
    (run id (init 2) Sample.apart).reads.map (fun x => (x.1, x.2.1)) = [(1 / 4, [7, 3]), (1 / 2, [7, 3])] := by
  refine ⟨fun pre hpre => ?_, by unfold Quiescent; decide +kernel, by decide +kernel⟩
  have h : ∀ pre ∈ Sample.apart.inits, Apart (run id (init 2) pre) := by decide +kernel
  exact h pre ((List.mem_inits _ _).2 hpre)

/-! ### When one thread adds at a time -/

/-- At most one thread is in `add`. -/
def OneAdds (s : Sys K) : Prop :=
  ∀ (t t' : Tid) (p p' : PC K), s.pcs[t]? = some p → s.pcs[t']? = some p' → valOf p ≠ none → valOf p' ≠ none → t = t'

def AlwaysOneAdds (store : K → K) (n : Nat) (sched : List (Tid × Act K)) : Prop :=
  ∀ pre, pre <+: sched → OneAdds (run store (init n) pre)

/-- Count and extremes after adding values one by one. -/
def base (vals : List K) : Base K := vals.foldl baseAdd baseInit

omit [Field K] [IsStrictOrderedRing K] [FloorRing K] in
theorem base_snoc (vals : List K) (v : K) : base (vals ++ [v]) = baseAdd (base vals) v := by
  simp [base, List.foldl_append]

theorem base_spec (vals : List K) : (base vals).count = vals.length ∧ Extremes vals (base vals).min (base vals).max := by
  induction vals using List.reverseRecOn with
  | nil => exact ⟨rfl, extremes_nil⟩
  | append_singleton xs x ih =>
    rw [base_snoc]
    exact ⟨by simp [baseAdd, ih.1], extremes_add ih.2 x⟩

/-- How far a thread that adds has come, `b` being what there was before. -/
def Phase (s : Sys K) (b : Base K) : PC K → Prop
  | .load _ | .append _ _ | .flag _ | .rdCount _ => s.count = b.count ∧ s.min = b.min ∧ s.max = b.max
  | .wrCount _ c => c = b.count ∧ s.min = b.min ∧ s.max = b.max
  | .cmpMin _ => s.count = b.count + 1 ∧ s.min = b.min ∧ s.max = b.max
  | .setMin v => s.count = b.count + 1 ∧ fin v < b.min ∧ s.max = b.max
  | .cmpMax v => s.count = b.count + 1 ∧ s.min = (baseAdd b v).min ∧ s.max = b.max
  | .setMax v => s.count = b.count + 1 ∧ s.min = (baseAdd b v).min ∧ fin v > b.max
  | _ => True

structure Counted (s : Sys K) : Prop where
  idle : (∀ p ∈ s.pcs, valOf p = none) →
    s.count = (base s.calls).count ∧ s.min = (base s.calls).min ∧ s.max = (base s.calls).max
  busy : ∀ p ∈ s.pcs, ∀ v, valOf p = some v → ∃ old, s.calls = old ++ [v] ∧ Phase s (base old) p

theorem counted_step {s : Sys K} (h : Counted s) (hone : OneAdds s) (t : Tid) (a : Act K) (hone' : OneAdds (step store s t a)) :
    Counted (step store s t a) := by
  rcases step_cases store s t a with e | ⟨p, hp, hid, e⟩ | ⟨hp, ha, e⟩
  · rw [e]; exact h
  · rw [e]
    have hmem := mem_of_get hp
    -- the steps of a thread that reads
    have hread : ∀ q (s' : Sys K), s'.pcs = s.pcs.set t q → valOf p = none → valOf q = none → s'.calls = s.calls →
        s'.count = s.count → s'.min = s.min → s'.max = s.max → Counted s' := by
      intro q s' h1 h2 h3 h4 h5 h6 h7
      constructor
      · intro hn
        rw [h4, h5, h6, h7]
        refine h.idle fun r hr => ?_
        by_cases hrp : r = p
        · rw [hrp]; exact h2
        · exact hn r (by rw [h1]; exact kept_of_other hp hr hrp)
      · intro r hr v hv
        rw [h1] at hr
        rcases List.mem_or_eq_of_mem_set hr with hr | rfl
        · obtain ⟨old, ho, hph⟩ := h.busy r hr v hv
          refine ⟨old, by rw [h4]; exact ho, ?_⟩
          cases r <;> simp only [Phase, h5, h6, h7] at hph ⊢ <;> exact hph
        · rw [h3] at hv; cases hv
    -- the steps of a thread that adds: no other does
    have hadd : ∀ v q (s' : Sys K), valOf p = some v → s'.pcs = s.pcs.set t q → s'.calls = s.calls →
        (∀ w, valOf q = some w → w = v) →
        (∀ old, s.calls = old ++ [v] → Phase s (base old) p → Phase s' (base old) q ∧
          (valOf q = none → s'.count = (base old).count + 1 ∧ s'.min = (baseAdd (base old) v).min ∧
            s'.max = (baseAdd (base old) v).max)) → Counted s' := by
      intro v q s' hv h1 h2 h3 h4
      obtain ⟨old, ho, hph⟩ := h.busy p hmem v hv
      obtain ⟨h5, h6⟩ := h4 old ho hph
      constructor
      · intro hn
        obtain ⟨e1, e2, e3⟩ := h6 (hn q (by rw [h1]; exact set_mem hp))
        rw [h2, ho, base_snoc]
        exact ⟨e1, e2, e3⟩
      · intro r hr w hw
        rw [h1] at hr
        obtain ⟨i, hi, rfl⟩ := List.mem_iff_getElem.1 hr
        rw [List.length_set] at hi
        by_cases hit : i = t
        · subst hit
          rw [List.getElem_set_self] at hw ⊢
          exact ⟨old, by rw [h2, h3 w hw]; exact ho, h5⟩
        · exfalso
          rw [List.getElem_set_ne (Ne.symm hit)] at hw
          exact hit (hone i t _ p (List.getElem?_eq_getElem hi) hp (by rw [hw]; simp) (by rw [hv]; simp))
    cases p with
    | idle => exact absurd rfl hid
    | load v => exact hadd v (.append v s.data) _ rfl rfl rfl (by simp [valOf]) fun old _ hph => ⟨hph, by simp [valOf]⟩
    | append v a => exact hadd v (.flag v) _ rfl rfl rfl (by simp [valOf]) fun old _ hph => ⟨hph, by simp [valOf]⟩
    | flag v => exact hadd v (.rdCount v) _ rfl rfl rfl (by simp [valOf]) fun old _ hph => ⟨hph, by simp [valOf]⟩
    | rdCount v => exact hadd v (.wrCount v s.count) _ rfl rfl rfl (by simp [valOf]) fun old _ hph => ⟨hph, by simp [valOf]⟩
    | wrCount v c =>
      exact hadd v (.cmpMin v) _ rfl rfl rfl (by simp [valOf]) fun old _ hph =>
        ⟨⟨by rw [← hph.1]; rfl, hph.2.1, hph.2.2⟩, by simp [valOf]⟩
    | cmpMin v =>
      change Counted (s.to t (if fin v < s.min then .setMin v else .cmpMax v))
      split
      · rename_i hlt
        refine hadd v (.setMin v) _ rfl rfl rfl (by simp [valOf]) fun old _ hph => ⟨⟨hph.1, ?_, hph.2.2⟩, by simp [valOf]⟩
        rw [← hph.2.1]; exact hlt
      · rename_i hlt
        refine hadd v (.cmpMax v) _ rfl rfl rfl (by simp [valOf]) fun old _ hph => ⟨⟨hph.1, ?_, hph.2.2⟩, by simp [valOf]⟩
        rw [hph.2.1] at hlt
        simp only [baseAdd, if_neg hlt]
        exact hph.2.1
    | setMin v =>
      refine hadd v (.cmpMax v) _ rfl rfl rfl (by simp [valOf]) fun old _ hph => ⟨⟨hph.1, ?_, hph.2.2⟩, by simp [valOf]⟩
      simp only [baseAdd, if_pos hph.2.1]
      rfl
    | cmpMax v =>
      change Counted (s.to t (if fin v > s.max then .setMax v else .idle))
      split
      · rename_i hlt
        refine hadd v (.setMax v) _ rfl rfl rfl (by simp [valOf]) fun old _ hph => ⟨⟨hph.1, hph.2.1, ?_⟩, by simp [valOf]⟩
        rw [← hph.2.2]; exact hlt
      · rename_i hlt
        refine hadd v .idle _ rfl rfl rfl (by simp [valOf]) fun old _ hph => ⟨trivial, fun _ => ⟨hph.1, hph.2.1, ?_⟩⟩
        rw [hph.2.2] at hlt
        simp only [baseAdd, if_neg hlt]
        exact hph.2.2
    | setMax v =>
      refine hadd v .idle _ rfl rfl rfl (by simp [valOf]) fun old _ hph => ⟨trivial, fun _ => ⟨hph.1, hph.2.1, ?_⟩⟩
      simp only [baseAdd, if_pos hph.2.2]
      rfl
    | test q => exact hread (if s.sorted then .take q else .copy q) _ rfl rfl (by split <;> rfl) rfl rfl rfl rfl
    | copy q => exact hread _ _ rfl rfl rfl rfl rfl rfl rfl
    | put q b => exact hread _ _ rfl rfl rfl rfl rfl rfl rfl
    | mark q => exact hread _ _ rfl rfl rfl rfl rfl rfl rfl
    | take q => exact hread (.size q s.data) _ rfl rfl rfl rfl rfl rfl rfl
    | size q a => exact hread (.item q a (s.arr s.data).length) _ rfl rfl rfl rfl rfl rfl rfl
    | item q a n => exact hread _ _ rfl rfl rfl rfl rfl rfl rfl
  · rw [e] at hone' ⊢
    have hlt : t < s.pcs.length := by rw [List.getElem?_eq_some_iff] at hp; exact hp.1
    cases a with
    | go => exact absurd rfl ha
    | add v =>
      have hn : ∀ r ∈ s.pcs, valOf r = none := by
        intro r hr
        by_contra hv
        obtain ⟨i, hi, rfl⟩ := List.mem_iff_getElem.1 hr
        have hti : t ≠ i := by
          rintro rfl
          rw [List.getElem?_eq_getElem hi] at hp
          rw [Option.some.inj hp] at hv
          exact hv rfl
        refine hti (hone' t i (.load v) s.pcs[i] ?_ ?_ (by simp [valOf]) hv)
        · simp [call, Sys.to, hlt]
        · simp [call, Sys.to, List.getElem?_set, hti, hi]
      constructor
      · intro hn'
        have := hn' (.load v) (set_mem hp)
        simp [valOf] at this
      · intro r hr w hw
        rcases List.mem_or_eq_of_mem_set hr with hr | rfl
        · rw [hn r hr] at hw; cases hw
        · simp only [valOf, Option.some.injEq] at hw; subst hw
          exact ⟨s.calls, rfl, h.idle hn⟩
    | read q =>
      simp only [call]
      split
      · constructor
        · intro hn
          refine h.idle fun r hr => ?_
          by_cases hrp : r = .idle
          · rw [hrp]; rfl
          · exact hn r (kept_of_other hp hr hrp)
        · intro r hr v hv
          rcases List.mem_or_eq_of_mem_set hr with hr | rfl
          · obtain ⟨old, ho, hph⟩ := h.busy r hr v hv
            exact ⟨old, ho, by cases r <;> exact hph⟩
          · simp [valOf] at hv
      · constructor
        · exact h.idle
        · intro r hr v hv
          obtain ⟨old, ho, hph⟩ := h.busy r hr v hv
          exact ⟨old, ho, by cases r <;> exact hph⟩

theorem counted_run (n : Nat) (sched : List (Tid × Act K)) (hone : AlwaysOneAdds store n sched) :
    Counted (run store (init n) sched) := by
  induction sched using List.reverseRecOn with
  | nil =>
    exact ⟨fun _ => ⟨rfl, rfl, rfl⟩, fun p hp v hv => by rw [List.eq_of_mem_replicate hp] at hv; simp [valOf] at hv⟩
  | append_singleton xs x ih =>
    have h1 : AlwaysOneAdds store n xs := fun pre hpre => hone pre (hpre.trans (List.prefix_append _ _))
    have h2 := hone _ (List.prefix_rfl)
    rw [run_snoc] at h2 ⊢
    exact counted_step (ih h1) (h1 xs List.prefix_rfl) _ _ h2

/-- **C114** (count and extremes): as long as one thread adds at a time, whatever other threads read, the count is the number of
values added and the extremes are the least and the greatest of them, whenever no `add` is under way.  Missing for the full
property: it is false (`C114_count_violated`). -/
theorem C114_count_partial (store : K → K) (n : Nat) (sched : List (Tid × Act K)) (hone : AlwaysOneAdds store n sched)
    (hq : ∀ p ∈ (run store (init n) sched).pcs, valOf p = none) :
    (run store (init n) sched).count = (run store (init n) sched).calls.length ∧
    Extremes (run store (init n) sched).calls (run store (init n) sched).min (run store (init n) sched).max := by
  obtain ⟨h1, h2, h3⟩ := (counted_run n sched hone).idle hq
  rw [h1, h2, h3]
  exact base_spec _

/-- Adds of two threads one after the other, a third reading throughout: it loses a value, not the count. -/
def Sample.one : List (Tid × Act ℚ) :=
  [(0, .add 7)] ++ goes 9 0 ++ [(2, .read (1 / 2))] ++ goes 2 2 ++ [(1, .add 3)] ++ goes 3 1 ++ goes 5 2 ++ goes 6 1

/-- `OneAdds` by looking at the threads that add. -/
theorem oneAdds_of {s : Sys ℚ} (h : ∀ t ∈ List.range s.pcs.length, ∀ t' ∈ List.range s.pcs.length,
    ((s.pcs[t]?.bind valOf).isSome && (s.pcs[t']?.bind valOf).isSome) = true → t = t') : OneAdds s := by
  intro t t' p p' hp hp' hv hv'
  refine h t (List.mem_range.2 (List.getElem?_eq_some_iff.1 hp).1) t' (List.mem_range.2 (List.getElem?_eq_some_iff.1 hp').1) ?_
  rw [hp, hp']
  simp only [Option.bind_some, Bool.and_eq_true, Option.isSome_iff_ne_none]
  exact ⟨hv, hv'⟩

example : AlwaysOneAdds id 3 Sample.one ∧ Quiescent (run id (init 3) Sample.one) ∧ (run id (init 3) Sample.one).calls = [7, 3] ∧
    (run id (init 3) Sample.one).count = 2 ∧ held (run id (init 3) Sample.one) = [7] := by
  refine ⟨fun pre hpre => oneAdds_of ?_, by unfold Quiescent; decide +kernel, by decide +kernel, by decide +kernel, by decide +kernel⟩
  have h : ∀ pre ∈ Sample.one.inits, ∀ t ∈ List.range (run id (init 3) pre).pcs.length,
      ∀ t' ∈ List.range (run id (init 3) pre).pcs.length,
      (((run id (init 3) pre).pcs[t]?.bind valOf).isSome && ((run id (init 3) pre).pcs[t']?.bind valOf).isSome) = true → t = t' := by
    decide +kernel
  exact h pre ((List.mem_inits _ _).2 hpre)

end Verif.ResConc
