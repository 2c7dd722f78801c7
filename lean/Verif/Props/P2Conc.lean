import Verif.Model.P2Conc
import Mathlib.Data.List.Perm.Subperm
import Mathlib.Data.List.Infix
/-!
# C117: a P2 accumulator and threads
-/
namespace Verif.P2Conc

open scoped List

variable {K : Type}

/-- The value of a thread in `add`. -/
def valOf : PC K → List K
  | .look v | .temp v | .tadd v _ | .feed v => [v]
  | _ => []

/-- No thread is in a call. -/
def Quiescent (s : Sys K) : Prop := ∀ p ∈ s.pcs, p = .idle

variable [LinearOrder K]

/-- The full property, values: once all calls are over, no `add` has raised, and quantiles are computed from all the values that were
added. -/
def KeepsValues (K : Type) [LinearOrder K] : Prop :=
  ∀ (points n : Nat) (sched : List (Tid × Act K)), Quiescent (run points (init n) sched) →
    (run points (init n) sched).failed = [] ∧
    ((run points (init n) sched).est.getD (run points (init n) sched).tmp) ~ (run points (init n) sched).calls

/-- The full property, reading: no read raises. -/
def ReadsNeverRaise (K : Type) [LinearOrder K] : Prop :=
  ∀ (points n : Nat) (sched : List (Tid × Act K)), none ∉ (run points (init n) sched).reads

/-! ### What goes wrong -/

def goes (n : Nat) (t : Tid) : List (Tid × Act Int) := List.replicate n (t, .go)

/-- `add` of one value, not interrupted. -/
def one (t : Tid) (v : Int) : List (Tid × Act Int) := (t, .add v) :: goes 7 t

/-- **C117 fails** (values): two threads add the last values that are missing for an estimator, both make one, and the one that is
stored last was made without the other's value. -/
theorem C117_lost_violated : ∃ sched, Quiescent (run 1 (init 2) sched) ∧ (run 1 (init 2) sched).calls = [1, 2, 3, (4 : Int)] ∧
    (run 1 (init 2) sched).est = some [1, 2, 3] ∧ (run 1 (init 2) sched).failed = [] :=
  ⟨one 0 1 ++ one 0 2 ++ [(0, .add 3)] ++ goes 5 0 ++ one 1 4 ++ goes 2 0,
    by unfold Quiescent; decide +kernel, by decide +kernel, by decide +kernel, by decide +kernel⟩

/-- **C117 fails** (values): and so are the values that were given to the first estimator meanwhile, any number of them. -/
theorem C117_forgotten_violated : ∃ sched, Quiescent (run 1 (init 2) sched) ∧
    (run 1 (init 2) sched).calls = [1, 2, 3, 4, 5, 6, (7 : Int)] ∧ (run 1 (init 2) sched).est = some [1, 2, 3, 4] :=
  ⟨one 0 1 ++ one 0 2 ++ [(0, .add 3), (1, .add 4)] ++ goes 2 1 ++ goes 3 0 ++ goes 3 1 ++ goes 4 0 ++ one 0 5 ++ one 0 6 ++ one 0 7 ++ goes 2 1,
    by unfold Quiescent; decide +kernel, by decide +kernel, by decide +kernel⟩

/-- **C117 fails** (values): an `add` raises, into the thread that published, and its value is lost. -/
theorem C117_raises_violated : ∃ sched, Quiescent (run 1 (init 2) sched) ∧ (run 1 (init 2) sched).calls = [1, 2, 4, (3 : Int)] ∧
    (run 1 (init 2) sched).failed = [4] ∧ (run 1 (init 2) sched).est = some [1, 2, 3] :=
  ⟨one 0 1 ++ one 0 2 ++ [(1, .add 4)] ++ goes 1 1 ++ one 0 3 ++ goes 2 1,
    by unfold Quiescent; decide +kernel, by decide +kernel, by decide +kernel, by decide +kernel⟩

/-- **C117 is false** of values. -/
theorem C117_violated : ¬ KeepsValues Int := by
  intro h
  obtain ⟨sched, h1, h2, h3, _⟩ := C117_lost_violated
  have := (h 1 2 sched h1).2.length_eq
  rw [h2, h3] at this
  simp at this

/-- **C117 is false** of reading: a read raises AttributeError when the estimator comes just then. -/
theorem C117_read_violated : ¬ ReadsNeverRaise Int := by
  intro h
  exact absurd (h 1 2 (one 0 1 ++ one 0 2 ++ [(1, .read)] ++ goes 1 1 ++ one 0 3 ++ goes 1 1)) (by decide +kernel)

/-! ### What holds of every schedule -/

variable {points : Nat}

theorem step_cases (s : Sys K) (t : Tid) (a : Act K) :
    step points s t a = s ∨ (∃ p, s.pcs[t]? = some p ∧ p ≠ .idle ∧ step points s t a = go points s t p) ∨
      (s.pcs[t]? = some .idle ∧ a ≠ .go ∧ step points s t a = call s t a) := by
  unfold step
  rcases hp : s.pcs[t]? with _ | p
  · exact .inl rfl
  · cases a with
    | go =>
      by_cases h : p = .idle
      · subst h; exact .inl rfl
      · exact .inr (.inl ⟨p, rfl, h, rfl⟩)
    | add v => cases p <;> first | exact .inl rfl | exact .inr (.inr ⟨rfl, by simp, rfl⟩)
    | read => cases p <;> first | exact .inl rfl | exact .inr (.inr ⟨rfl, by simp, rfl⟩)

theorem run_snoc (s : Sys K) (sched : List (Tid × Act K)) (x : Tid × Act K) :
    run points s (sched ++ [x]) = step points (run points s sched) x.1 x.2 := by
  simp [run, List.foldl_append]

theorem run_append (s : Sys K) (xs ys : List (Tid × Act K)) :
    run points s (xs ++ ys) = run points (run points s xs) ys := by
  simp [run, List.foldl_append]

theorem ascending_perm (l : List K) : ascending l ~ l := List.mergeSort_perm l _

omit [LinearOrder K] in
/-- The values under way, when one thread moves. -/
theorem vals_set {pcs : List (PC K)} {t : Nat} {p : PC K} (hp : pcs[t]? = some p) (q : PC K) :
    valOf p ++ (pcs.set t q).flatMap valOf ~ valOf q ++ pcs.flatMap valOf := by
  obtain ⟨ht, hp⟩ := List.getElem?_eq_some_iff.1 hp
  have h1 : pcs = pcs.take t ++ p :: pcs.drop (t + 1) := by
    rw [← hp]; simp
  rw [List.set_eq_take_append_cons_drop, if_pos ht]
  conv_rhs => rw [h1]
  simp only [List.flatMap_append, List.flatMap_cons]
  refine (List.perm_append_comm_assoc _ _ _).trans ?_
  refine ((List.perm_append_comm_assoc _ _ _).append_left _).trans ?_
  exact List.perm_append_comm_assoc _ _ _

/-- Every value is under way, in the temporary accumulator, given to an estimator, or failed; estimators are made of such. -/
structure Inv (s : Sys K) : Prop where
  all : s.pcs.flatMap valOf ++ (s.tmp ++ (s.fed ++ s.failed)) ~ s.calls
  est : ∀ l, s.est = some l → ∃ d f, l ~ d ++ f ∧ d <+~ s.tmp ∧ f <+~ s.fed
  put : ∀ l, .put l ∈ s.pcs → l <+~ s.tmp
  reads : ∀ l, some l ∈ s.reads → l <+~ s.calls


theorem inv_step {s : Sys K} (h : Inv s) (t : Tid) (a : Act K) : Inv (step points s t a) := by
  rcases step_cases (points := points) s t a with h0 | ⟨p, hp, hne, h0⟩ | ⟨hp, hne, h0⟩
  · rw [h0]; exact h
  · rw [h0]
    have hmem := List.mem_of_getElem? hp
    -- a move to a place that is no `put`
    have hput : ∀ q : PC K, (∀ l, q ≠ .put l) → ∀ l, PC.put l ∈ s.pcs.set t q → l <+~ s.tmp := by
      intro q hq l hl
      rcases List.mem_or_eq_of_mem_set hl with h1 | h1
      · exact h.put l h1
      · exact absurd h1.symm (hq l)
    have hset : ∀ q : PC K, valOf p ++ (s.pcs.set t q).flatMap valOf ~ valOf q ++ s.pcs.flatMap valOf :=
      fun q => vals_set hp q
    -- moves that keep the value
    have keep : ∀ q : PC K, valOf q = valOf p → (s.pcs.set t q).flatMap valOf ~ s.pcs.flatMap valOf := by
      intro q hq
      have := hset q
      rw [hq] at this
      exact (List.perm_append_left_iff _).1 this
    have all_keep : ∀ q : PC K, valOf q = valOf p →
        (s.pcs.set t q).flatMap valOf ++ (s.tmp ++ (s.fed ++ s.failed)) ~ s.calls :=
      fun q hq => ((keep q hq).append_right _).trans h.all
    -- moves that let go of the value
    have drop1 : ∀ (v : K) (q : PC K), valOf p = [v] → valOf q = [] → ∀ r,
        v :: ((s.pcs.set t q).flatMap valOf ++ r) ~ s.pcs.flatMap valOf ++ r := by
      intro v q h1 h2 r
      have := hset q
      rw [h1, h2, List.nil_append] at this
      exact this.append_right r
    cases p with
    | idle => exact absurd rfl hne
    | look v =>
      simp only [go, Sys.to]
      split
      · exact ⟨all_keep _ rfl, h.est, hput _ (by simp), h.reads⟩
      · exact ⟨all_keep _ rfl, h.est, hput _ (by simp), h.reads⟩
    | temp v => exact ⟨all_keep _ rfl, h.est, hput _ (by simp), h.reads⟩
    | tadd v has =>
      cases has with
      | true =>
        have hsub : s.tmp <+~ s.tmp ++ [v] := (List.sublist_append_left _ _).subperm
        refine ⟨?_, fun l hl => ?_, fun l hl => (hput _ (by simp) l hl).trans hsub, h.reads⟩
        · refine List.Perm.trans ?_ ((drop1 v .test rfl rfl _).trans h.all)
          simp only [go, Sys.to]
          calc (s.pcs.set t .test).flatMap valOf ++ (s.tmp ++ [v] ++ (s.fed ++ s.failed))
              = (s.pcs.set t .test).flatMap valOf ++ s.tmp ++ v :: (s.fed ++ s.failed) := by simp
            _ ~ v :: ((s.pcs.set t .test).flatMap valOf ++ s.tmp ++ (s.fed ++ s.failed)) := List.perm_middle
            _ = v :: ((s.pcs.set t .test).flatMap valOf ++ (s.tmp ++ (s.fed ++ s.failed))) := by simp
        · obtain ⟨d, f, h1, h2, h3⟩ := h.est l hl
          exact ⟨d, f, h1, h2.trans hsub, h3⟩
      | false =>
        refine ⟨?_, h.est, hput _ (by simp), h.reads⟩
        refine List.Perm.trans ?_ ((drop1 v .idle rfl rfl _).trans h.all)
        simp only [go, Sys.to]
        calc (s.pcs.set t .idle).flatMap valOf ++ (s.tmp ++ (s.fed ++ (s.failed ++ [v])))
            = ((s.pcs.set t .idle).flatMap valOf ++ (s.tmp ++ (s.fed ++ s.failed))) ++ v :: [] := by simp
          _ ~ v :: ((s.pcs.set t .idle).flatMap valOf ++ (s.tmp ++ (s.fed ++ s.failed)) ++ []) := List.perm_middle
          _ = v :: ((s.pcs.set t .idle).flatMap valOf ++ (s.tmp ++ (s.fed ++ s.failed))) := by simp
    | test =>
      simp only [go, Sys.to]
      split
      · exact ⟨all_keep _ rfl, h.est, hput _ (by simp), h.reads⟩
      · exact ⟨all_keep _ rfl, h.est, hput _ (by simp), h.reads⟩
    | build =>
      refine ⟨all_keep _ rfl, h.est, fun l hl => ?_, h.reads⟩
      rcases List.mem_or_eq_of_mem_set hl with h1 | h1
      · exact h.put l h1
      · cases h1; exact List.Subperm.refl _
    | put l =>
      refine ⟨all_keep _ rfl, fun l' hl' => ?_, hput _ (by simp), h.reads⟩
      have : l = l' := Option.some.inj hl'
      subst this
      exact ⟨l, [], by simp, h.put l hmem, List.nil_subperm⟩
    | drop => exact ⟨all_keep _ rfl, h.est, hput _ (by simp), h.reads⟩
    | feed v =>
      refine ⟨?_, fun l hl => ?_, hput _ (by simp), h.reads⟩
      · refine List.Perm.trans ?_ ((drop1 v .idle rfl rfl _).trans h.all)
        simp only [go, Sys.to]
        calc (s.pcs.set t .idle).flatMap valOf ++ (s.tmp ++ (s.fed ++ [v] ++ s.failed))
            = ((s.pcs.set t .idle).flatMap valOf ++ (s.tmp ++ s.fed)) ++ v :: s.failed := by simp
          _ ~ v :: ((s.pcs.set t .idle).flatMap valOf ++ (s.tmp ++ s.fed) ++ s.failed) := List.perm_middle
          _ = v :: ((s.pcs.set t .idle).flatMap valOf ++ (s.tmp ++ (s.fed ++ s.failed))) := by simp
      · simp only [go, Sys.to] at hl
        rcases he : s.est with _ | l0
        · rw [he] at hl; cases hl
        · rw [he] at hl
          obtain ⟨d, f, h1, h2, h3⟩ := h.est l0 he
          have : l0 ++ [v] = l := Option.some.inj hl
          subst this
          refine ⟨d, f ++ [v], ?_, h2, ?_⟩
          · rw [← List.append_assoc]; exact h1.append_right _
          · exact List.Subperm.append h3 (List.Subperm.refl _)
    | ask =>
      simp only [go]
      have hl : ∀ l, s.est = some l → l <+~ s.calls := by
        intro l hl
        obtain ⟨d, f, h1, h2, h3⟩ := h.est l hl
        refine h1.subperm.trans ((h2.append h3).trans ?_)
        refine List.Subperm.trans ?_ h.all.subperm
        refine List.Sublist.subperm ?_
        refine List.Sublist.trans ?_ (List.sublist_append_right _ _)
        exact (List.sublist_append_left _ _).append_left _
      split
      · rename_i l he
        refine ⟨all_keep _ rfl, h.est, hput _ (by simp), fun l' hl' => ?_⟩
        rcases List.mem_append.1 hl' with h1 | h1
        · exact h.reads l' h1
        · have : l' = l := by simpa using h1
          subst this
          exact hl l' he
      · exact ⟨all_keep _ rfl, h.est, hput _ (by simp), h.reads⟩
    | askTemp =>
      simp only [go]
      split
      · refine ⟨all_keep _ rfl, h.est, hput _ (by simp), fun l' hl' => ?_⟩
        rcases List.mem_append.1 hl' with h1 | h1
        · exact h.reads l' h1
        · simp at h1
      · have hasc := ascending_perm s.tmp
        refine ⟨?_, fun l hl => ?_, fun l hl => (hput _ (by simp) l hl).trans hasc.symm.subperm, fun l' hl' => ?_⟩
        · refine List.Perm.trans ?_ (all_keep .idle rfl)
          exact ((hasc.append_right _).append_left _)
        · obtain ⟨d, f, h1, h2, h3⟩ := h.est l hl
          exact ⟨d, f, h1, h2.trans hasc.symm.subperm, h3⟩
        · rcases List.mem_append.1 hl' with h1 | h1
          · exact h.reads l' h1
          · have : l' = s.tmp := by simpa using h1
            subst this
            refine List.Subperm.trans (List.Sublist.subperm ?_) h.all.subperm
            exact (List.sublist_append_left _ _).trans (List.sublist_append_right _ _)
  · rw [h0]
    have hset : ∀ q : PC K, (s.pcs.set t q).flatMap valOf ~ valOf q ++ s.pcs.flatMap valOf :=
      fun q => by simpa [valOf] using vals_set hp q
    have hput : ∀ q : PC K, (∀ l, q ≠ .put l) → ∀ l, PC.put l ∈ s.pcs.set t q → l <+~ s.tmp := by
      intro q hq l hl
      rcases List.mem_or_eq_of_mem_set hl with h1 | h1
      · exact h.put l h1
      · exact absurd h1.symm (hq l)
    cases a with
    | go => exact absurd rfl hne
    | add v =>
      refine ⟨?_, h.est, hput _ (by simp), fun l hl => (h.reads l hl).trans (List.sublist_append_left _ _).subperm⟩
      simp only [call, Sys.to]
      refine ((hset (.look v)).append_right _).trans ?_
      simp only [valOf, List.cons_append, List.nil_append]
      exact (h.all.cons v).trans (by simpa using (List.perm_append_singleton v s.calls).symm)
    | read => exact ⟨((hset .ask).append_right _).trans h.all, h.est, hput _ (by simp), h.reads⟩

theorem inv_run (n : Nat) (sched : List (Tid × Act K)) : Inv (run points (init n) sched) := by
  induction sched using List.reverseRecOn with
  | nil =>
    refine ⟨?_, fun l hl => (by cases hl), fun l hl => ?_, fun l hl => (by cases hl)⟩
    · have : (List.replicate n (PC.idle : PC K)).flatMap valOf = [] := by
        rw [List.flatMap_eq_nil_iff]
        intro p hp
        rw [List.eq_of_mem_replicate hp]; rfl
      simp [run, init, this]
    · have := List.eq_of_mem_replicate hl
      cases this
  | append_singleton xs x ih => rw [run_snoc]; exact inv_step ih _ _

/-- **C117**, for any schedule: nothing is invented and nothing counts twice.  The values quantiles are computed from, now and at every
read so far, are values that were added, each at most as often as it was added.  Missing for the full property: it is false
(`C117_violated`). -/
theorem C117_once_partial (points n : Nat) (sched : List (Tid × Act K)) :
    ((run points (init n) sched).est.getD (run points (init n) sched).tmp) <+~ (run points (init n) sched).calls ∧
    ∀ l, some l ∈ (run points (init n) sched).reads → l <+~ (run points (init n) sched).calls := by
  have h := inv_run (points := points) n sched
  refine ⟨?_, h.reads⟩
  have hall : ∀ l, l <+~ (run points (init n) sched).tmp ++ (run points (init n) sched).fed →
      l <+~ (run points (init n) sched).calls := by
    intro l hl
    refine (hl.trans ?_).trans h.all.subperm
    refine List.Sublist.subperm ?_
    refine List.Sublist.trans ?_ (List.sublist_append_right _ _)
    exact (List.sublist_append_left _ _).append_left _
  rcases he : (run points (init n) sched).est with _ | l
  · exact hall _ (List.sublist_append_left _ _).subperm
  · obtain ⟨d, f, h1, h2, h3⟩ := h.est l he
    exact hall l (h1.subperm.trans (h2.append h3))

/-! ### Calls that do not overlap -/

/-- At most one thread is in a call. -/
def Apart (s : Sys K) : Prop :=
  ∀ (t t' : Tid) (p p' : PC K), s.pcs[t]? = some p → s.pcs[t']? = some p' → p ≠ .idle → p' ≠ .idle → t = t'

def AlwaysApart (points n : Nat) (sched : List (Tid × Act K)) : Prop :=
  ∀ pre, pre <+: sched → Apart (run points (init n) pre)

/-- What the accumulator has after adding the values `c` one after the other: fewer than the threshold are all in the temporary
accumulator; otherwise the estimator was made from the first ones and given the others in order. -/
def Holds (points : Nat) (c : List K) (est : Option (List K)) (tmp : List K) (gone : Bool) : Prop :=
  if c.length < points + 2 then est = none ∧ tmp ~ c ∧ gone = false
  else gone = true ∧ ∃ w, est = some (w ++ c.drop (points + 2)) ∧ w ~ c.take (points + 2)

/-- The state of the accumulator while a thread is at a place. -/
def Phase (points : Nat) (s : Sys K) : PC K → Prop
  | .idle => Holds points s.calls s.est s.tmp s.gone
  | .look v => ∃ c, s.calls = c ++ [v] ∧ Holds points c s.est s.tmp s.gone
  | .temp v => ∃ c, s.calls = c ++ [v] ∧ c.length < points + 2 ∧ s.est = none ∧ s.tmp ~ c ∧ s.gone = false
  | .tadd v has => has = true ∧ ∃ c, s.calls = c ++ [v] ∧ c.length < points + 2 ∧ s.est = none ∧ s.tmp ~ c ∧ s.gone = false
  | .test => s.calls.length ≤ points + 2 ∧ s.est = none ∧ s.tmp ~ s.calls ∧ s.gone = false
  | .build => s.calls.length = points + 2 ∧ s.est = none ∧ s.tmp ~ s.calls ∧ s.gone = false
  | .put l => s.calls.length = points + 2 ∧ l ~ s.calls ∧ s.gone = false
  | .drop => s.calls.length = points + 2 ∧ ∃ l, s.est = some l ∧ l ~ s.calls
  | .feed v => ∃ c, s.calls = c ++ [v] ∧ points + 2 ≤ c.length ∧ Holds points c s.est s.tmp s.gone
  | .ask => Holds points s.calls s.est s.tmp s.gone
  | .askTemp => s.calls.length < points + 2 ∧ s.est = none ∧ s.tmp ~ s.calls ∧ s.gone = false

structure Seq (points : Nat) (s : Sys K) : Prop where
  idle : Quiescent s → Holds points s.calls s.est s.tmp s.gone
  phase : ∀ p ∈ s.pcs, p ≠ .idle → Phase points s p
  failed : s.failed = []
  reads : none ∉ s.reads

theorem seq_step {s : Sys K} (h : Seq points s) (hap : Apart s) (t : Tid) (a : Act K) (hap' : Apart (step points s t a)) :
    Seq points (step points s t a) := by
  rcases step_cases (points := points) s t a with h0 | ⟨p, hp, hne, h0⟩ | ⟨hp, hne, h0⟩
  · rw [h0]; exact h
  · rw [h0]
    have hmem := List.mem_of_getElem? hp
    have ht := (List.getElem?_eq_some_iff.1 hp).1
    have hph := h.phase p hmem hne
    -- the others are idle
    have others : ∀ (q r : PC K), r ∈ s.pcs.set t q → r = q ∨ r = .idle := by
      intro q r hr
      obtain ⟨i, hi⟩ := List.getElem?_of_mem hr
      rw [List.getElem?_set] at hi
      split at hi
      · rename_i hti
        first | rw [if_pos ht] at hi | skip
        exact .inl (Option.some.inj hi).symm
      · rename_i hti
        by_contra hc
        rw [not_or] at hc
        exact hti (hap t i p r hp hi hne hc.2)
    -- the thread moves inside its call, or ends it
    have inside : ∀ (s' : Sys K) (q : PC K), s'.pcs = s.pcs.set t q → (q = .idle → Phase points s' .idle) →
        (q ≠ .idle → Phase points s' q) → s'.failed = [] → none ∉ s'.reads → Seq points s' := by
      intro s' q hpcs h1 h2 h3 h4
      have hq : q ∈ s'.pcs := by
        rw [hpcs]; exact List.mem_of_getElem? (i := t) (by rw [List.getElem?_set, if_pos rfl, if_pos ht])
      refine ⟨fun hqs => h1 (hqs q hq), fun r hr hne' => ?_, h3, h4⟩
      rw [hpcs] at hr
      rcases others q r hr with rfl | rfl
      · exact h2 hne'
      · exact absurd rfl hne'
    cases p with
    | idle => exact absurd rfl hne
    | look v =>
      obtain ⟨c, hc, hh⟩ := hph
      simp only [go]
      by_cases hlen : c.length < points + 2
      · rw [Holds, if_pos hlen] at hh
        rw [if_pos hh.1]
        exact inside _ (.temp v) rfl (by simp) (fun _ => ⟨c, hc, hlen, hh⟩) h.failed h.reads
      · have hh' := hh
        rw [Holds, if_neg hlen] at hh'
        obtain ⟨_, w, hw, _⟩ := hh'
        rw [if_neg (by rw [hw]; simp)]
        exact inside _ (.feed v) rfl (by simp) (fun _ => ⟨c, hc, by omega, hh⟩) h.failed h.reads
    | temp v =>
      obtain ⟨c, hc, h1, h2, h3, h4⟩ := hph
      exact inside _ (.tadd v (!s.gone)) rfl (by simp) (fun _ => ⟨by simp [h4], c, hc, h1, h2, h3, h4⟩) h.failed h.reads
    | tadd v has =>
      obtain ⟨rfl, c, hc, h1, h2, h3, h4⟩ := hph
      refine inside _ .test rfl (by simp) (fun _ => ⟨?_, h2, ?_, h4⟩) h.failed h.reads
      · show s.calls.length ≤ points + 2
        rw [hc]; simp; omega
      · show s.tmp ++ [v] ~ s.calls
        rw [hc]; exact h3.append_right _
    | test =>
      obtain ⟨h1, h2, h3, h4⟩ := hph
      simp only [go]
      have hl := h3.length_eq
      split
      · exact inside _ .build rfl (by simp) (fun _ => ⟨by simp only [Sys.to]; omega, h2, h3, h4⟩) h.failed h.reads
      · refine inside _ .idle rfl (fun _ => ?_) (by simp) h.failed h.reads
        show Holds points s.calls s.est s.tmp s.gone
        rw [Holds, if_pos (by omega)]
        exact ⟨h2, h3, h4⟩
    | build =>
      obtain ⟨h1, h2, h3, h4⟩ := hph
      exact inside _ (.put s.tmp) rfl (by simp) (fun _ => ⟨h1, h3, h4⟩) h.failed h.reads
    | put l =>
      obtain ⟨h1, h2, h3⟩ := hph
      exact inside _ .drop rfl (by simp) (fun _ => ⟨h1, l, rfl, h2⟩) h.failed h.reads
    | drop =>
      obtain ⟨h1, l, h2, h3⟩ := hph
      refine inside _ .idle rfl (fun _ => ?_) (by simp) h.failed h.reads
      show Holds points s.calls s.est s.tmp true
      rw [Holds, if_neg (by omega)]
      refine ⟨rfl, l, ?_, ?_⟩
      · rw [h2, ← h1]; simp
      · rw [← h1, List.take_length]; exact h3
    | feed v =>
      obtain ⟨c, hc, h1, hh⟩ := hph
      rw [Holds, if_neg (by omega)] at hh
      obtain ⟨hg, w, hw, hwp⟩ := hh
      refine inside _ .idle rfl (fun _ => ?_) (by simp) h.failed h.reads
      show Holds points s.calls (s.est.map (· ++ [v])) s.tmp s.gone
      have hlen : ¬ s.calls.length < points + 2 := by rw [hc]; simp; omega
      rw [Holds, if_neg hlen]
      refine ⟨hg, w, ?_, ?_⟩
      · rw [hw, hc, List.drop_append_of_le_length h1]; simp
      · rw [hc, List.take_append_of_le_length h1]; exact hwp
    | ask =>
      simp only [go]
      have hh : Holds points s.calls s.est s.tmp s.gone := hph
      split
      · rename_i l he
        refine inside _ .idle rfl (fun _ => hh) (by simp) h.failed ?_
        simpa using h.reads
      · rename_i he
        refine inside _ .askTemp rfl (by simp) (fun _ => ?_) h.failed h.reads
        by_cases hlen : s.calls.length < points + 2
        · rw [Holds, if_pos hlen] at hh
          exact ⟨hlen, hh⟩
        · rw [Holds, if_neg hlen] at hh
          obtain ⟨_, w, hw, _⟩ := hh
          rw [he] at hw; cases hw
    | askTemp =>
      obtain ⟨h1, h2, h3, h4⟩ := hph
      simp only [go, h4, Bool.false_eq_true, if_false]
      refine inside _ .idle rfl (fun _ => ?_) (by simp) h.failed ?_
      · show Holds points s.calls s.est (ascending s.tmp) s.gone
        rw [Holds, if_pos h1]
        exact ⟨h2, (ascending_perm _).trans h3, h4⟩
      · simpa using h.reads
  · -- a call: no other thread may be in one
    have ht := (List.getElem?_eq_some_iff.1 hp).1
    rw [h0] at hap' ⊢
    have hcall : ∀ (s' : Sys K) (q : PC K), s'.pcs = s.pcs.set t q → q ≠ .idle → Apart s' → Quiescent s := by
      intro s' q hpcs hq hs' r hr
      obtain ⟨i, hi⟩ := List.getElem?_of_mem hr
      by_contra hc
      have hti : t ≠ i := by
        rintro rfl
        rw [hp] at hi
        exact hc (Option.some.inj hi).symm
      refine hti (hs' t i q r ?_ ?_ hq hc)
      · rw [hpcs, List.getElem?_set, if_pos rfl, if_pos ht]
      · rw [hpcs, List.getElem?_set, if_neg hti]; exact hi
    have made : ∀ (s' : Sys K) (q : PC K), s'.pcs = s.pcs.set t q → q ≠ .idle → Quiescent s → Phase points s' q →
        s'.failed = [] → none ∉ s'.reads → Seq points s' := by
      intro s' q hpcs hq hs hph h3 h4
      have hqm : q ∈ s'.pcs := by
        rw [hpcs]; exact List.mem_of_getElem? (i := t) (by rw [List.getElem?_set, if_pos rfl, if_pos ht])
      refine ⟨fun hqs => absurd (hqs q hqm) hq, fun r hr hne' => ?_, h3, h4⟩
      rw [hpcs] at hr
      rcases List.mem_or_eq_of_mem_set hr with h5 | rfl
      · exact absurd (hs r h5) hne'
      · exact hph
    cases a with
    | go => exact absurd rfl hne
    | add v =>
      have hq := hcall _ (.look v) rfl (by simp) hap'
      exact made _ (.look v) rfl (by simp) hq ⟨s.calls, rfl, h.idle hq⟩ h.failed h.reads
    | read =>
      have hq := hcall _ .ask rfl (by simp) hap'
      exact made _ .ask rfl (by simp) hq (h.idle hq) h.failed h.reads

theorem seq_run (n : Nat) (sched : List (Tid × Act K)) (hap : AlwaysApart points n sched) :
    Seq points (run points (init n) sched) := by
  induction sched using List.reverseRecOn with
  | nil =>
    refine ⟨fun _ => ?_, fun p hp hne => absurd (List.eq_of_mem_replicate hp) hne, rfl, by simp [run, init]⟩
    simp [Holds, run, init]
  | append_singleton xs x ih =>
    have h1 : AlwaysApart points n xs := fun pre hpre => hap pre (hpre.trans (List.prefix_append _ _))
    have h2 := hap _ (List.prefix_rfl)
    rw [run_snoc] at h2 ⊢
    exact seq_step (ih h1) (h1 xs List.prefix_rfl) _ _ h2

/-- **C117**, when no two calls overlap, whatever threads make them: no call raises, and the accumulator has all the values: up to the
threshold in its temporary accumulator, then in an estimator made from the first of them and given the others in the order they were
added.  Missing for the full property: it is false (`C117_violated`). -/
theorem C117_apart_partial (points n : Nat) (sched : List (Tid × Act K)) (hap : AlwaysApart points n sched)
    (hq : Quiescent (run points (init n) sched)) :
    Holds points (run points (init n) sched).calls (run points (init n) sched).est (run points (init n) sched).tmp
      (run points (init n) sched).gone ∧
    (run points (init n) sched).failed = [] ∧ none ∉ (run points (init n) sched).reads :=
  ⟨(seq_run n sched hap).idle hq, (seq_run n sched hap).failed, (seq_run n sched hap).reads⟩

/-! ### Sharing it after it has its estimator -/

/-- There is an estimator and nobody is making one. -/
structure Settled (old : List (Option (List K))) (vals : List K) (s : Sys K) : Prop where
  gone : ∃ l, s.est = some l ∧ l ++ s.pcs.flatMap valOf ~ s.calls
  places : ∀ p ∈ s.pcs, p = .idle ∨ (∃ v, p = .look v) ∨ (∃ v, p = .feed v) ∨ p = .ask
  failed : s.failed = []
  reads : ∃ new, s.reads = old ++ new ∧ ∀ r ∈ new, ∃ l, r = some l ∧ vals <+: l
  grown : ∀ l, s.est = some l → vals <+: l

theorem settled_step {old : List (Option (List K))} {vals : List K} {s : Sys K} (h : Settled old vals s) (t : Tid) (a : Act K) :
    Settled old vals (step points s t a) := by
  obtain ⟨⟨l, hl, hall⟩, hpl, hf, hr, hg⟩ := h
  rcases step_cases (points := points) s t a with h0 | ⟨p, hp, hne, h0⟩ | ⟨hp, hne, h0⟩
  · rw [h0]; exact ⟨⟨l, hl, hall⟩, hpl, hf, hr, hg⟩
  · rw [h0]
    have hmem := List.mem_of_getElem? hp
    have hset : ∀ q : PC K, valOf p ++ (s.pcs.set t q).flatMap valOf ~ valOf q ++ s.pcs.flatMap valOf :=
      fun q => vals_set hp q
    have places : ∀ q : PC K, (q = .idle ∨ (∃ v, q = .look v) ∨ (∃ v, q = .feed v) ∨ q = .ask) →
        ∀ r ∈ s.pcs.set t q, r = .idle ∨ (∃ v, r = .look v) ∨ (∃ v, r = .feed v) ∨ r = .ask := by
      intro q hq r hr
      rcases List.mem_or_eq_of_mem_set hr with h1 | rfl
      · exact hpl r h1
      · exact hq
    rcases hpl p hmem with rfl | ⟨v, rfl⟩ | ⟨v, rfl⟩ | rfl
    · exact absurd rfl hne
    · simp only [go]
      rw [if_neg (by rw [hl]; simp)]
      refine ⟨⟨l, hl, ?_⟩, places _ (.inr (.inr (.inl ⟨v, rfl⟩))), hf, hr, hg⟩
      exact (((List.perm_append_left_iff _).1 (hset (.feed v))).append_left l).trans hall
    · simp only [go]
      refine ⟨⟨l ++ [v], by simp [hl], ?_⟩, places _ (.inl rfl), hf, hr, fun l' hl' => ?_⟩
      · rw [List.append_assoc]
        exact ((hset .idle).append_left l).trans hall
      · simp only [hl, Option.map_some, Option.some.injEq] at hl'
        rw [← hl']
        exact (hg l hl).trans (List.prefix_append _ _)
    · simp only [go, hl]
      refine ⟨⟨l, hl, ?_⟩, places _ (.inl rfl), hf, ?_, hg⟩
      swap
      · obtain ⟨new, h1, h2⟩ := hr
        refine ⟨new ++ [some l], by simp [Sys.to, h1], fun r hr => ?_⟩
        rcases List.mem_append.1 hr with h3 | h3
        · exact h2 r h3
        · exact ⟨l, by simpa using h3, hg l hl⟩
      exact ((by simpa [valOf] using hset .idle : (s.pcs.set t .idle).flatMap valOf ~ _).append_left l).trans hall
  · rw [h0]
    have hset : ∀ q : PC K, (s.pcs.set t q).flatMap valOf ~ valOf q ++ s.pcs.flatMap valOf :=
      fun q => by simpa [valOf] using vals_set hp q
    have places : ∀ q : PC K, (q = .idle ∨ (∃ v, q = .look v) ∨ (∃ v, q = .feed v) ∨ q = .ask) →
        ∀ r ∈ s.pcs.set t q, r = .idle ∨ (∃ v, r = .look v) ∨ (∃ v, r = .feed v) ∨ r = .ask := by
      intro q hq r hr
      rcases List.mem_or_eq_of_mem_set hr with h1 | rfl
      · exact hpl r h1
      · exact hq
    cases a with
    | go => exact absurd rfl hne
    | add v =>
      refine ⟨⟨l, hl, ?_⟩, places _ (.inr (.inl ⟨v, rfl⟩)), hf, hr, hg⟩
      simp only [call, Sys.to]
      refine ((hset (.look v)).append_left l).trans ?_
      simp only [valOf, List.cons_append, List.nil_append]
      refine List.perm_middle.trans ((hall.cons v).trans ?_)
      exact (List.perm_append_singleton v s.calls).symm
    | read =>
      refine ⟨⟨l, hl, ?_⟩, places _ (.inr (.inr (.inr rfl))), hf, hr, hg⟩
      exact ((hset .ask).append_left l).trans hall

theorem settled_run {old : List (Option (List K))} {vals : List K} {s : Sys K} (h : Settled old vals s)
    (sched : List (Tid × Act K)) : Settled old vals (run points s sched) := by
  induction sched using List.reverseRecOn with
  | nil => exact h
  | append_singleton xs x ih => rw [run_snoc]; exact settled_step ih _ _

/-- **C117**, when the first values, as many as the threshold, are added without overlapping calls: whatever any number of threads do
afterwards, no call raises; once all calls are over the estimator has every value that was ever added, exactly once; and what is read
meanwhile is computed from at least those first values.  Missing for the full property: it is false (`C117_violated`). -/
theorem C117_settled_partial (points n : Nat) (first rest : List (Tid × Act K)) (hap : AlwaysApart points n first)
    (hq : Quiescent (run points (init n) first)) (hlen : points + 2 ≤ (run points (init n) first).calls.length) :
    (run points (init n) (first ++ rest)).failed = [] ∧
    (Quiescent (run points (init n) (first ++ rest)) →
      ∃ l, (run points (init n) (first ++ rest)).est = some l ∧ l ~ (run points (init n) (first ++ rest)).calls) ∧
    ∃ new, (run points (init n) (first ++ rest)).reads = (run points (init n) first).reads ++ new ∧
      ∀ r ∈ new, ∃ l, r = some l ∧ (run points (init n) first).calls <+~ l := by
  rw [run_append]
  have h := C117_apart_partial points n first hap hq
  generalize run points (init n) first = s at h hq hlen ⊢
  obtain ⟨hh, hf, hr⟩ := h
  rw [Holds, if_neg (by omega)] at hh
  obtain ⟨_, w, hw, hwp⟩ := hh
  have hnil : ∀ s' : Sys K, Quiescent s' → s'.pcs.flatMap valOf = [] := by
    intro s' hs
    rw [List.flatMap_eq_nil_iff]
    intro p hp
    rw [hs p hp]; rfl
  have hperm : w ++ s.calls.drop (points + 2) ~ s.calls :=
    (hwp.append_right _).trans (by rw [List.take_append_drop])
  have hset : Settled s.reads (w ++ s.calls.drop (points + 2)) s := by
    refine ⟨⟨_, hw, ?_⟩, fun p hp => .inl (hq p hp), hf, ⟨[], by simp, by simp⟩, fun l hl => ?_⟩
    · rw [hnil s hq, List.append_nil]
      exact hperm
    · rw [hw] at hl
      rw [← Option.some.inj hl]
  have hs := settled_run (points := points) hset rest
  refine ⟨hs.failed, fun hqs => ?_, ?_⟩
  · obtain ⟨l, h1, h2⟩ := hs.gone
    rw [hnil _ hqs, List.append_nil] at h2
    exact ⟨l, h1, h2⟩
  · obtain ⟨new, h1, h2⟩ := hs.reads
    refine ⟨new, h1, fun r hr' => ?_⟩
    obtain ⟨l, h3, h4⟩ := h2 r hr'
    exact ⟨l, h3, hperm.symm.subperm.trans h4.sublist.subperm⟩

/-! ### The hypotheses can be met -/

/-- Three values and two reads, one call after the other, by two threads. -/
def Sample.first : List (Tid × Act Int) := one 0 5 ++ [(1, .read)] ++ goes 2 1 ++ one 1 6 ++ one 0 4 ++ [(1, .read)] ++ goes 1 1

theorem Sample.first_apart : AlwaysApart 1 2 Sample.first ∧ Quiescent (run 1 (init 2) Sample.first) := by
  refine ⟨fun pre hpre => ?_, by unfold Quiescent; decide +kernel⟩
  have h : ∀ pre ∈ Sample.first.inits, ∀ t ∈ List.range 2, ∀ t' ∈ List.range 2,
      (run 1 (init 2) pre).pcs[t]? ≠ some .idle → (run 1 (init 2) pre).pcs[t']? ≠ some .idle → t = t' := by decide +kernel
  have hlen : ∀ pre ∈ Sample.first.inits, (run 1 (init 2) pre).pcs.length = 2 := by decide +kernel
  have hm := (List.mem_inits _ _).2 hpre
  intro t t' p p' hp hp' hne hne'
  have l1 := (List.getElem?_eq_some_iff.1 hp).1
  have l2 := (List.getElem?_eq_some_iff.1 hp').1
  rw [hlen pre hm] at l1 l2
  refine h pre hm t (by simpa using l1) t' (by simpa using l2) ?_ ?_
  · rw [hp]; simpa using hne
  · rw [hp']; simpa using hne'

example : Holds 1 [5, 6, 4] (run 1 (init 2) Sample.first).est (run 1 (init 2) Sample.first).tmp
    (run 1 (init 2) Sample.first).gone := by
  have h := (C117_apart_partial 1 2 _ Sample.first_apart.1 Sample.first_apart.2).1
  have hc : (run 1 (init 2) Sample.first).calls = [5, 6, 4] := by decide +kernel
  rwa [hc] at h

/-- Then two threads at once. -/
def Sample.rest : List (Tid × Act Int) := [(0, .add 7), (1, .add 8)] ++ goes 1 0 ++ goes 1 1 ++ goes 1 1 ++ [(1, .read)] ++ goes 1 1 ++ goes 1 0

example : Quiescent (run 1 (init 2) (Sample.first ++ Sample.rest)) ∧
    (run 1 (init 2) (Sample.first ++ Sample.rest)).est = some [5, 6, 4, 8, 7] ∧
    (run 1 (init 2) (Sample.first ++ Sample.rest)).reads = [some [5], some [5, 6, 4], some [5, 6, 4, 8]] :=
  ⟨by unfold Quiescent; decide +kernel, by decide +kernel, by decide +kernel⟩

end Verif.P2Conc
