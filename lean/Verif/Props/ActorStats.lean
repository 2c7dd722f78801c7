import Verif.Model.ActorStats
import Mathlib.Algebra.Order.Field.Basic
import Mathlib.Data.Rat.Defs
import Mathlib.Algebra.Order.Field.Rat
import Mathlib.Tactic.NormNum
import Mathlib.Data.List.Induction
import Mathlib.Algebra.Order.BigOperators.Group.List
/-!
# C123: the statistics of an actor
-/
namespace Verif.Actor

variable {K : Type} [Field K]

/-- Does the thread survive this end of its task?  Ordinary failures do no harm unless the note callback fails as well;
SystemExit and KeyboardInterrupt end only threads that are not daemons; other exceptions end it. -/
def survives (daemon : Bool) : Outcome → Prop
  | .ok => True
  | .exc noteRaises => noteRaises = false
  | .exit => daemon = true
  | .base => False

instance (daemon : Bool) (o : Outcome) : Decidable (survives daemon o) := by cases o <;> unfold survives <;> infer_instance

/-- The task calls of a run that have ended: up to the first the thread does not survive. -/
def ended (daemon : Bool) : List (Round K) → List (Round K)
  | [] => []
  | r :: rs => if survives daemon r.out then r :: ended daemon rs else [r]

/-- Did the thread get through all rounds? -/
def through (daemon : Bool) (rs : List (Round K)) : Prop := ∀ r ∈ rs, survives daemon r.out

instance (daemon : Bool) (rs : List (Round K)) : Decidable (through daemon rs) := by unfold through; infer_instance

/-- The number of task calls of a run, with the one going on. -/
def callsOf (daemon : Bool) (r : Run K) : Nat :=
  (ended daemon r.rounds).length + if through daemon r.rounds ∧ r.pending.isSome then 1 else 0

/-- The time the ended task calls of a run took that the thread survived. -/
def timeOf (daemon : Bool) (r : Run K) : K :=
  (((ended daemon r.rounds).filter fun x => decide (survives daemon x.out)).map fun x => x.after - x.before).sum

theorem lethal_iff (daemon : Bool) (o : Outcome) : lethal daemon o = false ↔ survives daemon o := by
  cases o <;> simp [lethal, survives]

theorem loop_spec (daemon : Bool) (p : Option K) (rs : List (Round K)) (s : Stats K) :
    statsLoop daemon s p rs =
      { start := s.start
        time := s.time + timeOf daemon ⟨0, rs, p⟩
        count := s.count + callsOf daemon ⟨0, rs, p⟩ } := by
  induction rs generalizing s with
  | nil =>
    cases p <;> simp [statsLoop, timeOf, callsOf, ended, through]
  | cons r rs ih =>
    rw [statsLoop]
    by_cases h : survives daemon r.out
    · have hl := (lethal_iff daemon r.out).2 h
      rw [roundEnd, hl]
      simp only [Bool.false_eq_true, if_false]
      rw [ih]
      have h1 : ended daemon (r :: rs) = r :: ended daemon rs := by rw [ended, if_pos h]
      have h2 : through daemon (r :: rs) ↔ through daemon rs := by simp [through, h]
      congr 1
      · unfold timeOf
        simp only [h1]
        rw [List.filter_cons_of_pos (by simpa using h), List.map_cons, List.sum_cons, add_assoc]
      · unfold callsOf
        simp only [h1, h2, List.length_cons]
        omega
    · have hl : lethal daemon r.out = true := by
        rw [← Bool.not_eq_false]; exact fun hf => h ((lethal_iff daemon r.out).1 hf)
      rw [roundEnd, hl]
      have h1 : ended daemon (r :: rs) = [r] := by rw [ended, if_neg h]
      have h2 : ¬ through daemon (r :: rs) := by simp [through, h]
      simp [timeOf, callsOf, h1, h2, h]

/-- C123: however often an actor was run, its count is the number of task calls made, also of those going on and those that
ended the thread; its time is what the calls took that did not end the thread; its start is that of the latest run.  What is
missing for the full claim: the time of calls that end the thread (see `C123_violated`). -/
theorem C123_stats_partial (daemon : Bool) (runs : List (Run K)) :
    (getStats daemon runs).count = (runs.map (callsOf daemon)).sum ∧
    (getStats daemon runs).time = (runs.map (timeOf daemon)).sum ∧
    ∀ r, runs.getLast? = some r → (getStats daemon runs).start = r.began := by
  unfold getStats
  induction runs using List.reverseRecOn with
  | nil => simp [statsInit]
  | append_singleton runs r ih =>
    rw [List.foldl_append, List.foldl_cons, List.foldl_nil, statsRun, loop_spec]
    obtain ⟨h1, h2, _⟩ := ih
    refine ⟨?_, ?_, ?_⟩
    · simp only [h1, List.map_append, List.map_cons, List.map_nil, List.sum_append, List.sum_cons, List.sum_nil]; rfl
    · simp only [h2, List.map_append, List.map_cons, List.map_nil, List.sum_append, List.sum_cons, List.sum_nil, add_zero]; rfl
    · intro r' hr
      rw [List.getLast?_append, List.getLast?_singleton, Option.some_or] at hr
      cases hr
      rfl

/-- C123: if the task never ends the thread, the time is that of all calls that have ended. -/
theorem C123_time (daemon : Bool) (runs : List (Run K)) (h : ∀ r ∈ runs, through daemon r.rounds) :
    (getStats daemon runs).time = (runs.map fun r => (r.rounds.map fun x => x.after - x.before).sum).sum ∧
    (getStats daemon runs).count = (runs.map fun r => r.rounds.length + if r.pending.isSome then 1 else 0).sum := by
  obtain ⟨h1, h2, _⟩ := C123_stats_partial daemon runs
  have he : ∀ rs : List (Round K), through daemon rs → ended daemon rs = rs := by
    intro rs
    induction rs with
    | nil => intro _; rfl
    | cons r rs ih =>
      intro ht
      rw [ended, if_pos (ht r List.mem_cons_self), ih fun x hx => ht x (List.mem_cons_of_mem _ hx)]
  rw [h1, h2]
  constructor
  · congr 1
    refine List.map_congr_left fun r hr => ?_
    unfold timeOf
    rw [he _ (h r hr), List.filter_eq_self.2 fun x hx => by simpa using h r hr x hx]
  · congr 1
    refine List.map_congr_left fun r hr => ?_
    unfold callsOf
    rw [he _ (h r hr)]
    simp [h r hr]

/-- C123: the time is never negative, if the clock does not go back. -/
theorem C123_time_nonneg {K : Type} [Field K] [LinearOrder K] [IsStrictOrderedRing K] (daemon : Bool) (runs : List (Run K))
    (h : ∀ r ∈ runs, ∀ x ∈ r.rounds, x.before ≤ x.after) : 0 ≤ (getStats daemon runs).time := by
  rw [(C123_stats_partial daemon runs).2.1]
  refine List.sum_nonneg fun y hy => ?_
  obtain ⟨r, hr, rfl⟩ := List.mem_map.1 hy
  refine List.sum_nonneg fun z hz => ?_
  obtain ⟨x, hx, rfl⟩ := List.mem_map.1 hz
  have hmem : ∀ (rs : List (Round K)), ∀ x ∈ ended daemon rs, x ∈ rs := by
    intro rs
    induction rs with
    | nil => simp [ended]
    | cons q rs ih =>
      intro x hx
      rw [ended] at hx
      split at hx
      · rcases List.mem_cons.1 hx with rfl | hx
        · exact List.mem_cons_self
        · exact List.mem_cons_of_mem _ (ih x hx)
      · rw [List.mem_singleton.1 hx]; exact List.mem_cons_self
  exact sub_nonneg.2 (h r hr x (hmem _ x (List.mem_filter.1 hx).1))

/-- C123 fails: the ten seconds of a call that ends the thread are not in the time, though the call is counted. -/
theorem C123_violated : ∃ runs : List (Run ℚ), (runs.flatMap Run.rounds).map (fun x => x.after - x.before) = [1, 10] ∧
    (getStats true runs).count = 2 ∧ (getStats true runs).time = 1 := by
  refine ⟨[⟨0, [⟨0, 1, .ok⟩, ⟨2, 12, .base⟩], none⟩], ?_, ?_, ?_⟩
  · norm_num
  · rfl
  · norm_num [getStats, statsRun, statsLoop, roundEnd, lethal, statsInit]

example : (getStats true [⟨0, [⟨0, 1, .ok⟩, ⟨2, 5, .exc false⟩], none⟩, ⟨100, [⟨100, 102, .exit⟩], some (103 : ℚ)⟩]).time = 6 ∧
    (getStats true [⟨0, [⟨0, 1, .ok⟩, ⟨2, 5, .exc false⟩], none⟩, ⟨100, [⟨100, 102, .exit⟩], some (103 : ℚ)⟩]).count = 4 := by
  obtain ⟨h1, h2⟩ := C123_time true [⟨0, [⟨0, 1, .ok⟩, ⟨2, 5, .exc false⟩], none⟩, ⟨100, [⟨100, 102, .exit⟩], some (103 : ℚ)⟩]
    (by intro r hr; simp at hr; rcases hr with rfl | rfl <;> simp [through, survives])
  rw [h1, h2]
  norm_num

end Verif.Actor
