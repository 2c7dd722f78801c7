import Verif.Model.Shared
import Verif.Lemmas.ModesDisable
/-!
# C102: threads that share an action
-/
namespace Verif.Shared

open scoped List
open Verif.Modes (flatMap_set flatMap_short set_get)

/-! ### Specification -/

/-- All calls have returned. -/
def allReturned (s : Sys) : Prop := ∀ p ∈ s.pcs, p = .idle

def isBegin : Out → Bool
  | .begin _ => true
  | _ => false

def isFin : Out → Bool
  | .fin _ _ => true
  | _ => false

/-- The warning events published, in order. -/
def warnsOf (o : List Out) : List Ev := o.filterMap fun | .warn e => some e | _ => none

/-- The end events published, in order. -/
def finsOf (o : List Out) : List Ev := o.filterMap fun | .fin e _ => some e | _ => none

/-- Status calls among the calls made. -/
def finCalls (s : Sys) : Nat := s.asked.countP fun | .fin _ => true | _ => false

/-- Calls among those made that begin the action if it has not begun. -/
def beginCalls (s : Sys) : Nat := s.asked.countP fun | .fin _ => true | .begin => true | _ => false

/-- The full claim: when all calls have returned, at most one begin event has been published, it comes before every end
event, and no end event has been published twice. -/
def SharedFull : Prop :=
  ∀ (n : Nat) (sched : List (Tid × Act)), allReturned (run (init n) sched) →
    (run (init n) sched).out.countP isBegin ≤ 1 ∧
    (∀ pre o post, (run (init n) sched).out = pre ++ o :: post → isFin o = true → pre.any isBegin = true) ∧
    (finsOf (run (init n) sched).out).Nodup

/-! ### What fails -/

/-- Two threads find the action not begun: two begin events are published (in fact the later one twice). -/
theorem C102_two_begins_violated :
    ∃ sched, allReturned (run (init 2) sched) ∧ (run (init 2) sched).out = [.begin 1, .begin 1] := by
  refine ⟨[(0, .begin), (1, .begin), (0, .go), (1, .go), (0, .go), (1, .go), (0, .go), (1, .go)], ?_, by decide⟩
  unfold allReturned; decide

/-- A thread ends the action while another is about to publish its begin event: the end event comes first. -/
theorem C102_end_first_violated :
    ∃ sched, allReturned (run (init 2) sched) ∧ (run (init 2) sched).out = [.fin 1 .success, .begin 0] := by
  refine ⟨[(0, .begin), (0, .go), (0, .go), (1, .fin .success), (1, .go), (1, .go), (1, .go), (0, .go)], ?_, by decide⟩
  unfold allReturned; decide

/-- Two threads end the action: one of the end events is published twice, the other never. -/
theorem C102_same_end_violated :
    ∃ sched, allReturned (run (init 2) sched) ∧
      (run (init 2) sched).out = [.begin 0, .fin 2 .failure, .fin 2 .failure] := by
  refine ⟨[(0, .begin), (0, .go), (0, .go), (0, .go), (0, .fin .success), (1, .fin .failure), (0, .go), (1, .go), (0, .go),
    (1, .go), (0, .go), (1, .go)], ?_, by decide⟩
  unfold allReturned; decide

theorem C102_violated : ¬ SharedFull := by
  intro h
  obtain ⟨sched, h1, h2⟩ := C102_two_begins_violated
  have := (h 2 sched h1).1
  rw [h2] at this
  revert this; decide

/-! ### Invariants -/

/-- One unit per thread inside a status call. -/
def inFin : PC → List Unit
  | .check _ | .storeEnd _ | .pubEnd | .test (.fin _) | .storeBegin (.fin _) | .pubBegin (.fin _) => [()]
  | _ => []

/-- One unit per thread that may still begin the action. -/
def mayBegin : PC → List Unit
  | .check _ | .test _ | .storeBegin _ => [()]
  | _ => []

/-- One unit per thread that will publish a begin event. -/
def willBegin : PC → List Unit
  | .storeBegin _ | .pubBegin _ => [()]
  | _ => []

def inWarn : PC → List Ev
  | .pubWarn e => [e]
  | _ => []

/-- What holds between any two steps. -/
structure Inv (n : Nat) (s : Sys) : Prop where
  len : s.pcs.length = n
  fins : s.out.countP isFin + (s.pcs.flatMap inFin).length = finCalls s
  warns : warnsOf s.out ++ s.pcs.flatMap inWarn ~ s.warnEvents
  warnLt : ∀ e ∈ s.warnEvents, e < s.next
  warnNodup : s.warnEvents.Nodup
  warnCalls : s.warnEvents.length = s.asked.count .warn
  begun : ∀ p ∈ s.pcs, (∀ k, p = .pubBegin k → s.beginEvent ≠ none) ∧ (p = .pubEnd → s.endEvent ≠ none) ∧
    (∀ st, p = .storeEnd st → s.beginEvent ≠ none)
  unbegun : s.beginEvent = none → s.out.countP isBegin = 0 ∧ (s.pcs.flatMap mayBegin).length = beginCalls s
  atMost : s.out.countP isBegin + (s.pcs.flatMap willBegin).length ≤ n
  atLeast : s.beginEvent ≠ none → 0 < s.out.countP isBegin + (s.pcs.flatMap willBegin).length

theorem willBegin_short (p : PC) : (willBegin p).length ≤ 1 := by unfold willBegin; split <;> simp

/-- A thread goes from `p` to `q`, and the warnings stay as they are. -/
theorem Inv.move {n : Nat} {s s' : Sys} (h : Inv n s) {t : Tid} {p : PC} (hp : s.pcs[t]? = some p) (q : PC)
    (hs : s'.pcs = s.pcs.set t q)
    (f : s'.out.countP isFin + (inFin q).length + finCalls s = s.out.countP isFin + (inFin p).length + finCalls s')
    (w : warnsOf s'.out ++ inWarn q ~ warnsOf s.out ++ inWarn p) (w1 : s'.warnEvents = s.warnEvents)
    (w2 : s.next ≤ s'.next) (w3 : s'.asked.count .warn = s.asked.count .warn)
    (b1 : s.beginEvent ≠ none → s'.beginEvent ≠ none) (b2 : s.endEvent ≠ none → s'.endEvent ≠ none)
    (b3 : (∀ k, q = .pubBegin k → s'.beginEvent ≠ none) ∧ (q = .pubEnd → s'.endEvent ≠ none) ∧
          (∀ st, q = .storeEnd st → s'.beginEvent ≠ none))
    (u : s'.beginEvent = none → s'.out.countP isBegin = s.out.countP isBegin ∧
      (mayBegin q).length + beginCalls s = (mayBegin p).length + beginCalls s')
    (m : s'.out.countP isBegin + (willBegin q).length ≤ s.out.countP isBegin + (willBegin p).length ∨
      (s.beginEvent = none ∧ s'.out = s.out))
    (l : s'.beginEvent ≠ none → (s.beginEvent ≠ none ∧
      s.out.countP isBegin + (willBegin p).length ≤ s'.out.countP isBegin + (willBegin q).length) ∨
      0 < (willBegin q).length) : Inv n s' := by
  obtain ⟨F, hF, hF'⟩ := flatMap_set inFin hp
  obtain ⟨W, hW, hW'⟩ := flatMap_set inWarn hp
  obtain ⟨M, hM, hM'⟩ := flatMap_set mayBegin hp
  obtain ⟨V, hV, hV'⟩ := flatMap_set willBegin hp
  have lF := hF.length_eq
  have lM := hM.length_eq
  have lV := hV.length_eq
  have lF' := (hF' q).length_eq
  have lM' := (hM' q).length_eq
  have lV' := (hV' q).length_eq
  simp only [List.length_append] at lF lM lV lF' lM' lV'
  refine ⟨by rw [hs, List.length_set]; exact h.len, ?_, ?_, ?_, ?_, ?_, ?_, ?_, ?_, ?_⟩
  · have := h.fins
    rw [hs]; omega
  · rw [hs, w1]
    refine List.Perm.trans ?_ h.warns
    calc warnsOf s'.out ++ (s.pcs.set t q).flatMap inWarn ~ warnsOf s'.out ++ (inWarn q ++ W) := (hW' q).append_left _
      _ = (warnsOf s'.out ++ inWarn q) ++ W := by simp
      _ ~ (warnsOf s.out ++ inWarn p) ++ W := w.append_right _
      _ = warnsOf s.out ++ (inWarn p ++ W) := by simp
      _ ~ _ := hW.symm.append_left _
  · intro e he
    rw [w1] at he
    exact Nat.lt_of_lt_of_le (h.warnLt e he) w2
  · rw [w1]; exact h.warnNodup
  · rw [w1, w3]; exact h.warnCalls
  · intro x hx
    rw [hs] at hx
    rcases List.mem_or_eq_of_mem_set hx with h1 | h1
    · obtain ⟨a1, a2, a3⟩ := h.begun x h1
      exact ⟨fun k hk => b1 (a1 k hk), fun hk => b2 (a2 hk), fun st hk => b1 (a3 st hk)⟩
    · rw [h1]; exact b3
  · intro hn
    have h0 : s.beginEvent = none := by
      by_contra hc; exact b1 hc hn
    obtain ⟨u1, u2⟩ := u hn
    obtain ⟨v1, v2⟩ := h.unbegun h0
    rw [hs]
    refine ⟨by omega, by omega⟩
  · have := h.atMost
    rcases m with m | ⟨m1, m2⟩
    · rw [hs]; omega
    · rw [m2, (h.unbegun m1).1]
      have h1 := flatMap_short willBegin willBegin_short s'.pcs
      rw [hs] at h1 ⊢
      rw [List.length_set, h.len] at h1
      omega
  · intro hn
    rw [hs]
    rcases l hn with ⟨l1, l2⟩ | l1
    · have := h.atLeast l1
      omega
    · omega

theorem step_Inv {n : Nat} {s : Sys} (h : Inv n s) (t : Tid) (a : Act) : Inv n (step s t a) := by
  unfold step
  cases hp : s.pcs[t]? with
  | none => exact h
  | some p =>
    have hmem := List.mem_of_getElem? hp
    have hbeg := h.begun p hmem
    dsimp only
    split
    · cases p with
      | idle => exact h
      | check st =>
        simp only [go]
        cases hb : s.beginEvent with
        | none =>
          exact h.move hp (.test (.fin st)) rfl (by simp [Sys.to, inFin, finCalls]) (by simp [Sys.to, inWarn]) rfl (Nat.le_refl _) rfl
                id id (by simp) (by simp [Sys.to, mayBegin, beginCalls]) (by simp [Sys.to, willBegin]) (by simp [Sys.to, hb])
        | some e =>
          exact h.move hp (.storeEnd st) rfl (by simp [Sys.to, inFin, finCalls]) (by simp [Sys.to, inWarn]) rfl (Nat.le_refl _) rfl
                id id (by simp [Sys.to, hb]) (by simp [Sys.to, hb]) (by simp [Sys.to, willBegin])
                (by simp [Sys.to, hb, willBegin])
      | test k =>
        simp only [go]
        cases hb : s.beginEvent with
        | none =>
          cases k <;>
          exact h.move hp (.storeBegin _) rfl (by simp [Sys.to, inFin, finCalls]) (by simp [Sys.to, inWarn]) rfl (Nat.le_refl _) rfl
                id id (by simp) (by simp [Sys.to, mayBegin, beginCalls]) (by simp [Sys.to, hb]) (by simp [Sys.to, hb])
        | some e =>
          cases k with
          | ret =>
            exact h.move hp (.idle) rfl (by simp [Sys.to, inFin, finCalls, Cont.pc]) (by simp [Sys.to, inWarn, Cont.pc]) rfl
                (Nat.le_refl _) rfl
                id id (by simp [Sys.to, hb, Cont.pc]) (by simp [Sys.to, hb]) (by simp [Sys.to, willBegin, Cont.pc])
                (by simp [Sys.to, hb, willBegin, Cont.pc])
          | fin st =>
            exact h.move hp (.storeEnd st) rfl (by simp [Sys.to, inFin, finCalls, Cont.pc]) (by simp [Sys.to, inWarn, Cont.pc]) rfl
                (Nat.le_refl _) rfl
                id id (by simp [Sys.to, hb, Cont.pc]) (by simp [Sys.to, hb]) (by simp [Sys.to, willBegin, Cont.pc])
                (by simp [Sys.to, hb, willBegin, Cont.pc])
      | storeBegin k =>
        cases k <;>
        exact h.move hp (.pubBegin _) rfl (by simp [go, Sys.to, inFin, finCalls]) (by simp [go, Sys.to, inWarn]) rfl
                (by simp [go, Sys.to]) rfl
                (by simp [go, Sys.to]) id (by simp [go, Sys.to]) (by simp [go, Sys.to]) (by simp [go, Sys.to, willBegin])
                (by simp [go, Sys.to, willBegin])
      | pubBegin k =>
        simp only [go]
        cases hb : s.beginEvent with
        | none => exact absurd hb (hbeg.1 k rfl)
        | some e =>
          cases k with
          | ret =>
            exact h.move hp (.idle) rfl (by simp [Sys.to, inFin, finCalls, Cont.pc, isFin])
                (by simp [Sys.to, inWarn, Cont.pc, warnsOf]) rfl
                (Nat.le_refl _) rfl
                (by simp [Sys.to]) id (by simp [Sys.to, hb, Cont.pc]) (by simp [Sys.to, hb])
                (by simp [Sys.to, willBegin, Cont.pc, isBegin])
                (by simp [Sys.to, hb, willBegin, Cont.pc, isBegin])
          | fin st =>
            exact h.move hp (.storeEnd st) rfl (by simp [Sys.to, inFin, finCalls, Cont.pc, isFin])
                (by simp [Sys.to, inWarn, Cont.pc, warnsOf]) rfl
                (Nat.le_refl _) rfl
                (by simp [Sys.to]) id (by simp [Sys.to, hb, Cont.pc]) (by simp [Sys.to, hb])
                (by simp [Sys.to, willBegin, Cont.pc, isBegin])
                (by simp [Sys.to, hb, willBegin, Cont.pc, isBegin])
      | storeEnd st =>
        have hb := hbeg.2.2 st rfl
        exact h.move hp (.pubEnd) rfl (by simp [go, Sys.to, inFin, finCalls]) (by simp [go, Sys.to, inWarn]) rfl
                (by simp [go, Sys.to]) rfl
                id (by simp [go, Sys.to]) (by simp [go, Sys.to]) (by simp [go, Sys.to, hb])
                (by simp [go, Sys.to, willBegin]) (by simp [go, Sys.to, willBegin])
      | pubEnd =>
        simp only [go]
        cases he : s.endEvent with
        | none => exact absurd he (hbeg.2.1 rfl)
        | some x =>
          obtain ⟨e, st⟩ := x
          exact h.move hp (.idle) rfl (by simp [Sys.to, inFin, finCalls, isFin]) (by simp [Sys.to, inWarn, warnsOf]) rfl
                (Nat.le_refl _) rfl
                id (by simp [Sys.to]) (by simp) (by simp [Sys.to, mayBegin, beginCalls, isBegin])
                (by simp [Sys.to, willBegin, isBegin]) (by simp [Sys.to, willBegin, isBegin])
      | pubWarn e =>
        exact h.move hp (.idle) rfl (by simp [go, Sys.to, inFin, finCalls, isFin]) (by simp [go, Sys.to, inWarn, warnsOf]) rfl
                (Nat.le_refl _) rfl
                id id (by simp) (by simp [go, Sys.to, mayBegin, beginCalls, isBegin])
                (by simp [go, Sys.to, willBegin, isBegin]) (by simp [go, Sys.to, willBegin, isBegin])
    · split
      · next hi =>
        subst hi
        cases a with
        | begin =>
          exact h.move hp (.test .ret) rfl (by simp [call, Sys.to, inFin, finCalls]) (by simp [call, Sys.to, inWarn]) rfl
                (Nat.le_refl _) (by simp [call, Sys.to])
                id id (by simp) (by simp [call, Sys.to, mayBegin, beginCalls]; omega)
                (by simp [call, Sys.to, willBegin]) (by simp [call, Sys.to, willBegin])
        | fin st =>
          exact h.move hp (.check st) rfl (by simp [call, Sys.to, inFin, finCalls]; omega) (by simp [call, Sys.to, inWarn]) rfl
                (Nat.le_refl _) (by simp [call, Sys.to])
                id id (by simp) (by simp [call, Sys.to, mayBegin, beginCalls]; omega)
                (by simp [call, Sys.to, willBegin]) (by simp [call, Sys.to, willBegin])
        | go => exact h
        | warn =>
          obtain ⟨W, hW, hW'⟩ := flatMap_set inWarn hp
          obtain ⟨F, hF, hF'⟩ := flatMap_set inFin hp
          obtain ⟨M, hM, hM'⟩ := flatMap_set mayBegin hp
          obtain ⟨V, hV, hV'⟩ := flatMap_set willBegin hp
          have lF := hF.length_eq
          have lM := hM.length_eq
          have lV := hV.length_eq
          have lF' := (hF' (.pubWarn s.next)).length_eq
          have lM' := (hM' (.pubWarn s.next)).length_eq
          have lV' := (hV' (.pubWarn s.next)).length_eq
          simp only [inFin, mayBegin, willBegin, List.nil_append] at lF lM lV lF' lM' lV'
          refine ⟨by simp [call, Sys.to, h.len], ?_, ?_, ?_, ?_, ?_, ?_, ?_, ?_, ?_⟩
          · have h1 := h.fins
            have h2 : finCalls (call s t .warn) = finCalls s := by simp [call, Sys.to, finCalls]
            rw [h2]
            change s.out.countP isFin + ((s.pcs.set t (.pubWarn s.next)).flatMap inFin).length = _
            omega
          · simp only [call, Sys.to]
            calc warnsOf s.out ++ (s.pcs.set t (.pubWarn s.next)).flatMap inWarn
                ~ warnsOf s.out ++ ([s.next] ++ W) := (hW' (.pubWarn s.next)).append_left _
              _ ~ warnsOf s.out ++ (W ++ [s.next]) := List.perm_append_comm.append_left _
              _ = warnsOf s.out ++ W ++ [s.next] := by simp
              _ ~ s.warnEvents ++ [s.next] := ((hW.symm.append_left _).trans h.warns).append_right _
          · intro e he
            simp only [call, Sys.to, List.mem_append, List.mem_singleton] at he ⊢
            rcases he with he | he
            · exact Nat.lt_succ_of_lt (h.warnLt e he)
            · rw [he]; exact Nat.lt_succ_self _
          · simp only [call, Sys.to]
            rw [List.nodup_append]
            refine ⟨h.warnNodup, by simp, ?_⟩
            intro a ha b hb
            simp only [List.mem_singleton] at hb
            rw [hb]
            exact Nat.ne_of_lt (h.warnLt a ha)
          · have := h.warnCalls
            simp [call, Sys.to, this]
          · intro x hx
            simp only [call, Sys.to] at hx ⊢
            rcases List.mem_or_eq_of_mem_set hx with h1 | h1
            · exact h.begun x h1
            · rw [h1]; simp
          · intro hn
            obtain ⟨h1, h2⟩ := h.unbegun hn
            refine ⟨h1, ?_⟩
            have h3 : beginCalls (call s t .warn) = beginCalls s := by simp [call, Sys.to, beginCalls]
            rw [h3]
            change ((s.pcs.set t (.pubWarn s.next)).flatMap mayBegin).length = _
            omega
          · have := h.atMost
            simp only [call, Sys.to]
            omega
          · intro hn
            have := h.atLeast hn
            simp only [call, Sys.to]
            omega
      · exact h

theorem init_Inv (n : Nat) : Inv n (init n) := by
  have h : ∀ {β : Type} (f : PC → List β), f .idle = [] → (List.replicate n PC.idle).flatMap f = [] := by
    intro β f hf
    rw [List.flatMap_eq_nil_iff]
    intro p hp
    rw [List.eq_of_mem_replicate hp, hf]
  refine ⟨by simp [init], ?_, ?_, by simp [init], by simp [init], by simp [init], ?_, ?_, ?_, by simp [init]⟩
  · simp [init, finCalls, h inFin rfl]
  · simp [init, warnsOf, h inWarn rfl]
  · intro p hp
    rw [List.eq_of_mem_replicate hp]; simp
  · intro _
    simp [init, beginCalls, h mayBegin rfl]
  · simp [init, h willBegin rfl]

theorem run_Inv {n : Nat} {s : Sys} (h : Inv n s) (sched : List (Tid × Act)) : Inv n (run s sched) := by
  induction sched generalizing s with
  | nil => exact h
  | cons x sched ih => exact ih (step_Inv h x.1 x.2)

theorem returned_nil {s : Sys} (hr : allReturned s) {β : Type} (f : PC → List β) (hf : f .idle = []) :
    s.pcs.flatMap f = [] := by
  rw [List.flatMap_eq_nil_iff]
  intro p hp
  rw [hr p hp, hf]

/-! ### What holds -/

/-- **C102**, end events: when all calls have returned, as many end events have been published as status calls made. -/
theorem C102_ends_partial (n : Nat) (sched : List (Tid × Act)) (hr : allReturned (run (init n) sched)) :
    (run (init n) sched).out.countP isFin = finCalls (run (init n) sched) := by
  have h := (run_Inv (init_Inv n) sched).fins
  rw [returned_nil hr inFin rfl] at h
  simpa using h

/-- **C102**, warnings: when all calls have returned, every warning has been published exactly once, as its own event, and
is in `warn_events`; there are as many as calls of `warn`. -/
theorem C102_warnings_partial (n : Nat) (sched : List (Tid × Act)) (hr : allReturned (run (init n) sched)) :
    warnsOf (run (init n) sched).out ~ (run (init n) sched).warnEvents ∧
    (warnsOf (run (init n) sched).out).Nodup ∧
    (warnsOf (run (init n) sched).out).length = (run (init n) sched).asked.count .warn := by
  have h := run_Inv (init_Inv n) sched
  have hw := h.warns
  rw [returned_nil hr inWarn rfl, List.append_nil] at hw
  exact ⟨hw, hw.nodup_iff.mpr h.warnNodup, by rw [hw.length_eq]; exact h.warnCalls⟩

/-- **C102**, begin events: at any moment, no more begin events have been published than there are threads; when all calls
have returned and `begin` or a status method was called, there is at least one. -/
theorem C102_begins_partial (n : Nat) (sched : List (Tid × Act)) :
    (run (init n) sched).out.countP isBegin ≤ n ∧
    (allReturned (run (init n) sched) → 0 < beginCalls (run (init n) sched) →
      0 < (run (init n) sched).out.countP isBegin) := by
  have h := run_Inv (init_Inv n) sched
  refine ⟨Nat.le_trans (Nat.le_add_right _ _) h.atMost, fun hr hc => ?_⟩
  have hb : (run (init n) sched).beginEvent ≠ none := by
    intro hn
    have := (h.unbegun hn).2
    rw [returned_nil hr mayBegin rfl] at this
    simp only [List.length_nil] at this
    omega
  have := h.atLeast hb
  rw [returned_nil hr willBegin rfl] at this
  simpa using this

/-- Once begun and with nobody about to publish a begin event, none is published any more. -/
theorem begun_stays {s : Sys} (hb : s.beginEvent ≠ none) (hw : ∀ p ∈ s.pcs, willBegin p = []) (t : Tid) (a : Act) :
    (step s t a).beginEvent ≠ none ∧ (∀ p ∈ (step s t a).pcs, willBegin p = []) ∧
    (step s t a).out.countP isBegin = s.out.countP isBegin ∧ ∃ o, (step s t a).out = s.out ++ o := by
  have hset : ∀ q, willBegin q = [] → ∀ p ∈ s.pcs.set t q, willBegin p = [] := by
    intro q hq x hx
    rcases List.mem_or_eq_of_mem_set hx with h1 | h1
    · exact hw x h1
    · rw [h1]; exact hq
  unfold step
  cases hp : s.pcs[t]? with
  | none => exact ⟨hb, hw, rfl, [], by simp⟩
  | some p =>
    have h0 := hw p (List.mem_of_getElem? hp)
    dsimp only
    split
    · cases p with
      | idle => exact ⟨hb, hw, rfl, [], by simp [go]⟩
      | check st =>
        simp only [go]
        cases hbe : s.beginEvent with
        | none => exact absurd hbe hb
        | some e => exact ⟨by simp [Sys.to, hbe], hset _ rfl, rfl, [], by simp [Sys.to]⟩
      | test k =>
        simp only [go]
        cases hbe : s.beginEvent with
        | none => exact absurd hbe hb
        | some e => exact ⟨by simp [Sys.to, hbe], hset _ (by cases k <;> rfl), rfl, [], by simp [Sys.to]⟩
      | storeBegin k => simp [willBegin] at h0
      | pubBegin k => simp [willBegin] at h0
      | storeEnd st => exact ⟨hb, hset _ rfl, rfl, [], by simp [go, Sys.to]⟩
      | pubEnd =>
        simp only [go]
        cases he : s.endEvent with
        | none => exact ⟨hb, hset _ rfl, rfl, [], by simp [Sys.to]⟩
        | some x => exact ⟨hb, hset _ rfl, by simp [Sys.to, isBegin], [.fin x.1 x.2], by simp [Sys.to]⟩
      | pubWarn e => exact ⟨hb, hset _ rfl, by simp [go, Sys.to, isBegin], [.warn e], by simp [go, Sys.to]⟩
    · split
      · cases a with
        | begin => exact ⟨hb, hset _ rfl, rfl, [], by simp [call, Sys.to]⟩
        | warn => exact ⟨hb, hset _ rfl, rfl, [], by simp [call, Sys.to]⟩
        | fin st => exact ⟨hb, hset _ rfl, rfl, [], by simp [call, Sys.to]⟩
        | go => exact ⟨hb, hw, rfl, [], by simp [call]⟩
      · exact ⟨hb, hw, rfl, [], by simp⟩

theorem begun_stays_run {s : Sys} (hb : s.beginEvent ≠ none) (hw : ∀ p ∈ s.pcs, willBegin p = [])
    (sched : List (Tid × Act)) :
    (run s sched).out.countP isBegin = s.out.countP isBegin ∧ ∃ o, (run s sched).out = s.out ++ o := by
  induction sched generalizing s with
  | nil => exact ⟨rfl, [], by simp [run]⟩
  | cons x sched ih =>
    obtain ⟨h1, h2, h3, o, h4⟩ := begun_stays hb hw x.1 x.2
    obtain ⟨h5, o', h6⟩ := ih h1 h2
    exact ⟨h5.trans h3, o ++ o', by rw [← List.append_assoc, ← h4]; exact h6⟩

/-- **C102**, an action begun first: if one thread's call of `begin` has returned before any other use of the action, then
whatever threads do afterwards, that begin event is the only one and the first event published. -/
theorem C102_begun_first_partial (n : Nat) (t : Tid) (ht : t < n) (sched : List (Tid × Act)) :
    ∃ o, (run (init n) ((t, .begin) :: (t, .go) :: (t, .go) :: (t, .go) :: sched)).out = .begin 0 :: o ∧
      o.countP isBegin = 0 := by
  have hl : t < (init n).pcs.length := by simp [init, ht]
  have e0 : (init n).pcs[t]? = some .idle := by simp [init, ht]
  have hrun : run (init n) ((t, .begin) :: (t, .go) :: (t, .go) :: (t, .go) :: sched) =
      run { init n with next := 1, beginEvent := some 0, out := [.begin 0], asked := [.begin] } sched := by
    have s1 : step (init n) t .begin = { init n with asked := [.begin] }.to t (.test .ret) := by
      simp [step, e0, call]; rfl
    have s2 : step (step (init n) t .begin) t .go = { init n with asked := [.begin] }.to t (.storeBegin .ret) := by
      rw [s1]; simp [step, Sys.to, init, ht, go]
    have s3 : step (step (step (init n) t .begin) t .go) t .go =
        { init n with asked := [.begin], next := 1, beginEvent := some 0 }.to t (.pubBegin .ret) := by
      rw [s2]; simp [step, Sys.to, init, ht, go]
    have s4 : step (step (step (step (init n) t .begin) t .go) t .go) t .go =
        { init n with next := 1, beginEvent := some 0, out := [.begin 0], asked := [.begin] } := by
      rw [s3]
      simp only [step, Sys.to, init, List.length_replicate, ht, List.getElem?_set_self, go, Cont.pc, if_true,
        List.set_set, List.nil_append]
      simp
    simp only [run, List.foldl_cons]
    rw [s4]
  rw [hrun]
  have key := @begun_stays_run { init n with next := 1, beginEvent := some 0, out := [.begin 0], asked := [.begin] }
    (by simp) (by
      intro p hp
      rw [List.eq_of_mem_replicate hp]; rfl) sched
  obtain ⟨h1, o, h2⟩ := key
  refine ⟨o, h2, ?_⟩
  rw [h2, List.countP_append] at h1
  simpa [isBegin] using h1

/-! ### Statuses -/

/-- The statuses published, in order. -/
def statusesOf (o : List Out) : List Status := o.filterMap fun | .fin _ st => some st | _ => none

/-- The statuses asked for, in order. -/
def askedOf (as : List Act) : List Status := as.filterMap fun | .fin st => some st | _ => none

/-- The status a thread is about to publish. -/
def pending (s : Sys) : PC → List Status
  | .check st | .storeEnd st | .test (.fin st) | .storeBegin (.fin st) | .pubBegin (.fin st) => [st]
  | .pubEnd => (s.endEvent.map (·.2)).toList
  | _ => []

/-- The thread is not inside a status call. -/
def noFin (p : PC) : Prop := inFin p = []

theorem statusesOf_append (a b : List Out) : statusesOf (a ++ b) = statusesOf a ++ statusesOf b := by simp [statusesOf]
theorem askedOf_append (a b : List Act) : askedOf (a ++ b) = askedOf a ++ askedOf b := by simp [askedOf]

/-- One thread makes the status calls. -/
structure One (t : Tid) (s : Sys) : Prop where
  others : ∀ u p, u ≠ t → s.pcs[u]? = some p → noFin p
  mine : ∀ p, s.pcs[t]? = some p → statusesOf s.out ++ pending s p = askedOf s.asked
  fin : s.pcs[t]? = some .pubEnd → s.endEvent ≠ none

theorem one_step {t : Tid} {s : Sys} (h : One t s) (u : Tid) (a : Act) (ha : u ≠ t → ∀ st, a ≠ .fin st) :
    One t (step s u a) := by
  unfold step
  cases hp : s.pcs[u]? with
  | none => exact h
  | some p =>
    dsimp only
    have hlen := (List.getElem?_eq_some_iff.mp hp).1
    -- a step that moves the thread to `q`
    have move : ∀ (s' : Sys) (q : PC), s'.pcs = s.pcs.set u q → (u ≠ t → noFin q) →
        (u = t → statusesOf s'.out ++ pending s' q = askedOf s'.asked) →
        (u ≠ t → statusesOf s'.out = statusesOf s.out ∧ askedOf s'.asked = askedOf s.asked ∧ s'.endEvent = s.endEvent) →
        (u = t → q = .pubEnd → s'.endEvent ≠ none) → One t s' := by
      intro s' q hs h1 h2 h3 h4
      refine ⟨?_, ?_, ?_⟩
      · intro v r hv hr
        rw [hs] at hr
        by_cases hvu : v = u
        · subst hvu
          rw [List.getElem?_set_self hlen] at hr
          cases hr
          exact h1 hv
        · rw [List.getElem?_set_ne (Ne.symm hvu)] at hr
          exact h.others v r hv hr
      · intro r hr
        rw [hs] at hr
        by_cases hut : u = t
        · subst hut
          rw [List.getElem?_set_self hlen] at hr
          cases hr
          exact h2 rfl
        · rw [List.getElem?_set_ne hut] at hr
          obtain ⟨a1, a2, a3⟩ := h3 hut
          rw [a1, a2, ← h.mine r hr]
          congr 1
          unfold pending
          rw [a3]
      · intro hr
        rw [hs] at hr
        by_cases hut : u = t
        · subst hut
          rw [List.getElem?_set_self hlen] at hr
          cases hr
          exact h4 rfl rfl
        · rw [List.getElem?_set_ne hut] at hr
          rw [(h3 hut).2.2]
          exact h.fin hr
    have mine : u = t → statusesOf s.out ++ pending s p = askedOf s.asked := fun hu => h.mine p (hu ▸ hp)
    have other : u ≠ t → noFin p := fun hu => h.others u p hu hp
    split
    · cases p with
      | idle => exact h
      | check st =>
        have hut : u = t := Classical.byContradiction fun hu => by simpa [noFin, inFin] using other hu
        simp only [go]
        split
        · exact move _ _ rfl (fun hu => absurd hut hu) (fun hu => mine hu) (fun hu => absurd hut hu) (by simp)
        · exact move _ _ rfl (fun hu => absurd hut hu) (fun hu => mine hu) (fun hu => absurd hut hu) (by simp)
      | test k =>
        simp only [go]
        cases k with
        | ret =>
          split
          · exact move _ _ rfl (fun _ => rfl) (fun hu => mine hu) (fun _ => ⟨rfl, rfl, rfl⟩) (by simp)
          · exact move _ _ rfl (fun _ => rfl) (fun hu => mine hu) (fun _ => ⟨rfl, rfl, rfl⟩) (by simp [Cont.pc])
        | fin st =>
          have hut : u = t := Classical.byContradiction fun hu => by simpa [noFin, inFin] using other hu
          split
          · exact move _ _ rfl (fun hu => absurd hut hu) (fun hu => mine hu) (fun hu => absurd hut hu) (by simp)
          · exact move _ _ rfl (fun hu => absurd hut hu) (fun hu => mine hu) (fun hu => absurd hut hu) (by simp [Cont.pc])
      | storeBegin k =>
        simp only [go]
        cases k with
        | ret => exact move _ _ rfl (fun _ => rfl) (fun hu => mine hu) (fun _ => ⟨rfl, rfl, rfl⟩) (by simp)
        | fin st =>
          have hut : u = t := Classical.byContradiction fun hu => by simpa [noFin, inFin] using other hu
          exact move _ _ rfl (fun hu => absurd hut hu) (fun hu => mine hu) (fun hu => absurd hut hu) (by simp)
      | pubBegin k =>
        simp only [go]
        have e1 : ∀ e, statusesOf (s.out ++ [Out.begin e]) = statusesOf s.out := fun e => by
          rw [statusesOf_append]; simp [statusesOf]
        cases k with
        | ret =>
          split
          · exact move _ _ rfl (fun _ => rfl) (fun hu => mine hu) (fun _ => ⟨rfl, rfl, rfl⟩) (by simp [Cont.pc])
          · exact move _ _ rfl (fun _ => rfl) (fun hu => by simp only [Sys.to, e1]; exact mine hu)
              (fun _ => ⟨e1 _, rfl, rfl⟩) (by simp [Cont.pc])
        | fin st =>
          have hut : u = t := Classical.byContradiction fun hu => by simpa [noFin, inFin] using other hu
          split
          · exact move _ _ rfl (fun hu => absurd hut hu) (fun hu => mine hu) (fun hu => absurd hut hu) (by simp [Cont.pc])
          · exact move _ _ rfl (fun hu => absurd hut hu) (fun hu => by simp only [Sys.to, e1]; exact mine hu)
              (fun hu => absurd hut hu) (by simp [Cont.pc])
      | storeEnd st =>
        have hut : u = t := Classical.byContradiction fun hu => by simpa [noFin, inFin] using other hu
        exact move _ .pubEnd rfl (fun hu => absurd hut hu) (fun hu => mine hu) (fun hu => absurd hut hu) (by simp [go, Sys.to])
      | pubEnd =>
        have hut : u = t := Classical.byContradiction fun hu => by simpa [noFin, inFin] using other hu
        have hm := mine hut
        simp only [go]
        cases he : s.endEvent with
        | none => exact absurd he (h.fin (hut ▸ hp))
        | some x =>
          refine move _ .idle rfl (fun hu => absurd hut hu) (fun _ => ?_) (fun hu => absurd hut hu) (by simp)
          simp only [pending, he] at hm
          simp only [Sys.to, pending, statusesOf_append, List.append_nil]
          exact hm
      | pubWarn e =>
        have e1 : statusesOf (s.out ++ [Out.warn e]) = statusesOf s.out := by
          rw [statusesOf_append]; simp [statusesOf]
        exact move _ .idle rfl (fun _ => rfl) (fun hu => by simp only [go, Sys.to, e1]; exact mine hu)
          (fun _ => ⟨e1, rfl, rfl⟩) (by simp)
    · split
      · next hi =>
        subst hi
        cases a with
        | begin =>
          have e1 : askedOf (s.asked ++ [Act.begin]) = askedOf s.asked := by rw [askedOf_append]; simp [askedOf]
          exact move _ _ rfl (fun _ => rfl) (fun hu => by simp only [call, Sys.to, e1]; exact mine hu)
            (fun _ => ⟨rfl, e1, rfl⟩) (by simp)
        | warn =>
          have e1 : askedOf (s.asked ++ [Act.warn]) = askedOf s.asked := by rw [askedOf_append]; simp [askedOf]
          exact move _ _ rfl (fun _ => rfl) (fun hu => by simp only [call, Sys.to, e1]; exact mine hu)
            (fun _ => ⟨rfl, e1, rfl⟩) (by simp)
        | fin st =>
          have hut : u = t := Classical.byContradiction fun hu => ha hu st rfl
          refine move _ (.check st) rfl (fun hu => absurd hut hu) (fun hu => ?_) (fun hu => absurd hut hu) (by simp)
          have hm := mine hu
          simp only [pending, List.append_nil] at hm
          simp only [call, Sys.to, pending, askedOf_append, hm]
          rfl
        | go => exact h
      · exact h

/-- **C102**, statuses: if one thread makes all status calls, whatever the others do, it publishes an end event with the
status asked for by each call, in order. -/
theorem C102_statuses_partial (n : Nat) (sched : List (Tid × Act)) (t : Tid)
    (hone : ∀ x ∈ sched, x.1 ≠ t → ∀ st, x.2 ≠ .fin st) (ht : t < n) (hr : allReturned (run (init n) sched)) :
    statusesOf (run (init n) sched).out = askedOf (run (init n) sched).asked := by
  have h : ∀ s, One t s → One t (run s sched) := by
    clear hr
    induction sched with
    | nil => exact fun s h => h
    | cons x sched ih =>
      intro s h
      exact ih (fun y hy => hone y (List.mem_cons_of_mem _ hy)) _ (one_step h x.1 x.2 (hone x List.mem_cons_self))
  have hone' : One t (init n) := by
    refine ⟨fun u p _ hp => ?_, fun p hp => ?_, fun hp => ?_⟩
    · have := List.eq_of_mem_replicate (List.mem_of_getElem? hp); subst this; rfl
    · have := List.eq_of_mem_replicate (List.mem_of_getElem? hp); subst this; rfl
    · have := List.eq_of_mem_replicate (List.mem_of_getElem? hp); cases this
  have h1 := h _ hone'
  have hlen : t < (run (init n) sched).pcs.length := by
    rw [(run_Inv (init_Inv n) sched).len]; exact ht
  have h2 := h1.mine _ (List.getElem?_eq_getElem hlen)
  rw [hr _ (List.getElem_mem hlen)] at h2
  simpa [pending] using h2

/-! ### The hypotheses can be met -/

/-- Three threads, three status calls, two warnings. -/
def exSched : List (Tid × Act) :=
  [(0, .begin), (0, .go), (0, .go), (0, .go), (0, .warn), (1, .fin .success), (2, .fin .failure), (1, .go), (2, .go),
   (1, .go), (0, .go), (2, .go), (1, .go), (2, .go), (2, .warn), (0, .fin .success), (0, .go), (0, .go), (0, .go), (2, .go)]

example : allReturned (run (init 3) exSched) ∧ finCalls (run (init 3) exSched) = 3 ∧
    beginCalls (run (init 3) exSched) = 4 ∧
    (run (init 3) exSched).out =
      [.begin 0, .warn 1, .fin 3 .failure, .fin 3 .failure, .fin 5 .success, .warn 4] := by
  unfold allReturned; decide

/-- Two threads begin the action at once, a third ends it twice. -/
example :
    let sched : List (Tid × Act) := [(0, .begin), (2, .fin .failure), (1, .begin), (0, .go), (1, .go), (2, .go), (0, .go), (2, .go),
      (1, .go), (2, .go), (2, .go), (2, .fin .success), (0, .go), (1, .go), (2, .go), (2, .go), (2, .go), (2, .go)]
    (∀ x ∈ sched, x.1 ≠ 2 → ∀ st, x.2 ≠ .fin st) ∧ allReturned (run (init 3) sched) ∧
    statusesOf (run (init 3) sched).out = [.failure, .success] := by
  refine ⟨?_, by unfold allReturned; decide, by decide⟩
  intro x hx
  simp only [List.mem_cons, List.not_mem_nil, or_false] at hx
  rcases hx with rfl | rfl | rfl | rfl | rfl | rfl | rfl | rfl | rfl | rfl | rfl | rfl | rfl | rfl | rfl | rfl | rfl | rfl <;> simp

example := C102_ends_partial 3 exSched (by unfold allReturned; decide)
example := C102_warnings_partial 3 exSched (by unfold allReturned; decide)
example := C102_begun_first_partial 3 0 (by decide) (exSched.drop 4)

end Verif.Shared
