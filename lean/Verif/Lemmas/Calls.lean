import Verif.Lemmas.SyncMode
/-!
# From `expand` to `callsFor`, and to what one sink receives
-/
namespace Verif
open scoped List
attribute [local irreducible] QUEUE_LIMIT

theorem expand_callsFor {env : Env} {L : Log} (h : RegOk env L) (q : List (Kind × Event)) :
    expand L q = callsFor env L.sinks q := by
  simp only [expand, callsFor]
  congr 1; funext p
  simp [hookCalls, h.hooks]

@[simp] theorem callsFor_append (env : Env) (ss : List SinkId) (p q : List (Kind × Event)) :
    callsFor env ss (p ++ q) = callsFor env ss p ++ callsFor env ss q := by simp [callsFor]

@[simp] theorem callsFor_nil (env : Env) (ss : List SinkId) : callsFor env ss [] = [] := rfl

theorem received_callsFor {env : Env} {ss : List SinkId} (hn : ss.Nodup) {s : SinkId} (hs : s ∈ ss)
    (evs : List (Kind × Event)) :
    received s (callsFor env ss evs) = evs.filter fun p => env.hasHook s p.1 := by
  induction evs with
  | nil => rfl
  | cons p evs ih =>
    rw [show p :: evs = [p] ++ evs from rfl, callsFor_append, received_append, ih,
      List.filter_append]
    congr 1
    simp only [callsFor, List.flatMap_cons, List.flatMap_nil, List.append_nil]
    rw [received_hookCalls_nodup (hn.filter _)]
    by_cases h : env.hasHook s p.1 = true <;> simp [h, hs]

theorem ofLogger_received (l : LogId) (s : SinkId) (tr : List Obs) :
    ofLogger l (received s tr) = received s (deliveries l tr) := by
  induction tr with
  | nil => rfl
  | cons o tr ih =>
    rw [show o :: tr = [o] ++ tr from rfl, received_append, ofLogger_append, deliveries_append,
      received_append, ih]
    congr 1
    cases o with
    | hook s' k e =>
      by_cases hs : s' = s
      · by_cases hc : k ≠ .exception ∧ e.logger = l
        · simp [received, ofLogger, deliveries, hs, hc]
        · have hb : (decide (k ≠ Kind.exception) && decide (e.logger = l)) = false := by
            rw [← Bool.decide_and, decide_eq_false hc]
          have h1 : ofLogger l [(k, e)] = [] := by
            simp only [ofLogger, List.filter_cons, hb]; rfl
          have h2 : deliveries l [Obs.hook s' k e] = [] := by
            simp only [deliveries, List.filter_cons, hb]; rfl
          rw [h2]
          simpa [received, hs] using h1
      · have h1 : ∀ t : List Obs, t <+ [Obs.hook s' k e] → received s t = [] := by
          intro t ht
          have : received s t <+ received s [Obs.hook s' k e] := ht.filterMap _
          simpa [received, hs] using this
        rw [h1 _ (List.Sublist.refl _), h1 (deliveries l _) List.filter_sublist]; rfl
    | _ => rfl

/-- The flow equation of a quiet history in terms of sinks and of what each received. -/
structure Flow (env : Env) (l : LogId) (sinks : List SinkId) (w w' : World) : Prop where
  flow : ∃ T N, deliveries l w'.trace = deliveries l w.trace ++ T ∧
    published w' l = published w l ++ N ∧
    T ++ callsFor env sinks (queued w' l) = callsFor env sinks (queued w l) ++ callsFor env sinks N

theorem queued_eq (w : World) (l : LogId) : queued w l = w.del.queue l := rfl

theorem FullStep.toFlow {env : Env} {l : LogId} {L : Log} {w w' : World} (hr : RegOk env L)
    (h : FullStep l L.hooks w.del w'.del) : Flow env l L.sinks w w' := by
  obtain ⟨T, N, h1, h2, h3⟩ := h.flow L rfl
  refine ⟨T, N, h1, h2, ?_⟩
  simp only [expand_callsFor hr] at h3; exact h3

theorem Flow.received {env : Env} {l : LogId} {ss : List SinkId} {w w' : World}
    (h : Flow env l ss w w') (hn : ss.Nodup) {s : SinkId} (hs : s ∈ ss) :
    ∃ N, published w' l = published w l ++ N ∧
      ofLogger l (received s w'.trace) ++ (queued w' l).filter (fun p => env.hasHook s p.1) =
      ofLogger l (received s w.trace) ++
        (queued w l).filter (fun p => env.hasHook s p.1) ++ N.filter fun p => env.hasHook s p.1 := by
  obtain ⟨T, N, h1, h2, h3⟩ := h.flow
  refine ⟨N, h2, ?_⟩
  have h4 := congrArg (Verif.received s) h3
  simp only [received_append, received_callsFor hn hs] at h4
  rw [ofLogger_received, h1, received_append, List.append_assoc, h4, ofLogger_received]
  simp

/-- Nothing published on `l`: nothing delivered for `l`, nothing queued. -/
theorem Reachable.fresh_log {env : Env} {w : World} (h : Reachable env w) {l : LogId}
    (hp : published w l = []) (s : SinkId) :
    ofLogger l (received s w.trace) = [] ∧ queued w l = [] := by
  have hc := h.countInv s l
  have : ofLogger l (received s w.trace) ++ queued w l = [] := by
    refine List.eq_nil_iff_forall_not_mem.2 fun p hm => ?_
    have h1 : 0 < (ofLogger l (received s w.trace) ++ queued w l).count p := List.count_pos_iff.2 hm
    have h2 := hc p
    rw [show ofLogger l w.del.pub = [] from hp] at h2
    exact absurd (Nat.lt_of_lt_of_le h1 h2) (by simp)
  exact List.append_eq_nil_iff.1 this

/-- Flushing one logger leaves the others alone. -/
theorem drain_other {env : Env} {l m : LogId} (h : l ≠ m) {L : Log} (q : List (Kind × Event))
    (w : World) : (drain env m L q w).1.logs l = w.logs l := by
  induction q generalizing w with
  | nil => simp [drain, updLog_ne _ _ h]
  | cons p q ih =>
    obtain ⟨k, e⟩ := p
    simp only [drain]
    have h1 := deliver_logs env L k e (w.setLog m { L with queue := q })
    cases hr : deliver env L k e (w.setLog m { L with queue := q }) with
    | mk w1 x =>
      rw [hr] at h1
      cases x with
      | none => simp only [ih]; rw [show w1.logs = _ from h1]; simp [updLog_ne _ _ h]
      | some x => show w1.logs l = _; rw [show w1.logs = _ from h1]; simp [updLog_ne _ _ h]

theorem flush_other {env : Env} {w : World} {l m : LogId} (h : l ≠ m) :
    (flush env w m).1.logs l = w.logs l := by
  simp only [flush]
  split
  · rfl
  · rename_i L hL
    have h1 := (fl_runPreflush (env := env) m L.preflush w).2
    cases hr : runPreflush env m L.preflush w with
    | mk w1 x =>
      rw [hr] at h1
      cases x with
      | some x => exact congrFun h1 l
      | none =>
        dsimp only
        have h2 := drain_other (env := env) h (L := L) L.queue w1
        cases hd : drain env m L L.queue w1 with
        | mk w2 y =>
          rw [hd] at h2
          cases y with
          | some y => exact h2.trans (congrFun h1 l)
          | none =>
            simp only [setLog_logs, updLog_ne _ _ h]
            exact h2.trans (congrFun h1 l)

end Verif
