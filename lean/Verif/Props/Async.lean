import Verif.Lemmas.Parts
import Verif.Spec.Samples
/-!
# C16, C17, C18, C19: queued delivery
-/
namespace Verif
open scoped List

/-- **C16.**  Over any history that neither changes the sinks of `l`, nor switches it to synchronous mode,
nor overfills its queue, and in which no sink raises: the sink calls made for events of `l`, followed by
the calls the queue still promises, are exactly the calls for what was queued at the start and what
was published since, in that order — each event once per sink with a hook for it. -/
theorem async_delivery {env : Env} (hquiet : env.Quiet) {w : World} (hr : Reachable env w) {l : LogId}
    {L : Log} (hL : w.logs l = some L) (he : SyncEmpty l w) (its : List Item)
    (hs : ∀ it ∈ its, it.keepsSinks l) (hm : ∀ it ∈ its, it.keepsMode l)
    (hroom : AlongStep env (HasRoom env l) w its) :
    ∃ new made, published (run env w its) l = published w l ++ new ∧
      deliveries l (run env w its).trace = deliveries l w.trace ++ made ∧
      made ++ callsFor env L.sinks (queued (run env w its) l) =
        callsFor env L.sinks (queued w l ++ new) := by
  have hf := full_run hquiet hr.good hL its (syncEmpty_along hr.good he its hm) hs hroom
  obtain ⟨T, N, h1, h2, h3⟩ := (hf.toFlow (hr.qInv.reg l L hL)).flow
  exact ⟨N, T, h2, h1, by rw [h3]; simp⟩

/-- **C16, per sink.**  From the creation of the logger on, what a sink has received from `l` followed by
what is queued for it is what was published on `l` and it has a hook for: nothing lost, nothing
duplicated, nothing reordered. -/
theorem async_sink_fifo {env : Env} (hquiet : env.Quiet) {w : World} (hr : Reachable env w) {l : LogId}
    {L : Log} (hL : w.logs l = some L) (hnew : published w l = []) (its : List Item)
    (hs : ∀ it ∈ its, it.keepsSinks l) (hm : ∀ it ∈ its, it.keepsMode l)
    (hroom : AlongStep env (HasRoom env l) w its) {s : SinkId} (hmem : s ∈ L.sinks) :
    ofLogger l (received s (run env w its).trace) ++
        (queued (run env w its) l).filter (fun p => env.hasHook s p.1) =
      (published (run env w its) l).filter fun p => env.hasHook s p.1 := by
  have hreg := hr.qInv.reg l L hL
  obtain ⟨h0, hq0⟩ := hr.fresh_log hnew s
  have he : SyncEmpty l w := by
    intro M hM _; simpa [queued, hM] using hq0
  have hf := full_run hquiet hr.good hL its (syncEmpty_along hr.good he its hm) hs hroom
  obtain ⟨N, h2, h3⟩ := (hf.toFlow hreg).received hreg.nodup hmem
  rw [h3, h0, hq0, h2, hnew]; simp

/-- **C16, the flush.**  `flush()` returns normally, hands every queued event to its sinks in queue order and
leaves the queue empty. -/
theorem flush_delivers {env : Env} (hquiet : env.Quiet) {w : World} (hr : Reachable env w) {l : LogId}
    {L : Log} (hL : w.logs l = some L) :
    (step env w (.flush l)).2 = .ok ∧
      deliveries l (step env w (.flush l)).1.trace =
        deliveries l w.trace ++ callsFor env L.sinks L.queue ∧
      queued (step env w (.flush l)).1 l = [] := by
  have hreg := hr.qInv.reg l L hL
  have hx : (flush env w l).2 = none := by rw [flush_quiet hquiet hL (hr.qInv.kinds hL)]
  rcases flush_spec hL hr.qInv with ⟨h1, h2, h3⟩ | ⟨x, h1, _⟩ | ⟨x, _, _, _, _, h1, _⟩
  · rw [expand_callsFor hreg] at h2
    refine ⟨by simp [step, ret, h1, Res.ofExc], h2, h3⟩
  · rw [hx] at h1; cases h1
  · rw [hx] at h1; cases h1

/-- **C17.**  The queue of a logger never holds more than 10000 events. -/
theorem queue_bounded {env : Env} {w : World} (hr : Reachable env w) (l : LogId) :
    (queued w l).length ≤ 10000 := by
  have h := hr.queue_le' l
  have hq : QUEUE_LIMIT = 10000 := by unfold QUEUE_LIMIT; rfl
  rw [hq] at h; exact h

/-- **C17.**  On an asynchronous logger, between flushes, the queue is at every moment the newest 10000 of
what it held and what has been published since: it is the oldest events that are given up. -/
theorem queue_keeps_newest {env : Env} {w : World} (hr : Reachable env w) {l : LogId} {L : Log}
    (hL : w.logs l = some L) (ha : L.async = true) (its : List Item)
    (hf : ∀ it ∈ its, it.leavesQueue l) (hm : ∀ it ∈ its, it.keepsMode l) :
    ∃ new, published (run env w its) l = published w l ++ new ∧
      queued (run env w its) l = lastN 10000 (queued w l ++ new) := by
  have hq : QUEUE_LIMIT = 10000 := by unfold QUEUE_LIMIT; rfl
  have h0 : Backlog 10000 l w.del w.del := by
    refine ⟨⟨L, hL, ha⟩, [], by simp, ?_⟩
    rw [List.append_nil, lastN_of_le]
    exact queue_bounded hr l
  obtain ⟨_, N, h1, h2⟩ := backlog_run hq hr.good h0 its hf hm
  exact ⟨N, h1, h2⟩

/-- **C18 is false of the code.**  Switching a logger with queued events to synchronous mode lets a later
event overtake them. -/
theorem mode_switch_reorders_violated :
    ¬ ∀ (env : Env) (w : World), Reachable env w → env.Quiet → ∀ (l : LogId) (s : SinkId),
      ofLogger l (received s w.trace) <+ published w l := by
  intro h
  have := h Sample.quiet (run Sample.quiet World.init
    (Sample.setupAsync ++ [Sample.mk "a", Sample.mk "b", .op (.begin 0 none [] []), .op (.setAsync 0 false),
      .op (.begin 1 none [] []), .op (.flush 0)])) ⟨_, rfl⟩ (fun _ _ => rfl) 0 0
  revert this; decide

/-- **C18, what does hold.**  If the logger was never made synchronous while events were queued, then
whatever the sinks do, every sink receives the events of `l` in the order of publication, and what is queued
is later than what it has received.  Missing: histories that switch to synchronous mode before flushing. -/
theorem delivery_order_partial {env : Env} (l : LogId) (its : List Item)
    (he : Along env (SyncEmpty l) World.init its) (s : SinkId) :
    ofLogger l (received s (run env World.init its).trace) ++ queued (run env World.init its) l <+
      published (run env World.init its) l :=
  ordInv_run (w := World.init) (Reachable.good ⟨[], rfl⟩) (ordInv_init l) its he s

/-- **C19.**  A flush hands over a queue prefix.  Either everything was handed over and the call
returned; or it raised before handing over anything and the queue is intact; or it raised while handing over
one event: the events before it have reached all their sinks, that event has reached some
of its sinks in order and will not be offered again, and the events after it are still queued in order. -/
theorem flush_outcome {env : Env} {w : World} (hr : Reachable env w) {l : LogId} {L : Log}
    (hL : w.logs l = some L) :
    ((step env w (.flush l)).2 = .ok ∧
      deliveries l (step env w (.flush l)).1.trace =
        deliveries l w.trace ++ callsFor env L.sinks L.queue ∧
      queued (step env w (.flush l)).1 l = []) ∨
    (∃ x, (step env w (.flush l)).2 = .exc x ∧
      deliveries l (step env w (.flush l)).1.trace = deliveries l w.trace ∧
      queued (step env w (.flush l)).1 l = L.queue) ∨
    ∃ x done p rest some_, (step env w (.flush l)).2 = .exc x ∧ L.queue = done ++ p :: rest ∧
      deliveries l (step env w (.flush l)).1.trace =
        deliveries l w.trace ++ callsFor env L.sinks done ++ some_ ∧
      some_ <+: callsFor env L.sinks [p] ∧ some_ ≠ [] ∧
      queued (step env w (.flush l)).1 l = rest := by
  have hreg := hr.qInv.reg l L hL
  have h := flush_spec (env := env) hL hr.qInv
  simp only [expand_callsFor hreg] at h
  rcases h with ⟨h1, h2, h3⟩ | ⟨x, h1, h2, h3⟩ | ⟨x, dn, p, rest, t, h1, h2, h3, h4, h5, h6⟩
  · exact .inl ⟨by simp [step, ret, h1, Res.ofExc], h2, h3⟩
  · exact .inr (.inl ⟨x, by simp [step, ret, h1, Res.ofExc], h2, h3⟩)
  · exact .inr (.inr ⟨x, dn, p, rest, t, by simp [step, ret, h1, Res.ofExc], h2, h3, h4, h5, h6⟩)

/-- **C19, over histories.**  Whatever sinks raise and however often flushes fail: what has been handed
over since `w` is a prefix of what was queued and published, in order; each event handed over reached a
prefix of its sinks, once; and the rest is queued. -/
theorem failing_delivery {env : Env} {w : World} (hr : Reachable env w) {l : LogId}
    {L : Log} (hL : w.logs l = some L) (he : SyncEmpty l w) (its : List Item)
    (hs : ∀ it ∈ its, it.keepsSinks l) (hm : ∀ it ∈ its, it.keepsMode l)
    (hroom : AlongStep env (HasRoom env l) w its) :
    ∃ new handled made, published (run env w its) l = published w l ++ new ∧
      handled ++ queued (run env w its) l = queued w l ++ new ∧
      deliveries l (run env w its).trace = deliveries l w.trace ++ made.flatten ∧
      List.Forall₂ (fun p calls => calls <+: callsFor env L.sinks [p]) handled made := by
  have hreg := hr.qInv.reg l L hL
  have hf := part_run hr.good hL its (syncEmpty_along hr.good he its hm) hs hroom
  obtain ⟨H, T, N, h1, h2, h3, h4⟩ := hf.flow L rfl
  refine ⟨N, H, T, h2, h3, h1, ?_⟩
  refine h4.imp fun p t h => ?_
  have := expand_callsFor hreg [p]
  rw [← this]; simpa [expand] using h

/-- **C19.**  No sink ever receives an event more often than it was published. -/
theorem never_more_often {env : Env} {w : World} (hr : Reachable env w) (l : LogId) (s : SinkId)
    (p : Kind × Event) :
    (ofLogger l (received s w.trace)).count p + (queued w l).count p ≤ (published w l).count p := by
  have := hr.countInv s l p
  rwa [List.count_append] at this

section
open Sample
/-- A queue of two events, then a flush that delivers both: the hypotheses of `async_delivery`. -/
example :
    let w := run quiet World.init setupAsync
    let its := [mk "a", .op (.begin 0 none [] []), .op (.success 0 none [] []), .op (.flush 0)]
    quiet.Quiet ∧ (∃ L, w.logs 0 = some L ∧ L.sinks = [0, 1]) ∧ published w 0 = [] ∧
    (∀ it ∈ its, it.keepsSinks 0 ∧ it.keepsMode 0) ∧ AlongStep quiet (HasRoom quiet 0) w its ∧
    (run quiet w its).trace.length = 4 := by
  refine ⟨fun _ _ => rfl, ⟨_, rfl, rfl⟩, rfl, ?_, ?_, by decide⟩
  · simp [Item.keepsSinks, Item.keepsMode, mk]
  · refine ⟨?_, ?_, ?_, ?_, trivial⟩ <;> (unfold HasRoom QUEUE_LIMIT; decide)

/-- A flush that fails at the second event: the third is still queued. -/
example :
    let env := badSink 0 .end_
    let w := run env World.init (setupAsync ++ [mk "a", .op (.begin 0 none [] []),
      .op (.success 0 none [] []), .op (.warn 0 "x" [] [])])
    (queued w 0).length = 3 ∧ (step env w (.flush 0)).2 = .exc sinkErr ∧
    (queued (step env w (.flush 0)).1 0).map Prod.fst = [.warn] ∧
    (received 0 (step env w (.flush 0)).1.trace).map Prod.fst = [.begin, .end_] ∧
    (received 1 (step env w (.flush 0)).1.trace).map Prod.fst = [.begin] := by decide

/-- the hypotheses of `queue_keeps_newest` -/
example :
    let its := [mk "a", .op (.begin 0 none [] []), .op (.success 0 none [] [])]
    (∀ it ∈ its, it.leavesQueue 0 ∧ it.keepsMode 0) ∧
    ∃ L, (run quiet World.init setupAsync).logs 0 = some L ∧ L.async = true :=
  ⟨by simp [Item.leavesQueue, Item.keepsMode, mk], _, rfl, rfl⟩

/-- the hypothesis of `delivery_order_partial`: a history that does flush before switching -/
example : Along quiet (SyncEmpty 0) World.init (setupAsync ++ [mk "a", .op (.begin 0 none [] []),
    .op (.flush 0)]) := by
  refine syncEmpty_along (Reachable.good ⟨[], rfl⟩) (syncEmpty_init 0) _ ?_
  simp [setupAsync, mk, Item.keepsMode]
end

end Verif
