import Verif.Lemmas.Outbox
import Verif.Props.Async
/-!
# Exactly what a logger hands to its sinks, and in which order (C18)

No mode switch, flush or change of sinks is excluded here: the sink calls of *every* history are those of
the outbox of `Spec/Outbox.lean`.
-/
namespace Verif
open scoped List

theorem publishes_eq {env : Env} {l : LogId} {w : World} {it : Item} {new : List (Kind × Event)}
    (h : published (stepItem env w it) l = published w l ++ new) : publishes env l w it = new := by
  simp [publishes, h]

/-- C18: one call does to the logger what it does to its outbox, and makes the sink calls the outbox makes. -/
theorem C18_call {env : Env} (hquiet : env.Quiet) {w : World} (hr : Reachable env w) {l : LogId}
    (hl : (w.logs l).isSome) (it : Item) :
    published (stepItem env w it) l = published w l ++ publishes env l w it ∧
    outbox (stepItem env w it) l = ((outbox w l).item env l (publishes env l w it) it).1 ∧
    deliveries l (stepItem env w it).trace =
      deliveries l w.trace ++ ((outbox w l).item env l (publishes env l w it) it).2 := by
  obtain ⟨new, h1, _, h2, h3⟩ := boxStep_item hquiet hr hl it
  rw [publishes_eq h1]
  exact ⟨h1, h2, h3⟩

theorem exists_item {env : Env} {w : World} (hquiet : env.Quiet) (hr : Reachable env w) {l : LogId}
    (hl : (w.logs l).isSome) (it : Item) : ((stepItem env w it).logs l).isSome := by
  obtain ⟨new, _, h, _⟩ := boxStep_item hquiet hr hl it; exact h

/-- C18: the sink calls of a whole history, whatever it contains, are those of the outbox, in that order. -/
theorem C18_exact {env : Env} (hquiet : env.Quiet) {w : World} (hr : Reachable env w) {l : LogId}
    (hl : (w.logs l).isSome) (its : List Item) :
    outbox (run env w its) l = (outboxRun env l (outbox w l) w its).1 ∧
    deliveries l (run env w its).trace =
      deliveries l w.trace ++ (outboxRun env l (outbox w l) w its).2 := by
  induction its generalizing w with
  | nil => exact ⟨rfl, by simp [run, outboxRun]⟩
  | cons it its ih =>
    obtain ⟨_, h2, h3⟩ := C18_call hquiet hr hl it
    obtain ⟨g1, g2⟩ := ih (hr.item it) (exists_item hquiet hr hl it)
    rw [run_cons, g1, g2, h2, h3]
    simp only [outboxRun, List.append_assoc]
    exact ⟨trivial, trivial⟩

/-- C18: whenever a logger is synchronous and holds back a backlog, what a call publishes on it is handed
to the sinks before the whole backlog: the flush that empties the backlog hands it out afterwards. -/
theorem C18_overtakes {env : Env} (hquiet : env.Quiet) {w : World} (hr : Reachable env w) {l : LogId} {L : Log}
    (hL : w.logs l = some L) (hs : L.async = false) (it : Item) (hnew : publishes env l w it ≠ []) :
    deliveries l (run env w [it, .op (.flush l)]).trace = deliveries l w.trace ++
      callsFor env L.sinks (publishes env l w it) ++ callsFor env L.sinks L.queue := by
  have hl : (w.logs l).isSome := by rw [hL]; rfl
  rw [(C18_exact hquiet hr hl _).2]
  have hout : outbox w l = ⟨L.sinks, false, decide (l ∈ w.ctxLoggers), L.queue⟩ := by rw [outbox_some hL, hs]
  have hit : (outbox w l).item env l (publishes env l w it) it =
      (outbox w l, callsFor env L.sinks (publishes env l w it)) := by
    have hp : (outbox w l).publish env (publishes env l w it) =
        (outbox w l, callsFor env L.sinks (publishes env l w it)) := by simp [hout, Outbox.publish]
    rw [← hp]
    have hk : it.kind = .pub := by
      by_contra hk
      refine hnew (publishes_eq (new := []) ?_)
      rw [List.append_nil]
      simp only [published]
      congr 1
      cases hk2 : it.kind with
      | pub => exact absurd hk2 hk
      | cfg => exact (cfg_still (cfg_item (env := env) (w := w) it hk2)).2.1
      | flush => exact flush_pub (flush_item it hk2)
      | disable =>
        obtain ⟨u, rfl⟩ := item_disable hk2
        obtain ⟨w1, a, b⟩ := disable_item (env := env) w u
        exact (flush_pub b).trans (cfg_still a).2.1
    cases it with
    | enter a => rfl
    | exit a x => rfl
    | op o => cases o <;> simp only [Item.kind, reduceCtorEq] at hk <;> rfl
  simp only [outboxRun, hit]
  simp [Outbox.item, Outbox.flush, hout]

/-! Non-vacuity: a history that switches the mode with a backlog, changes the sinks and flushes. -/
section
open Sample

/-- a synchronous logger with a backlog, and a call that publishes on it: the hypotheses of `C18_overtakes` -/
example :
    let w := run quiet World.init (setupAsync ++ [mk "a", mk "b", .op (.begin 0 none [] []), .op (.setAsync 0 false)])
    (∃ L, w.logs 0 = some L ∧ L.async = false ∧ L.queue.length = 1) ∧
    (publishes quiet 0 w (.op (.begin 1 none [] []))).length = 1 :=
  ⟨⟨_, rfl, rfl, by decide⟩, by decide⟩

/-- the outbox of the same logger, with a sink added while the backlog waits -/
example :
    let w := run quiet World.init (setupAsync ++ [mk "a", mk "b"])
    let its := [.op (.begin 0 none [] []), .op (.addSink 0 7), .op (.setAsync 0 false), .op (.begin 1 none [] []),
      .op .ctxFlush]
    (outboxRun quiet 0 (outbox w 0) w its).1.held = [] ∧
    (outboxRun quiet 0 (outbox w 0) w its).2.length = 6 ∧
    (outbox w 0).sinks.length = 2 := by decide
end

end Verif
