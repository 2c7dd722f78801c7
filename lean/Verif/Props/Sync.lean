import Verif.Lemmas.AsyncPub
import Verif.Spec.Samples
/-!
# C14, C15: synchronous publication, failing sinks
-/
namespace Verif
open scoped List
attribute [local irreducible] QUEUE_LIMIT

/-- **C14.**  Publishing one event on a synchronous logger calls the hook of every registered sink that
has one, once each, in registration order, before returning, and calls nothing else; nothing else in
the state changes. -/
theorem sync_publish {env : Env} (hquiet : env.Quiet) {w : World} (hr : Reachable env w) {l : LogId}
    {L : Log} (hL : w.logs l = some L) (hsync : L.async = false) (k : Kind) (e : Event) :
    publish env w l k e =
      ({ w with pub := w.pub ++ [(k, e)]
                trace := w.trace ++ callsFor env L.sinks [(k, e)] }, none) := by
  have hreg := hr.qInv.reg l L hL
  simp only [publish, hL, hsync]
  rw [← expand_callsFor hreg]
  simp [callAll_quiet hquiet, World.logged, expand]

/-- **C14.**  The same at the level of API calls: whatever call the application makes, what it published
on a synchronous logger `l` has reached the sinks of `l` when the call returns — each event, each sink
with a hook for it, once, in order — and nothing else from `l` has. -/
theorem sync_call {env : Env} (hquiet : env.Quiet) {w : World} (hr : Reachable env w) {l : LogId}
    {L : Log} (hL : w.logs l = some L) (hsync : L.async = false) (hq : L.queue = []) (it : Item)
    (hm : it.staysSync l) (hk : it.keepsSinks l) :
    ∃ new, published (stepItem env w it) l = published w l ++ new ∧
      deliveries l (stepItem env w it).trace =
        deliveries l w.trace ++ callsFor env L.sinks new ∧
      queued (stepItem env w it) l = [] := by
  have hreg := hr.qInv.reg l L hL
  obtain ⟨hf, hs⟩ := syncAt_item hquiet hr.good ⟨L, hL, hsync, hq, rfl⟩ it hm hk
  obtain ⟨T, N, h1, h2, h3⟩ := (hf.toFlow hreg).flow
  obtain ⟨L', hL', -, hq', -⟩ := hs
  have hq1 : queued (stepItem env w it) l = [] := by
    simp only [queued]; rw [show (stepItem env w it).logs l = some L' from hL']; exact hq'
  refine ⟨N, h2, ?_, hq1⟩
  rw [h1]; congr 1
  have hq0 : queued w l = [] := by simp [queued, hL, hq]
  simpa [hq1, hq0] using h3

/-- **C15 is false of the code.**  In synchronous mode a raising sink keeps the event from the sinks
after it. -/
theorem sink_isolation_violated :
    ¬ ∀ (env : Env) (w : World), Reachable env w → ∀ (l : LogId) (L : Log), w.logs l = some L →
      L.async = false → ∀ (k : Kind) (e : Event) (s : SinkId), s ∈ L.sinks →
      env.hasHook s k = true → (k, e) ∈ received s (publish env w l k e).1.trace := by
  intro h
  have := h (Sample.badSink 0 .begin) (run (Sample.badSink 0 .begin) World.init Sample.setup)
    ⟨_, rfl⟩ 0 _ rfl rfl .begin ⟨0, 0, 0, .begin, .begin, 0, "", [], none⟩ 1 (by decide) rfl
  revert this; decide

/-- **C15 is false of the code**, second half: the sink's exception comes out of the application's own
call. -/
theorem sink_error_reaches_application :
    ∃ (env : Env) (w : World), Reachable env w ∧
      (step env w (.begin 0 none [] [])).2 = .exc Sample.sinkErr :=
  ⟨Sample.badSink 0 .begin,
    run (Sample.badSink 0 .begin) World.init (Sample.setup ++ [Sample.mk "a"]), ⟨_, rfl⟩, by decide⟩

/-- **C15, what does hold (1).**  When synchronous publication fails with `x`, then `x` was raised by one
of the sinks; it and all sinks registered before it have been called once each in order; the sinks after it
have not been called.  Missing: the sinks after the failing one, and the application is disturbed. -/
theorem sync_publish_fail_partial {env : Env} {w : World} (hr : Reachable env w) {l : LogId}
    {L : Log} (hL : w.logs l = some L) (hsync : L.async = false) (k : Kind) (e : Event) {x : Exc}
    (hx : (publish env w l k e).2 = some x) :
    ∃ pre s post, L.sinks.filter (fun s => env.hasHook s k) = pre ++ s :: post ∧
      (publish env w l k e).1.trace = w.trace ++ (pre ++ [s]).map (fun s => Obs.hook s k e) ∧
      env.raises (w.trace ++ pre.map (fun s => Obs.hook s k e)) (.hook s k e) = some x := by
  have hreg := hr.qInv.reg l L hL
  simp only [publish, hL, hsync, callAll_eq] at hx ⊢
  obtain ⟨pre, o, post, h1, h2, h3⟩ := ran_split hx
  simp only [hookCalls, hreg.hooks] at h1
  obtain ⟨a, b, hab, h4, h5⟩ := List.map_eq_append_iff.1 h1
  obtain ⟨s, c, rfl, h6, h7⟩ := List.map_eq_cons_iff.1 h5
  subst h4 h6
  refine ⟨a, s, c, hab, ?_, h3⟩
  simp only [World.logged, Bool.false_eq_true, if_false]
  rw [h2]; simp

/-- **C15, what does hold (2).**  On an asynchronous logger the application is never disturbed: begin,
warn, success, failure, entering a block and comments neither raise nor call any sink, whatever the
sinks would do. -/
theorem async_calls_silent_partial {env : Env} {w : World} {a : ActId} {x : Act}
    (hx : w.acts a = some x) {L : Log} (hL : w.logs x.logger = some L) (ha : L.async = true)
    (m : Option String) (f : List Val) (kw : Dict) (o : Op)
    (ho : o = .begin a m f kw ∨ o = .warn a (m.getD "") f kw ∨ o = .success a m f kw ∨
      o = .failure a m f kw ∨ o = .comment x.logger (m.getD "") f kw) :
    (step env w o).2 = .ok ∧ (step env w o).1.trace = w.trace := by
  have hA : w.IsAsync x.logger := ⟨L, hL, ha⟩
  have hg : ∀ r : World × Option Exc, Silent x.logger w r →
      (guard w a r).2 = .ok ∧ (guard w a r).1.trace = w.trace := by
    intro r hr
    simp only [guard]; split
    · simp [ret, hr.noExc, hr.trace, Res.ofExc]
    · exact ⟨rfl, rfl⟩
  rcases ho with rfl | rfl | rfl | rfl | rfl
  · exact hg _ (silent_begin hx hA ..)
  · exact hg _ (silent_warn hx hA ..)
  · refine hg _ ?_
    simp only [success, hx]
    exact silent_end hx hA ..
  · refine hg _ ?_
    simp only [failure, hx]
    exact silent_end hx hA ..
  · have := silent_comment (env := env) hA (m.getD "") f kw
    simp [step, ret, this.noExc, this.trace, Res.ofExc]

section
open Sample
/-- Three sinks of which the middle one fails: the first two are called. -/
example :
    let env := badSink 1 .warn
    let w := run env World.init [.op (.newLogger 0 [0, 1, 2] (some false)), mk "a"]
    (step env w (.warn 0 "w" [] [])).2 = .exc sinkErr ∧
    ((step env w (.warn 0 "w" [] [])).1.trace.map fun
      | .hook s _ _ => s
      | _ => 99) = [0, 1] := by decide

/-- the hypotheses of `sync_call` and `sync_publish` -/
example : quiet.Quiet ∧ ∃ L, (run quiet World.init setup).logs 0 = some L ∧ L.async = false ∧
    L.queue = [] ∧ L.sinks = [0, 1] := ⟨fun _ _ => rfl, _, rfl, rfl, rfl, rfl⟩

/-- On a synchronous logger a non-trivial call delivers to both sinks. -/
example : (run quiet World.init (setup ++ [mk "a", .op (.success 0 none [] [])])).trace.length = 4 := by
  decide

/-- the hypotheses of `async_calls_silent_partial`, with a sink that would raise -/
example : ∃ x L, (run (badSink 0 .begin) World.init (setupAsync ++ [mk "a"])).acts 0 = some x ∧
    (run (badSink 0 .begin) World.init (setupAsync ++ [mk "a"])).logs x.logger = some L ∧
    L.async = true := ⟨_, _, rfl, rfl, rfl⟩
end

end Verif
