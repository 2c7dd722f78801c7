import Verif.Lemmas.CtxFlush
import Verif.Lemmas.Config
import Verif.Lemmas.SyncMode
import Verif.Spec.Samples
/-!
# C20, C21, C22, C25: the context's flush, enable_async, disable_async; preflush hooks
-/
namespace Verif
open scoped List

/-- **C20.**  `context.flush()` never raises, and its calls into foreign code fall into one segment per
registered logger, in the order of registration: each segment contains only calls for that logger, and
notes.  Sinks and preflush hooks may fail with any `Exception`. -/
theorem ctx_flush_order {env : Env} (hn : env.NotesQuiet) (ho : env.Ordinary) {w : World}
    (hr : Reachable env w) :
    (step env w .ctxFlush).2 = .ok ∧
    ∃ segs, (step env w .ctxFlush).1.trace = w.trace ++ segs.flatten ∧
      List.Forall₂ (fun l seg => ∀ o ∈ seg, o.log? = some l ∨ o.isNote = true) w.ctxLoggers segs := by
  have he := ctxFlush_eq hn ho w.ctxLoggers w hr.qInv
  simp only [step, ret, he]
  exact ⟨rfl, ctxRounds_segs hn ho _ hr.qInv⟩

/-- **C20.**  Each registered logger is flushed once: all it had queued is handed over and its queue is
empty, or one of its own sinks failed and the flush of this logger stopped there. -/
theorem ctx_flush_reaches_all {env : Env} (hn : env.NotesQuiet) (ho : env.Ordinary) {w : World}
    (hr : Reachable env w) {l : LogId} (hl : l ∈ w.ctxLoggers) {L : Log} (hL : w.logs l = some L) :
    FlushOutcome env l L.sinks L.queue w.trace (step env w .ctxFlush).1.trace
      (queued (step env w .ctxFlush).1 l) := by
  have he := ctxFlush_eq hn ho w.ctxLoggers w hr.qInv
  simp only [step, ret, he]
  exact (ctxRounds_self hn ho hr.ctxNodup hr.qInv hl hL).1

/-- **C20, isolation.**  A logger whose own sinks do not fail gets everything delivered, whatever the
other loggers' sinks do. -/
theorem ctx_flush_isolates {env : Env} (hn : env.NotesQuiet) (ho : env.Ordinary) {w : World}
    (hr : Reachable env w) {l : LogId} (hl : l ∈ w.ctxLoggers) {L : Log} (hL : w.logs l = some L)
    (hq : env.QuietFor l) :
    deliveries l (step env w .ctxFlush).1.trace =
      deliveries l w.trace ++ callsFor env L.sinks L.queue ∧
    queued (step env w .ctxFlush).1 l = [] := by
  have he := ctxFlush_eq hn ho w.ctxLoggers w hr.qInv
  simp only [step, ret, he]
  exact (ctxRounds_self hn ho hr.ctxNodup hr.qInv hl hL).2 hq

/-- **C20.**  A logger that is not registered is not touched. -/
theorem ctx_flush_others {env : Env} (hn : env.NotesQuiet) (ho : env.Ordinary) {w : World}
    (hr : Reachable env w) {l : LogId} (hl : l ∉ w.ctxLoggers) :
    (step env w .ctxFlush).1.logs l = w.logs l ∧
    deliveries l (step env w .ctxFlush).1.trace = deliveries l w.trace := by
  have he := ctxFlush_eq hn ho w.ctxLoggers w hr.qInv
  simp only [step, ret, he]
  exact ctxRounds_other hn ho _ hr.qInv hl

/-- **C21 is false of the code.**  `enable_async()` does not make registered loggers asynchronous. -/
theorem enable_async_violated :
    ¬ ∀ (env : Env) (w : World), Reachable env w → ∀ l ∈ w.ctxLoggers, ∀ L,
      (step env w (.enableAsync true)).1.logs l = some L → L.async = true := by
  intro h
  have := h Sample.quiet (run Sample.quiet World.init Sample.setup) ⟨_, rfl⟩ 0 (by decide) _ rfl
  revert this; decide

/-- **C21, how it fails.**  `enable_async()` makes every registered logger *synchronous*, even one that was
asynchronous, and keeps its queue. -/
theorem enable_async_disables {env : Env} {w : World} {l : LogId} (hl : l ∈ w.ctxLoggers) {L : Log}
    (hL : w.logs l = some L) :
    ∃ L', (step env w (.enableAsync true)).1.logs l = some L' ∧ L'.async = false ∧
      L'.queue = L.queue ∧ L'.sinks = L.sinks := by
  obtain ⟨L', h1, -, h3, -, h5, h6⟩ :=
    foldl_setAsync_hooks (b := false) w.ctxLoggers (w := { w with ctxAsync := true }) hL
  exact ⟨L', by simpa [step, enableAsync] using h1, by simpa [hl] using h6, h5, h3⟩

/-- **C21, what does hold.**  A logger created after `enable_async()`, with no `async` argument of its own,
is asynchronous; with `update_loggers=False` no existing logger changes.
Missing: the loggers registered before. -/
theorem enable_async_partial {env : Env} {w : World} (u : Bool) {l : LogId} (hl : w.logs l = none)
    (ss : List SinkId) :
    (∃ L, (run env w [.op (.enableAsync u), .op (.newLogger l ss none)]).logs l = some L ∧
      L.async = true) ∧
    ∀ m, (step env w (.enableAsync false)).1.logs m = w.logs m := by
  refine ⟨?_, fun m => by simp [step, enableAsync]⟩
  have h0 : (enableAsync w u).logs l = none ∧ (enableAsync w u).ctxAsync = true := by
    simp only [enableAsync]; split
    · refine ⟨?_, (foldl_setAsync_flushLike ..).ctxAsync⟩
      have : ∀ (ls : List LogId) (w : World), w.logs l = none →
          (ls.foldl (fun w l => setAsync w l false) w).logs l = none := by
        intro ls
        induction ls with
        | nil => intro w h; exact h
        | cons m ls ih =>
          intro w h
          refine ih _ ?_
          simp only [setAsync]; split
          · exact h
          · rename_i L hm
            have hne : l ≠ m := by rintro rfl; rw [h] at hm; cases hm
            simp [updLog_ne _ _ hne, h]
      exact this _ _ hl
    · exact ⟨hl, rfl⟩
  have hA : ∀ (ss : List SinkId) (L : Log), (ss.foldl (addSink env) L).async = L.async := by
    intro ss
    induction ss with
    | nil => intro L; rfl
    | cons s ss ih =>
      intro L; rw [List.foldl_cons, ih]; simp only [addSink]; split <;> rfl
  simp only [run, List.foldl_cons, List.foldl_nil, stepItem, step, h0.1]
  refine ⟨newLog env (enableAsync w u) ss none, ?_, ?_⟩
  · rw [addLogger_logs]; simp
  · simp [newLog, setSinks, hA, h0.2]

/-- **C22.**  `disable_async()` returns normally; afterwards every registered logger is synchronous, has
an empty queue, and all it had queued has been handed to its sinks, in order and once; new loggers are
synchronous again. -/
theorem disable_async_delivers {env : Env} (hquiet : env.Quiet) {w : World} (hr : Reachable env w)
    {l : LogId} (hl : l ∈ w.ctxLoggers) {L : Log} (hL : w.logs l = some L) :
    (step env w (.disableAsync true)).2 = .ok ∧
    (step env w (.disableAsync true)).1.ctxAsync = false ∧
    deliveries l (step env w (.disableAsync true)).1.trace =
      deliveries l w.trace ++ callsFor env L.sinks L.queue ∧
    ∃ L', (step env w (.disableAsync true)).1.logs l = some L' ∧ L'.async = false ∧ L'.queue = [] := by
  have hnq : env.NotesQuiet := fun t h n => hquiet _ _
  have ho : env.Ordinary := fun t o x h => by rw [hquiet] at h; cases h
  have hreg := hr.qInv.reg l L hL
  obtain ⟨L1, a1, a2, a3, a4, a5, a6⟩ := foldl_setAsync_hooks (b := false) w.ctxLoggers hL
  have hfl := foldl_setAsync_flushLike w.ctxLoggers false w
  have hcfg := cfg_foldl_setAsync (env := env) w.ctxLoggers false w
  obtain ⟨c1, c2, c3⟩ := cfg_still hcfg
  have hq1 := hcfg.inv (P := QInv env) (fun _ _ h s => qInv_step h (.cfg s)) hr.qInv
  generalize hw1 : w.ctxLoggers.foldl (fun w l => setAsync w l false) w = w1 at *
  have he := ctxFlush_eq hnq ho w1.ctxLoggers w1 hq1
  have hd : disableAsync env w true =
      ({ (w1.ctxLoggers.foldl (ctxRound env) w1) with ctxAsync := false }, none) := by
    simp only [disableAsync, if_true, hw1, he]
  have hself := (ctxRounds_self hnq ho (ls := w1.ctxLoggers) (by rw [hfl.ctxLoggers]; exact hr.ctxNodup)
    hq1 (by rw [hfl.ctxLoggers]; exact hl) a1).2 (fun t s k e _ => hquiet _ _)
  simp only [step, ret, hd]
  refine ⟨rfl, trivial, ?_, ?_⟩
  · rw [hself.1, a3, a5]; congr 2
  · obtain ⟨L2, b1, -, -, b4, -⟩ := (ctxFlush_quiet hquiet w1.ctxLoggers hq1).2 l L1 a1
    rw [he] at b1
    refine ⟨L2, b1, by rw [b4, a6, if_pos hl], ?_⟩
    have := hself.2
    dsimp only at b1
    rw [queued, b1] at this
    exact this

/-- **C25.**  A flush first runs every preflush hook once, in order, whatever `Exception`s they raise
(each is noted); only then does it hand over events, and it does hand them over. -/
theorem preflush_all_run {env : Env} (hn : env.NotesQuiet) (ho : env.Ordinary) {w : World}
    (hr : Reachable env w) {l : LogId} {L : Log} (hL : w.logs l = some L) :
    ∃ pre post, (step env w (.flush l)).1.trace = w.trace ++ pre ++ post ∧
      pre.filter (fun o => !o.isNote) = L.preflush.map (Obs.preflush l) ∧
      (((step env w (.flush l)).2 = .ok ∧ post = callsFor env L.sinks L.queue) ∨
       ∃ x done p rest some_, (step env w (.flush l)).2 = .exc x ∧ L.queue = done ++ p :: rest ∧
         post = callsFor env L.sinks done ++ some_ ∧ some_ <+: callsFor env L.sinks [p] ∧ some_ ≠ []) := by
  have hreg := hr.qInv.reg l L hL
  obtain ⟨pre, post, h, h'⟩ := flush_run hn ho hL hr.qInv
  simp only [expand_callsFor hreg] at h'
  refine ⟨pre, post, h.trace, h.pre, ?_⟩
  rcases h' with ⟨h1, h2, _⟩ | ⟨x, dn, p, rest, t, h1, h2, h3, h4, h5, _⟩
  · exact .inl ⟨by simp [step, ret, h1, Res.ofExc], h2⟩
  · exact .inr ⟨x, dn, p, rest, t, by simp [step, ret, h1, Res.ofExc], h2, h3, h4, h5⟩

/-- **C25.**  A failing preflush hook is noted once to every handler. -/
theorem preflush_failure_noted {env : Env} (hn : env.NotesQuiet) {w : World} {l : LogId} {L : Log}
    (hL : w.logs l = some L) {h : Nat} {hs : List Nat} (hp : L.preflush = h :: hs) {x : Exc}
    (hx : env.raises w.trace (.preflush l h) = some x) (ho : x.cls = .ordinary) :
    ∃ rest, (step env w (.flush l)).1.trace =
      w.trace ++ .preflush l h :: w.noteHandlers.map (fun n => Obs.note n "preflush") ++ rest := by
  have hpre : ∀ (hs : List Nat) (w : World), ∃ t, (runPreflush env l hs w).1.trace = w.trace ++ t :=
    fun hs w => by
      obtain ⟨t, h1, _⟩ := runPreflush_noHook (env := env) l hs w
      exact ⟨t, h1⟩
  have hdr : ∀ (q : List (Kind × Event)) (w : World), ∃ t, (drain env l L q w).1.trace = w.trace ++ t := by
    intro q
    induction q with
    | nil => intro w; exact ⟨[], by simp [drain]⟩
    | cons p q ih =>
      intro w
      obtain ⟨k, e⟩ := p
      have hd : ∃ t, (deliver env L k e (w.setLog l { L with queue := q })).1.trace = w.trace ++ t := by
        cases k <;> (simp only [deliver]; first | (rw [callAll_eq]; exact ⟨_, rfl⟩) |
          (rw [noteAll_eq]; exact ⟨_, rfl⟩))
      obtain ⟨t, ht⟩ := hd
      simp only [drain]
      cases hr : deliver env L k e (w.setLog l { L with queue := q }) with
      | mk w' y =>
        rw [hr] at ht
        cases y with
        | none => obtain ⟨t', ht'⟩ := ih w'; exact ⟨t ++ t', by dsimp only at ht ⊢; rw [ht', ht]; simp⟩
        | some y => exact ⟨t, ht⟩
  simp only [step, ret, flush, hL, hp, runPreflush, callback, hx, ho]
  rw [noteAll_notesQuiet hn]
  dsimp only
  obtain ⟨t, ht⟩ := hpre hs (World.logged { w with trace := w.trace ++ [.preflush l h] }
    (w.noteHandlers.map fun h => Obs.note h "preflush"))
  cases hr : runPreflush env l hs (World.logged { w with trace := w.trace ++ [.preflush l h] }
    (w.noteHandlers.map fun h => Obs.note h "preflush")) with
  | mk w1 y =>
    rw [hr] at ht
    cases y with
    | some y => exact ⟨t, by dsimp only at ht ⊢; rw [ht]; simp [World.logged]⟩
    | none =>
      dsimp only
      obtain ⟨t2, ht2⟩ := hdr L.queue w1
      cases hd : drain env l L L.queue w1 with
      | mk w2 z =>
        rw [hd] at ht2
        dsimp only at ht ht2
        refine ⟨t ++ t2, ?_⟩
        cases z with
        | none => dsimp only; simp [ht2, ht, World.logged]
        | some z => dsimp only; simp [ht2, ht, World.logged]

section
open Sample
/-- Preflush hook 0 of logger 0 raises, and so does sink 0 on every `begin` of logger 0; sink 5 does not.
The note handler does not raise. -/
private def failing : Env :=
  { quiet with
    raises := fun _ o =>
      match o with
      | .preflush 0 0 => some boom
      | .hook 0 .begin _ => some sinkErr
      | _ => none }

private def twoLoggers : List Item :=
  [.op (.newLogger 0 [0] (some true)), .op (.newLogger 1 [5] (some true)), .op (.addNoteHandler 7),
   .op (.addPreflush 0 0), .op (.addPreflush 0 1),
   .op (.newAction 0 20 "a" []), .op (.newAction 1 20 "b" []), .op (.begin 0 none [] []),
   .op (.begin 1 none [] []), .op (.warn 1 "w" [] [])]

/-- the hypotheses of the C20 and C25 theorems, with failures on logger 0 -/
example : failing.NotesQuiet ∧ failing.Ordinary := by
  refine ⟨fun _ _ _ => rfl, ?_⟩
  intro t o x h
  simp only [failing] at h
  split at h <;> first | (cases h; rfl) | cases h

/-- Logger 0 fails, logger 1 still gets both its events. -/
example :
    let w := run failing World.init twoLoggers
    w.ctxLoggers = [0, 1] ∧ (step failing w .ctxFlush).2 = .ok ∧
    (received 5 (step failing w .ctxFlush).1.trace).map Prod.fst = [.begin, .warn] ∧
    ((step failing w .ctxFlush).1.trace.map fun
      | .preflush _ h => h
      | .note .. => 77
      | .hook s _ _ => 100 + s) = [0, 77, 1, 100, 77, 105, 105] := by decide

/-- a queue that `disable_async` has to deliver -/
example :
    let w := run quiet World.init twoLoggers
    (queued w 1).length = 2 ∧ 1 ∈ w.ctxLoggers ∧
    (received 5 (step quiet w (.disableAsync true)).1.trace).map Prod.fst = [.begin, .warn] := by
  decide
end

end Verif
