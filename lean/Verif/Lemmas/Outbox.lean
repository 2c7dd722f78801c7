import Verif.Lemmas.SyncMode
import Verif.Lemmas.Queue
import Verif.Lemmas.Full
import Verif.Lemmas.Config
import Verif.Lemmas.Calls
import Verif.Spec.Outbox
/-!
# One call seen by the outbox of a logger
-/
namespace Verif
open scoped List
attribute [local irreducible] QUEUE_LIMIT

/-- Since `d0`, publishing calls only. -/
structure PubBox (n : Nat) (l : LogId) (L : Log) (d0 d : Del) : Prop where
  flow : ∃ N, ofLogger l d.pub = ofLogger l d0.pub ++ N ∧
    d.logs l = some { L with queue := if L.async then lastN n (L.queue ++ N) else L.queue } ∧
    deliveries l d.trace = deliveries l d0.trace ++ if L.async then [] else expand L N

theorem pubBox_step {env : Env} (hquiet : env.Quiet) {n : Nat} (hn : QUEUE_LIMIT = n) {l : LogId} {L : Log} {d0 d d' : Del}
    (h : PubBox n l L d0 d) (st : PubStep env d d') : PubBox n l L d0 d' := by
  obtain ⟨N, h1, h2, h3⟩ := h
  cases st with
  | sync m M k e hM ha hl hk hx =>
    by_cases hm : l = m
    · subst hm
      rw [h2] at hM; cases hM
      simp only at ha
      refine ⟨N ++ [(k, e)], ?_, ?_, ?_⟩
      · simp [ofLogger_single, hx, hl, h1]
      · simpa [ha] using h2
      · simp only [ha, Bool.false_eq_true, if_false] at h3 ⊢
        rw [deliveries_append, h3, ran_quiet hquiet, deliveries_hookCalls, if_pos ⟨hx, hl⟩]
        simp [expand, hookCalls]
    · refine ⟨N, ?_, h2, ?_⟩
      · simp [ofLogger_ne hl hm (List.Sublist.refl [(k, e)]), h1]
      · have hno : ¬ (k ≠ .exception ∧ e.logger = l) := fun ⟨_, he⟩ => hm (he.symm.trans hl)
        rw [deliveries_append, h3, ran_quiet hquiet, deliveries_hookCalls]
        simp only [if_neg hno, List.append_nil]
  | async m M k e hM ha hl hk hx =>
    by_cases hm : l = m
    · subst hm
      rw [h2] at hM; cases hM
      simp only at ha
      refine ⟨N ++ [(k, e)], ?_, ?_, ?_⟩
      · simp [ofLogger_single, hx, hl, h1]
      · simp only [updLog_same, ha, if_true, hn]
        rw [← List.append_assoc, ← lastN_push]
      · simpa [ha] using h3
    · refine ⟨N, ?_, ?_, h3⟩
      · simp [ofLogger_ne hl hm (List.Sublist.refl [(k, e)]), h1]
      · rw [← h2]; exact updLog_ne _ _ hm
  | exc m M e hM hl hk =>
    refine ⟨N, h1, h2, ?_⟩
    rw [deliveries_append, h3, ran_quiet hquiet, deliveries_hookCalls]; simp
  | note t ht => exact ⟨N, h1, h2, by rw [deliveries_append, deliveries_noHook l ht, h3]; simp⟩

theorem pub_ctxLoggers {env : Env} {w : World} (it : Item) (hk : it.kind = .pub) :
    (stepItem env w it).ctxLoggers = w.ctxLoggers := by
  cases it with
  | enter a =>
    simp only [stepItem]
    simp only [guard, ret, enter]
    split
    · split
      · rfl
      · exact (keep_begin ..).ctxLoggers.trans rfl
    · rfl
  | exit a x =>
    simp only [stepItem]
    split
    · simp only [exit]
      split
      · rfl
      · have hk := keep_exitPublish (env := env) (w := w) a x
        split
        · rename_i hr; rw [hr] at hk; exact hk.ctxLoggers
        · rename_i hr; rw [hr] at hk; exact hk.ctxLoggers
    · rfl
  | op o =>
    simp only [stepItem]
    refine (keep_step o ?_).ctxLoggers
    cases o <;> simp_all [Item.kind, Op.isCfg]

/-- A quiet flush of several loggers. -/
theorem ctx_box {env : Env} (hquiet : env.Quiet) (ls : List LogId) {w : World} {l : LogId} {L : Log}
    (hi : QInv env w.del) (hL : w.logs l = some L) :
    (ctxFlush env ls w).2 = none ∧
    ∃ L', (ctxFlush env ls w).1.logs l = some L' ∧ L'.sinks = L.sinks ∧ L'.async = L.async ∧
      L'.queue = (if l ∈ ls then [] else L.queue) ∧
      deliveries l (ctxFlush env ls w).1.trace =
        deliveries l w.trace ++ (if l ∈ ls then callsFor env L.sinks L.queue else []) ∧
      (ctxFlush env ls w).1.pub = w.pub := by
  obtain ⟨h0, h1⟩ := ctxFlush_quiet hquiet ls hi
  obtain ⟨L', a1, a2, a3, a4, a5, a6⟩ := h1 l L hL
  have hp : (ctxFlush env ls w).1.pub = w.pub := (ctxFlush_flushLike env ls w).core.pub
  refine ⟨h0, L', a1, a2, a4, a6, ?_, hp⟩
  have hf := full_flush hquiet hi ⟨L, hL, rfl⟩ (fl_ctxFlush (env := env) ls w)
  obtain ⟨T, N, b1, b2, b3⟩ := hf.flow L rfl
  have hN : N = [] := by
    have : ofLogger l w.pub = ofLogger l w.pub ++ N := by
      have h := b2; simp only [World.del] at h; rw [hp] at h; exact h
    simpa using this
  have q0 : w.del.queue l = L.queue := by simp [Del.queue, World.del, hL]
  have q1 : (ctxFlush env ls w).1.del.queue l = L'.queue := by simp [Del.queue, World.del, a1]
  rw [hN, q0, q1, a6] at b3
  have hr : RegOk env L := hi.reg l L hL
  rw [show deliveries l (ctxFlush env ls w).1.trace = deliveries l w.trace ++ T from b1]
  congr 1
  split
  · rename_i hm
    rw [if_pos hm] at b3
    rw [← expand_callsFor hr]; simpa [expand] using b3
  · rename_i hm
    rw [if_neg hm] at b3
    simpa [expand] using b3

theorem setSinks_withSink (env : Env) (L : Log) (ss : List SinkId) :
    (setSinks env L ss).sinks = ss.foldl Outbox.withSink [] := by
  suffices h : ∀ (ss : List SinkId) (L : Log),
      (ss.foldl (addSink env) L).sinks = ss.foldl Outbox.withSink L.sinks from h ss _
  intro ss
  induction ss with
  | nil => intro L; rfl
  | cons s ss ih =>
    intro L
    rw [List.foldl_cons, ih, List.foldl_cons]
    congr 1
    simp only [addSink, Outbox.withSink]; split <;> rfl

theorem addSink_withSink (env : Env) (L : Log) (s : SinkId) :
    (addSink env L s).sinks = Outbox.withSink L.sinks s := by
  simp only [addSink, Outbox.withSink]; split <;> rfl

theorem flush_pub {env : Env} {d d' : Del} (st : Star (FlushStep env) d d') : d'.pub = d.pub :=
  st.inv (P := fun x => x.pub = d.pub) (fun _ _ h s => by cases s <;> exact h) rfl

/-- What one call does, for the outbox of `l`. -/
def BoxStep (env : Env) (l : LogId) (it : Item) (w w' : World) : Prop :=
  ∃ new, published w' l = published w l ++ new ∧ (w'.logs l).isSome ∧
    outbox w' l = ((outbox w l).item env l new it).1 ∧
    deliveries l w'.trace = deliveries l w.trace ++ ((outbox w l).item env l new it).2

theorem outbox_some {w : World} {l : LogId} {L : Log} (h : w.logs l = some L) :
    outbox w l = ⟨L.sinks, L.async, decide (l ∈ w.ctxLoggers), L.queue⟩ := by simp [outbox, h]

theorem boxStep_pub {env : Env} (hquiet : env.Quiet) {w : World} (hr : Reachable env w) {l : LogId} {L : Log}
    (hL : w.logs l = some L) (it : Item) (hk : it.kind = .pub) : BoxStep env l it w (stepItem env w it) := by
  have hi : PubBox 10000 l L w.del w.del := by
    refine ⟨[], by simp, ?_, by simp [expand]⟩
    have hq := hr.queue_le' l
    simp only [queued, hL] at hq
    rw [List.append_nil, lastN_of_le (by unfold QUEUE_LIMIT at hq; exact hq)]
    simp [World.del, hL]
  have hlim : QUEUE_LIMIT = 10000 := by unfold QUEUE_LIMIT; rfl
  obtain ⟨N, h1, h2, h3⟩ := (pub_item hr.good.pre it hk).inv (P := PubBox 10000 l L w.del)
    (fun _ _ => pubBox_step hquiet hlim) hi
  have hreg : RegOk env L := hr.good.q.reg l L hL
  have hitem : ∀ b : Outbox, b.item env l N it = b.publish env N := by
    intro b
    cases it with
    | enter a => rfl
    | exit a x => rfl
    | op o => cases o <;> simp only [Item.kind, reduceCtorEq] at hk <;> rfl
  refine ⟨N, h1, ?_, ?_, ?_⟩
  · rw [show (stepItem env w it).logs l = _ from h2]; rfl
  · rw [hitem, outbox_some hL, outbox_some h2, pub_ctxLoggers it hk]
    simp only [Outbox.publish]
    cases L.async <;> simp
  · rw [hitem, outbox_some hL]
    rw [show deliveries l (stepItem env w it).trace = _ from h3]
    simp only [Outbox.publish, ← expand_callsFor hreg]
    cases L.async <;> rfl

theorem outbox_pubNil {env : Env} {w : World} (hr : Reachable env w) {l : LogId} {L : Log}
    (hL : w.logs l = some L) : (outbox w l).publish env [] = (outbox w l, []) := by
  have hq := hr.queue_le' l
  simp only [queued, hL] at hq
  rw [outbox_some hL]
  simp only [Outbox.publish, List.append_nil]
  rw [lastN_of_le (by unfold QUEUE_LIMIT at hq; exact hq)]
  split <;> simp [callsFor]

/-- What a configuration call leaves of the logger. -/
theorem boxStep_cfg {env : Env} {w : World} (hr : Reachable env w) {l : LogId} {L : Log}
    (hL : w.logs l = some L) (it : Item) (hk : it.kind = .cfg) : BoxStep env l it w (stepItem env w it) := by
  obtain ⟨c1, c2, c3⟩ := cfg_still (cfg_item (env := env) (w := w) it hk)
  have hp : published (stepItem env w it) l = published w l ++ [] := by
    simp only [published, List.append_nil]; exact congrArg _ c2
  have ht : deliveries l (stepItem env w it).trace = deliveries l w.trace ++ [] := by
    rw [List.append_nil]; exact congrArg _ c1
  suffices h : ∃ L', (stepItem env w it).logs l = some L' ∧
      (outbox w l).item env l [] it =
        (⟨L'.sinks, L'.async, decide (l ∈ (stepItem env w it).ctxLoggers), L'.queue⟩, []) by
    obtain ⟨L', h1, h2⟩ := h
    exact ⟨[], hp, by rw [h1]; rfl, by rw [h2, outbox_some h1], by rw [h2]; exact ht⟩
  have hpub := outbox_pubNil hr hL
  rw [outbox_some hL] at hpub ⊢
  have hother : ∀ {m : LogId} {f : Log → Log}, m ≠ l → (onLog w m f).logs l = some L :=
    fun h => by rw [onLog_other h, hL]
  have hself : ∀ f : Log → Log, (onLog w l f).logs l = some (f L) := fun f => by simp [onLog, hL]
  have hctx : ∀ (m : LogId) (f : Log → Log), (onLog w m f).ctxLoggers = w.ctxLoggers :=
    fun m f => (onLog_flushLike ..).ctxLoggers
  cases it with
  | enter a => simp [Item.kind] at hk
  | exit a exc => simp [Item.kind] at hk
  | op o =>
    clear c1 c2 c3 hp ht
    cases o <;> simp only [Item.kind, reduceCtorEq] at hk
    case newLogger m ss as =>
      have h1 : (stepItem env w (.op (.newLogger m ss as))).logs l = some L ∧
          (l ∈ (stepItem env w (.op (.newLogger m ss as))).ctxLoggers ↔ l ∈ w.ctxLoggers) := by
        simp only [stepItem, step]
        split
        · exact ⟨hL, .rfl⟩
        · rename_i hm
          have hne : l ≠ m := by rintro rfl; simp [hL] at hm
          refine ⟨by simp only [addLogger_logs]; simp [updLog_ne _ _ hne, hL], ?_⟩
          simp only [addLogger]; split
          · rfl
          · simp [hne]
      exact ⟨L, h1.1, by simp only [Outbox.item, hpub, h1.2]⟩
    case setAsync m b =>
      obtain ⟨L1, a1, a2, a3, a4, a5, a6⟩ := setAsync_hooks (m := m) (b := b) hL
      refine ⟨L1, a1, ?_⟩
      simp only [stepItem, step, Outbox.item, (setAsync_flushLike w m b).ctxLoggers, a3, a5, a6]
      by_cases h : m = l
      · simp [h]
      · simp [h, Ne.symm h]
    case setSinks m ss =>
      simp only [stepItem, step, Outbox.item, hctx]
      by_cases h : m = l
      · subst h
        have := setSinks_rest env L ss
        simp only [Log.rest, Prod.mk.injEq] at this
        exact ⟨_, hself _, by simp [setSinks_withSink, this]⟩
      · exact ⟨L, hother h, by simp [h]⟩
    case addSink m s =>
      simp only [stepItem, step, Outbox.item, hctx]
      by_cases h : m = l
      · subst h
        have := addSink_rest env L s
        simp only [Log.rest, Prod.mk.injEq] at this
        exact ⟨_, hself _, by simp [addSink_withSink, this]⟩
      · exact ⟨L, hother h, by simp [h]⟩
    case clearSinks m =>
      simp only [stepItem, step, Outbox.item, hctx]
      by_cases h : m = l
      · subst h
        have := setSinks_rest env L []
        simp only [Log.rest, Prod.mk.injEq] at this
        exact ⟨_, hself _, by simp [setSinks_withSink, this]⟩
      · exact ⟨L, hother h, by simp [h]⟩
    case addPreflush m h =>
      simp only [stepItem, step, Outbox.item, hctx, hpub]
      by_cases h : m = l
      · subst h
        exact ⟨_, hself _, rfl⟩
      · exact ⟨L, hother h, rfl⟩
    case addNoteHandler h =>
      simp only [stepItem, step, Outbox.item, hpub]
      exact ⟨L, hL, rfl⟩
    case enableAsync u =>
      simp only [stepItem, step, Outbox.item, enableAsync]
      cases u
      · exact ⟨L, hL, by simp⟩
      · obtain ⟨L1, a1, a2, a3, a4, a5, a6⟩ := foldl_setAsync_hooks (b := false) w.ctxLoggers
          (w := { w with ctxAsync := true }) hL
        refine ⟨L1, a1, ?_⟩
        simp only [if_true, (foldl_setAsync_flushLike _ _ _).ctxLoggers, a3, a5, a6]
        by_cases h : l ∈ w.ctxLoggers <;> simp [h]
    case addLogger m =>
      have h1 : (stepItem env w (.op (.addLogger m))).logs l = some L ∧
          (l ∈ (stepItem env w (.op (.addLogger m))).ctxLoggers ↔ m = l ∨ l ∈ w.ctxLoggers) := by
        simp only [stepItem, step]
        split
        · rename_i hm
          have hne : ¬ m = l := by rintro rfl; simp [hL] at hm
          exact ⟨hL, by simp [hne]⟩
        · refine ⟨by rw [addLogger_logs, hL], ?_⟩
          simp only [addLogger]; split
          · rename_i hm
            exact ⟨.inr, fun h => h.elim (fun e => e ▸ hm) id⟩
          · simp only [List.mem_append, List.mem_singleton]
            exact ⟨fun h => h.symm.imp Eq.symm id, fun h => h.symm.imp id Eq.symm⟩
      refine ⟨L, h1.1, ?_⟩
      simp only [Outbox.item, h1.2]
      by_cases h : m = l <;> simp [h]
    case removeLogger m =>
      simp only [stepItem, step, Outbox.item, removeLogger]
      refine ⟨L, hL, ?_⟩
      by_cases h : m = l
      · simp [h]
      · simp [h, Ne.symm h]

theorem qInv_cfg {env : Env} {d d' : Del} (h : QInv env d) (st : Star (CfgStep env) d d') : QInv env d' :=
  st.inv (P := QInv env) (fun _ _ h s => qInv_step h (.cfg s)) h

/-- One call, for every logger that exists. -/
theorem boxStep_item {env : Env} (hquiet : env.Quiet) {w : World} (hr : Reachable env w) {l : LogId}
    (hl : (w.logs l).isSome) (it : Item) : BoxStep env l it w (stepItem env w it) := by
  obtain ⟨L, hL⟩ := Option.isSome_iff_exists.1 hl
  cases hk : it.kind with
  | pub => exact boxStep_pub hquiet hr hL it hk
  | cfg => exact boxStep_cfg hr hL it hk
  | flush =>
    cases it with
    | enter a => simp [Item.kind] at hk
    | exit a exc => simp [Item.kind] at hk
    | op o =>
      cases o <;> simp only [Item.kind, reduceCtorEq] at hk
      case ctxFlush =>
        obtain ⟨_, L', a1, a2, a3, a4, a5, a6⟩ := ctx_box hquiet w.ctxLoggers hr.good.q hL
        refine ⟨[], ?_, ?_, ?_, ?_⟩ <;> simp only [stepItem, step, ret]
        · rw [published, a6, List.append_nil]; rfl
        · rw [a1]; rfl
        · rw [outbox_some hL, outbox_some a1, (ctxFlush_flushLike ..).ctxLoggers, a2, a3, a4]
          simp only [Outbox.item]
          by_cases h : l ∈ w.ctxLoggers <;> simp [h, Outbox.flush]
        · rw [outbox_some hL, a5]
          simp only [Outbox.item]
          by_cases h : l ∈ w.ctxLoggers <;> simp [h, Outbox.flush]
      case flush m =>
        have he : (flush env w m).1 = (ctxFlush env [m] w).1 := by
          simp only [ctxFlush]
          cases hm : w.logs m with
          | none => simp [flush, hm]
          | some M => rw [flush_quiet hquiet hm (hr.good.q.kinds hm)]
        obtain ⟨_, L', a1, a2, a3, a4, a5, a6⟩ := ctx_box hquiet [m] hr.good.q hL
        refine ⟨[], ?_, ?_, ?_, ?_⟩ <;> simp only [stepItem, step, ret, he]
        · rw [published, a6, List.append_nil]; rfl
        · rw [a1]; rfl
        · rw [outbox_some hL, outbox_some a1, (ctxFlush_flushLike ..).ctxLoggers, a2, a3, a4]
          simp only [Outbox.item]
          by_cases h : m = l
          · simp [h, Outbox.flush]
          · simp [h, Ne.symm h]
        · rw [outbox_some hL, a5]
          simp only [Outbox.item]
          by_cases h : m = l
          · simp [h, Outbox.flush]
          · simp [h, Ne.symm h]
  | disable =>
    obtain ⟨u, rfl⟩ := item_disable hk
    have hsw : ∃ w1 L1, w1 = (if u then w.ctxLoggers.foldl (fun w l => setAsync w l false) w else w) ∧
        w1.logs l = some L1 ∧ L1.sinks = L.sinks ∧ L1.queue = L.queue ∧
        L1.async = (L.async && !(decide (l ∈ w.ctxLoggers) && u)) ∧ QInv env w1.del ∧ w1.trace = w.trace ∧ FlushLike w w1 := by
      cases u
      · exact ⟨w, L, rfl, hL, rfl, rfl, by simp, hr.good.q, rfl, .refl _⟩
      · obtain ⟨L1, a1, a2, a3, a4, a5, a6⟩ := foldl_setAsync_hooks (b := false) w.ctxLoggers hL
        have hs := cfg_foldl_setAsync (env := env) w.ctxLoggers false w
        refine ⟨_, L1, rfl, a1, a3, a5, ?_, qInv_cfg hr.good.q hs, (cfg_still hs).1, foldl_setAsync_flushLike ..⟩
        rw [a6]; by_cases h : l ∈ w.ctxLoggers <;> simp [h]
    obtain ⟨w1, L1, e, h1, h2, h3, h4, h5, h6, h7⟩ := hsw
    obtain ⟨g0, L', a1, a2, a3, a4, a5, a6⟩ := ctx_box hquiet w1.ctxLoggers h5 h1
    have hd : (disableAsync env w u).1 = { (ctxFlush env w1.ctxLoggers w1).1 with ctxAsync := false } := by
      simp only [disableAsync, ← e]
      split <;> rename_i hx
      · rw [hx] at g0; cases g0
      · rw [hx]
    have hc : (ctxFlush env w1.ctxLoggers w1).1.ctxLoggers = w.ctxLoggers :=
      (ctxFlush_flushLike ..).ctxLoggers.trans h7.ctxLoggers
    refine ⟨[], ?_, ?_, ?_, ?_⟩ <;> simp only [stepItem, step, ret, hd]
    · simp only [published, a6, List.append_nil, h7.core.pub]
    · rw [a1]; rfl
    · rw [outbox_some hL, outbox_some (L := L') (by exact a1)]
      rw [h7.ctxLoggers] at hc a4
      simp only [h7.ctxLoggers, hc, a2, a3, a4, h2, h3, h4, Outbox.item]
      by_cases h : l ∈ w.ctxLoggers <;> simp [h, Outbox.flush]
    · rw [outbox_some hL, a5, h6, h2, h3, h7.ctxLoggers]
      simp only [Outbox.item]
      by_cases h : l ∈ w.ctxLoggers <;> simp [h, Outbox.flush]

end Verif
