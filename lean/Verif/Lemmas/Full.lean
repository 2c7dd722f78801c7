import Verif.Lemmas.Quiet
/-!
# Complete delivery on one logger whose registry does not change, with quiet hooks
-/
namespace Verif
open scoped List
attribute [local irreducible] QUEUE_LIMIT

@[simp] theorem deliveries_append (l : LogId) (t u : List Obs) :
    deliveries l (t ++ u) = deliveries l t ++ deliveries l u := by simp [deliveries]

theorem deliveries_hookCalls (l : LogId) (L : Log) (k : Kind) (e : Event) :
    deliveries l (hookCalls L k e) = if k ≠ .exception ∧ e.logger = l then hookCalls L k e else [] := by
  simp only [deliveries, hookCalls, List.filter_map]
  by_cases h : k ≠ .exception ∧ e.logger = l
  · have : ∀ xs : List SinkId, xs.filter (fun _ => true) = xs := fun xs => by simp
    simp [h, Function.comp_def, this]
  · rw [if_neg h]
    simp only [List.map_eq_nil_iff, List.filter_eq_nil_iff, Function.comp_apply, Bool.and_eq_true,
      decide_eq_true_eq]
    exact fun _ _ => h

theorem deliveries_noHook (l : LogId) {t : List Obs} (h : ∀ o ∈ t, o.isHook = false) :
    deliveries l t = [] := by
  simp only [deliveries, List.filter_eq_nil_iff]
  intro o ho
  have := h o ho
  cases o <;> simp_all [Obs.isHook]

/-- From `d0` to `d`: what was delivered on `l`, followed by what is still queued, is what was queued,
followed by what was published in between. -/
structure FullStep (l : LogId) (hooks : Kind → List SinkId) (d0 d : Del) : Prop where
  log : ∃ L, d.logs l = some L ∧ L.hooks = hooks
  flow : ∀ L : Log, L.hooks = hooks → ∃ T N, deliveries l d.trace = deliveries l d0.trace ++ T ∧
    ofLogger l d.pub = ofLogger l d0.pub ++ N ∧
    T ++ expand L (d.queue l) = expand L (d0.queue l) ++ expand L N

theorem hookCalls_congr {L M : Log} (h : L.hooks = M.hooks) (k : Kind) (e : Event) :
    hookCalls L k e = hookCalls M k e := by simp [hookCalls, h]

theorem FullStep.refl {l : LogId} {L : Log} {d : Del} (h : d.logs l = some L) :
    FullStep l L.hooks d d :=
  ⟨⟨L, h, rfl⟩, fun _ _ => ⟨[], [], by simp, by simp, by simp [expand]⟩⟩

theorem FullStep.trans {l : LogId} {hs : Kind → List SinkId} {a b c : Del} (h : FullStep l hs a b)
    (g : FullStep l hs b c) : FullStep l hs a c := by
  refine ⟨g.log, fun L hL => ?_⟩
  obtain ⟨T, N, h1, h2, h3⟩ := h.flow L hL
  obtain ⟨T', N', g1, g2, g3⟩ := g.flow L hL
  refine ⟨T ++ T', N ++ N', by rw [g1, h1, List.append_assoc], by rw [g2, h2, List.append_assoc], ?_⟩
  rw [List.append_assoc, g3, ← List.append_assoc, h3, expand_append, List.append_assoc]

/-- A step that changes nothing about `l`'s deliveries, queue and publications. -/
theorem FullStep.idle {l : LogId} {hs : Kind → List SinkId} {d d' : Del}
    (hlog : ∃ L, d'.logs l = some L ∧ L.hooks = hs)
    (ht : deliveries l d'.trace = deliveries l d.trace) (hq : d'.queue l = d.queue l)
    (hp : ofLogger l d'.pub = ofLogger l d.pub) : FullStep l hs d d' :=
  ⟨hlog, fun _ _ => ⟨[], [], by simp [ht], by simp [hp], by simp [expand, hq]⟩⟩

/-- Length bookkeeping of a publishing step. -/
def room (l : LogId) (d : Del) : Nat := (d.queue l).length

theorem room_arith {n a b : Nat} (h : b + (a + 1) ≤ n + a) : b + 1 ≤ n := by omega

theorem pushBounded_room {α : Type} {n : Nat} {q : List α} {x : α} (h : q.length + 1 ≤ n) :
    pushBounded n q x = q ++ [x] := by
  simp only [pushBounded]
  rw [show q.length + 1 - n = 0 by omega, List.drop_zero]

theorem full_async {lim : Nat} {l m : LogId} {hs : Kind → List SinkId} {d : Del} {L : Log} {k : Kind}
    {e : Event} (hlog : ∃ L, d.logs l = some L ∧ L.hooks = hs) (hL : d.logs m = some L)
    (hl : e.logger = m) (hx : k ≠ .exception)
    (hroom : room l d + (ofLogger l (d.pub ++ [(k, e)])).length ≤ lim + (ofLogger l d.pub).length) :
    FullStep l hs d ⟨d.trace, updLog d.logs m { L with queue := pushBounded lim L.queue (k, e) },
        d.pub ++ [(k, e)]⟩ := by
  by_cases h : l = m
  · subst h
    obtain ⟨L0, hL0, hh⟩ := hlog
    rw [hL] at hL0; cases hL0
    refine ⟨⟨_, updLog_same _ _ _, hh⟩, fun M hM => ⟨[], [(k, e)], by simp, ?_, ?_⟩⟩
    · simp [ofLogger_single, hx, hl]
    · have hq : d.queue l = L.queue := by simp [Del.queue, hL]
      rw [Del.queue_upd, if_pos rfl, hq]
      simp only [List.nil_append]
      have hlen : L.queue.length + 1 ≤ lim := by
        refine room_arith (a := (ofLogger l d.pub).length) ?_
        simpa [ofLogger_single, hx, hl, room, hq] using hroom
      rw [pushBounded_room hlen]; simp
  · refine .idle ?_ rfl ?_ ?_
    · obtain ⟨L0, hL0, hh⟩ := hlog
      exact ⟨L0, by rw [← hL0]; exact updLog_ne _ _ h, hh⟩
    · rw [Del.queue_upd, if_neg h]; rfl
    · simp [ofLogger_ne hl h (List.Sublist.refl [(k, e)])]

theorem full_sync {env : Env} (hquiet : env.Quiet) {l m : LogId} {hs : Kind → List SinkId}
    {d : Del} {L : Log} {k : Kind} {e : Event}
    (hlog : ∃ L, d.logs l = some L ∧ L.hooks = hs) (hL : d.logs m = some L) (he : d.SyncEmpty l)
    (ha : L.async = false) (hl : e.logger = m) (hx : k ≠ .exception) :
    FullStep l hs d
      ⟨d.trace ++ (ran env (hookCalls L k e) d.trace).1, d.logs, d.pub ++ [(k, e)]⟩ := by
  by_cases h : l = m
  · subst h
    obtain ⟨L0, hL0, hh⟩ := hlog
    rw [hL] at hL0; cases hL0
    refine ⟨⟨L, hL, hh⟩, fun M hM => ⟨hookCalls L k e, [(k, e)], ?_, ?_, ?_⟩⟩
    · simp [ran_quiet hquiet, deliveries_hookCalls, hx, hl]
    · simp [ofLogger_single, hx, hl]
    · have hq : d.queue l = [] := by simp [Del.queue, hL, he L hL ha]
      have hq' : (⟨d.trace ++ (ran env (hookCalls L k e) d.trace).1, d.logs, d.pub ++ [(k, e)]⟩ :
        Del).queue l = [] := hq
      rw [hq, hq']
      simp [expand, hookCalls_congr (hh.trans hM.symm)]
  · refine .idle hlog ?_ rfl ?_
    · simp only [deliveries_append, ran_quiet hquiet, deliveries_hookCalls, hl]
      simp [Ne.symm h]
    · simp [ofLogger_ne hl h (List.Sublist.refl [(k, e)])]

theorem full_pubStep {env : Env} (hquiet : env.Quiet) {l : LogId} {hs : Kind → List SinkId}
    {d d' : Del} (hlog : ∃ L, d.logs l = some L ∧ L.hooks = hs) (he : d.SyncEmpty l)
    (hroom : room l d + (ofLogger l d'.pub).length ≤ QUEUE_LIMIT + (ofLogger l d.pub).length)
    (st : PubStep env d d') : FullStep l hs d d' := by
  cases st with
  | sync m L k e hL ha hl hk hx => exact full_sync hquiet hlog hL he ha hl hx
  | async m L k e hL ha hl hk hx => exact full_async hlog hL hl hx hroom
  | exc m L e hL hl hk =>
    refine .idle hlog ?_ rfl rfl
    simp [ran_quiet hquiet, deliveries_hookCalls]
  | note t ht => exact .idle hlog (by simp [deliveries_noHook l ht]) rfl rfl

/-- Publications grow, and the queue grows no faster. -/
theorem pub_grow {env : Env} {d d' : Del} (l : LogId) (st : PubStep env d d') :
    (ofLogger l d.pub).length ≤ (ofLogger l d'.pub).length ∧
    room l d' + (ofLogger l d.pub).length ≤ room l d + (ofLogger l d'.pub).length := by
  cases st with
  | sync m L k e hL ha hl hk hx =>
    have : room l (⟨d.trace ++ (ran env (hookCalls L k e) d.trace).1, d.logs, d.pub ++ [(k, e)]⟩ : Del)
      = room l d := rfl
    rw [this]
    simp
  | async m L k e hL ha hl hk hx =>
    simp only [room, Del.queue_upd, ofLogger_append, List.length_append]
    refine ⟨by omega, ?_⟩
    split
    · rename_i h
      subst h
      have hq : d.queue l = L.queue := by simp [Del.queue, hL]
      have h1 := (pushBounded_sublist QUEUE_LIMIT L.queue (k, e)).length_le
      simp only [List.length_append, List.length_singleton] at h1
      simp only [hq, ofLogger_single, hl, hx, ne_eq, not_false_eq_true, and_self, if_true,
        List.length_singleton]
      omega
    · have hq : (⟨d.trace, d.logs, d.pub ++ [(k, e)]⟩ : Del).queue l = d.queue l := rfl
      rw [hq]; omega
  | exc m L e hL hl hk => exact ⟨Nat.le_refl _, Nat.le_refl _⟩
  | note t ht => exact ⟨Nat.le_refl _, Nat.le_refl _⟩

theorem full_pub {env : Env} (hquiet : env.Quiet) {l : LogId} {hs : Kind → List SinkId}
    {d d' : Del} (hlog : ∃ L, d.logs l = some L ∧ L.hooks = hs) (he : d.SyncEmpty l)
    (st : Star (PubStep env) d d')
    (hroom : room l d + (ofLogger l d'.pub).length ≤ QUEUE_LIMIT + (ofLogger l d.pub).length) :
    FullStep l hs d d' := by
  suffices h : FullStep l hs d d' ∧ d'.SyncEmpty l ∧
      room l d' + (ofLogger l d.pub).length ≤ room l d + (ofLogger l d'.pub).length from h.1
  induction st with
  | refl =>
    obtain ⟨L, hL, rfl⟩ := hlog
    exact ⟨.refl hL, he, Nat.le_refl _⟩
  | tail st s ih =>
    have hg := pub_grow l s
    obtain ⟨h1, h2, h3⟩ := ih (by omega)
    exact ⟨h1.trans (full_pubStep hquiet h1.log h2 (by omega) s), syncEmpty_pub h2 s, by omega⟩

theorem full_flushStep {env : Env} (hquiet : env.Quiet) {l : LogId} {hs : Kind → List SinkId}
    {d d' : Del} (hi : QInv env d) (hlog : ∃ L, d.logs l = some L ∧ L.hooks = hs)
    (st : FlushStep env d d') : FullStep l hs d d' := by
  cases st with
  | pop m L k e q hL hQ hx =>
    have hl : e.logger = m := (hi.q m k e (by simp [Del.queue, hL, hQ])).1
    by_cases h : l = m
    · subst h
      obtain ⟨L0, hL0, hh⟩ := hlog
      rw [hL] at hL0; cases hL0
      refine ⟨⟨_, updLog_same _ _ _, hh⟩, fun M hM => ⟨hookCalls L k e, [], ?_, by simp, ?_⟩⟩
      · simp [ran_quiet hquiet, deliveries_hookCalls, hx, hl]
      · rw [Del.queue_upd, if_pos rfl]
        simp [Del.queue, hL, hQ, expand, hookCalls_congr (hh.trans hM.symm)]
    · refine .idle ?_ ?_ ?_ rfl
      · obtain ⟨L0, hL0, hh⟩ := hlog
        exact ⟨L0, by rw [← hL0]; exact updLog_ne _ _ h, hh⟩
      · simp only [deliveries_append, ran_quiet hquiet, deliveries_hookCalls, hl]
        simp [Ne.symm h]
      · rw [Del.queue_upd, if_neg h]; rfl
  | popExc m L e q t hL hQ ht =>
    exact absurd rfl (hi.q m .exception e (by simp [Del.queue, hL, hQ])).2.2.1
  | other t ht => exact .idle hlog (by simp [deliveries_noHook l ht]) rfl rfl
  | stamp m L t hL =>
    refine .idle ?_ rfl ?_ rfl
    · obtain ⟨L0, hL0, hh⟩ := hlog
      by_cases h : l = m
      · subst h
        rw [hL] at hL0; cases hL0
        exact ⟨_, updLog_same _ _ _, hh⟩
      · exact ⟨L0, by rw [← hL0]; exact updLog_ne _ _ h, hh⟩
    · rw [Del.queue_upd]; split
      · subst_vars; simp [Del.queue, hL]
      · rfl

theorem full_flush {env : Env} (hquiet : env.Quiet) {l : LogId} {hs : Kind → List SinkId}
    {d d' : Del} (hi : QInv env d) (hlog : ∃ L, d.logs l = some L ∧ L.hooks = hs)
    (st : Star (FlushStep env) d d') : FullStep l hs d d' := by
  suffices h : FullStep l hs d d' ∧ QInv env d' from h.1
  induction st with
  | refl =>
    obtain ⟨L, hL, rfl⟩ := hlog
    exact ⟨.refl hL, hi⟩
  | tail st s ih =>
    obtain ⟨h1, h2⟩ := ih
    exact ⟨h1.trans (full_flushStep hquiet h2 h1.log s), qInv_step h2 (.flush s)⟩

/-- Configuration calls neither deliver nor publish nor touch queues. -/
theorem cfg_still {env : Env} {d d' : Del} (st : Star (CfgStep env) d d') :
    d'.trace = d.trace ∧ d'.pub = d.pub ∧ ∀ l, d'.queue l = d.queue l := by
  induction st with
  | refl => exact ⟨rfl, rfl, fun _ => rfl⟩
  | @tail b c _ s ih =>
    have ht : c.trace = b.trace := by cases s <;> rfl
    have hp : c.pub = b.pub := by cases s <;> rfl
    refine ⟨ht.trans ih.1, hp.trans ih.2.1, fun l => ?_⟩
    rw [← ih.2.2 l]
    rcases flow_cfg s 0 l with ⟨_, q, _⟩ | ⟨_, _, _, _, _, _, _, _, pp⟩ | ⟨_, _, _, pp⟩ |
      ⟨x, y, hy, r, q, pp⟩
    · exact q
    · rw [hp] at pp; simp at pp
    · rw [hp] at pp; simp at pp
    · exfalso
      cases s with
      | newLog m L hn hQ hr =>
        rw [Del.queue_upd] at q; split at q
        · subst_vars; simp [Del.queue, hn, hQ] at q
        · have := congrArg List.length q
          simp [Del.queue] at this
      | async m L b hL =>
        rw [Del.queue_upd] at q; split at q
        · subst_vars; simp [Del.queue, hL] at q
        · have := congrArg List.length q
          simp [Del.queue] at this
      | reg m L L' hL hrest hr =>
        simp only [Log.rest, Prod.mk.injEq] at hrest
        rw [Del.queue_upd] at q; split at q
        · subst_vars; simp [Del.queue, hL, hrest] at q
        · have := congrArg List.length q
          simp [Del.queue] at this
      | preflush m L hs hL =>
        rw [Del.queue_upd] at q; split at q
        · subst_vars; simp [Del.queue, hL] at q
        · have := congrArg List.length q
          simp [Del.queue] at this

theorem setAsync_hooks {w : World} {l m : LogId} {b : Bool} {L : Log} (hL : w.logs l = some L) :
    ∃ L', (setAsync w m b).logs l = some L' ∧ L'.hooks = L.hooks ∧ L'.sinks = L.sinks ∧
      L'.preflush = L.preflush ∧ L'.queue = L.queue ∧ L'.async = if l = m then b else L.async := by
  by_cases h : l = m
  · subst h
    simp only [setAsync, hL]
    exact ⟨{ L with async := b }, by simp, rfl, rfl, rfl, rfl, by simp⟩
  · refine ⟨L, ?_, rfl, rfl, rfl, rfl, by simp [h]⟩
    simp only [setAsync]
    split
    · exact hL
    · simp [updLog_ne _ _ h, hL]

theorem foldl_setAsync_hooks {l : LogId} {b : Bool} (ls : List LogId) {w : World} {L : Log}
    (hL : w.logs l = some L) :
    ∃ L', (ls.foldl (fun w l => setAsync w l b) w).logs l = some L' ∧ L'.hooks = L.hooks ∧
      L'.sinks = L.sinks ∧ L'.preflush = L.preflush ∧ L'.queue = L.queue ∧
      L'.async = if l ∈ ls then b else L.async := by
  induction ls generalizing w L with
  | nil => exact ⟨L, hL, rfl, rfl, rfl, rfl, by simp⟩
  | cons m ls ih =>
    obtain ⟨L1, a1, a2, a3, a4, a5, a6⟩ := setAsync_hooks (m := m) (b := b) hL
    obtain ⟨L2, b1, b2, b3, b4, b5, b6⟩ := ih a1
    refine ⟨L2, b1, b2.trans a2, b3.trans a3, b4.trans a4, b5.trans a5, ?_⟩
    rw [b6, a6]
    by_cases h : l = m <;> by_cases h2 : l ∈ ls <;> simp [h, h2]

theorem onLog_other {w : World} {l m : LogId} {f : Log → Log} (h : m ≠ l) :
    (onLog w m f).logs l = w.logs l := by
  simp only [onLog]; split
  · rfl
  · simp [updLog_ne _ _ (Ne.symm h)]

theorem addLogger_logs (w : World) (l : LogId) : (addLogger w l).logs = w.logs := by
  simp only [addLogger]; split <;> rfl

/-- Configuration calls that keep the sinks of `l` keep its hooks. -/
theorem cfg_keeps {env : Env} {w : World} {l : LogId} {L : Log} (hL : w.logs l = some L) (it : Item)
    (hk : it.kind = .cfg) (hs : it.keepsSinks l) :
    ∃ L', (stepItem env w it).logs l = some L' ∧ L'.hooks = L.hooks := by
  cases it with
  | enter a => simp [Item.kind] at hk
  | exit a exc => simp [Item.kind] at hk
  | op o =>
    cases o <;> simp only [Item.kind, reduceCtorEq] at hk <;> dsimp only [stepItem, step]
    case newLogger m ss as =>
      split
      · exact ⟨L, hL, rfl⟩
      · rename_i hm
        rw [addLogger_logs]
        have : l ≠ m := by rintro rfl; simp [hL] at hm
        exact ⟨L, by simp [updLog_ne _ _ this, hL], rfl⟩
    case setAsync m b =>
      obtain ⟨L1, a1, a2, _⟩ := setAsync_hooks (m := m) (b := b) hL
      exact ⟨L1, a1, a2⟩
    case setSinks m ss => exact ⟨L, by rw [onLog_other hs, hL], rfl⟩
    case addSink m s => exact ⟨L, by rw [onLog_other hs, hL], rfl⟩
    case clearSinks m => exact ⟨L, by rw [onLog_other hs, hL], rfl⟩
    case addPreflush m h =>
      by_cases hm : m = l
      · subst hm
        simp only [onLog, hL]
        exact ⟨{ L with preflush := L.preflush ++ [h] }, by simp, rfl⟩
      · exact ⟨L, by rw [onLog_other hm, hL], rfl⟩
    case addNoteHandler h => exact ⟨L, hL, rfl⟩
    case enableAsync u =>
      simp only [enableAsync]
      cases u
      · exact ⟨L, hL, rfl⟩
      · obtain ⟨L1, a1, a2, _⟩ := foldl_setAsync_hooks (b := false) w.ctxLoggers
          (w := { w with ctxAsync := true }) hL
        exact ⟨L1, a1, a2⟩
    case addLogger m =>
      split
      · exact ⟨L, hL, rfl⟩
      · exact ⟨L, by rw [addLogger_logs, hL], rfl⟩
    case removeLogger m => exact ⟨L, hL, rfl⟩

theorem disable_keeps {env : Env} {w : World} {l : LogId} {L : Log} (hL : w.logs l = some L)
    (u : Bool) : ∃ w1 : World, Star (CfgStep env) w.del w1.del ∧
      (∃ L1, w1.logs l = some L1 ∧ L1.hooks = L.hooks) ∧
      Star (FlushStep env) w1.del (disableAsync env w u).1.del := by
  simp only [disableAsync]
  refine ⟨if u then w.ctxLoggers.foldl (fun w l => setAsync w l false) w else w, ?_, ?_, ?_⟩
  · split
    · exact cfg_foldl_setAsync ..
    · exact .refl _
  · split
    · obtain ⟨L1, a1, a2, _⟩ := foldl_setAsync_hooks (b := false) w.ctxLoggers hL
      exact ⟨L1, a1, a2⟩
    · exact ⟨L, hL, rfl⟩
  · generalize (if u then w.ctxLoggers.foldl (fun w l => setAsync w l false) w else w) = w1
    have h := fl_ctxFlush (env := env) w1.ctxLoggers w1
    cases hr : ctxFlush env w1.ctxLoggers w1 with
    | mk w2 r =>
      rw [hr] at h
      cases r <;> exact h

theorem full_item {env : Env} (hquiet : env.Quiet) {w : World} (hg : Good env w) {l : LogId}
    (he : SyncEmpty l w) {L : Log} (hL : w.logs l = some L) (it : Item) (hs : it.keepsSinks l)
    (hroom : HasRoom env l w it) :
    FullStep l L.hooks w.del (stepItem env w it).del := by
  cases hk : it.kind with
  | pub => exact full_pub hquiet ⟨L, hL, rfl⟩ he (pub_item hg.pre it hk) hroom
  | flush => exact full_flush hquiet hg.q ⟨L, hL, rfl⟩ (flush_item it hk)
  | cfg =>
    obtain ⟨h1, h2, h3⟩ := cfg_still (cfg_item (env := env) (w := w) it hk)
    exact .idle (cfg_keeps hL it hk hs) (by rw [h1]) (h3 l) (by rw [h2])
  | disable =>
    cases it with
    | enter a => simp [Item.kind] at hk
    | exit a exc => simp [Item.kind] at hk
    | op o =>
      cases o <;> simp only [Item.kind, reduceCtorEq] at hk
      case disableAsync u =>
        obtain ⟨w1, h1, h2, h3⟩ := disable_keeps (env := env) hL u
        obtain ⟨g1, g2, g3⟩ := cfg_still h1
        have hq1 := h1.inv (P := QInv env) (fun _ _ h s => qInv_step h (.cfg s)) hg.q
        have f1 : FullStep l L.hooks w.del w1.del := .idle h2 (by rw [g1]) (g3 l) (by rw [g2])
        exact f1.trans (full_flush hquiet hq1 h2 h3)

theorem full_run {env : Env} (hquiet : env.Quiet) {w : World} (hg : Good env w)
    {l : LogId} {L : Log} (hL : w.logs l = some L) (its : List Item)
    (he : Along env (SyncEmpty l) w its)
    (hs : ∀ it ∈ its, it.keepsSinks l) (hroom : AlongStep env (HasRoom env l) w its) :
    FullStep l L.hooks w.del (run env w its).del := by
  induction its generalizing w L with
  | nil => exact .refl hL
  | cons it its ih =>
    obtain ⟨h1, h2⟩ := he.cons
    have f1 := full_item hquiet hg h1 hL it (hs it (by simp)) hroom.1
    obtain ⟨L', hL', hh⟩ := f1.log
    have f2 := ih (hg.item it) hL' h2 (fun i hi => hs i (by simp [hi])) hroom.2
    rw [hh] at f2
    exact f1.trans f2

end Verif
