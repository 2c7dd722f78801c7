import Verif.Lemmas.Queue
import Mathlib.Data.List.Forall2
/-!
# Delivery when hooks may raise

The counterpart of `Full.lean` without `Env.Quiet`: events leave the queue in order, and each is handed to
a prefix of the hooks it should reach.
-/
namespace Verif
open scoped List
attribute [local irreducible] QUEUE_LIMIT

/-- Since `d0`, on logger `l` with hook lists `hooks`: the events handled are the oldest of those queued or
published; each reached a prefix of its hooks. -/
structure PartStep (l : LogId) (hooks : Kind → List SinkId) (d0 d : Del) : Prop where
  log : ∃ L, d.logs l = some L ∧ L.hooks = hooks
  flow : ∀ L : Log, L.hooks = hooks → ∃ H T N, deliveries l d.trace = deliveries l d0.trace ++ T.flatten ∧
    ofLogger l d.pub = ofLogger l d0.pub ++ N ∧ H ++ d.queue l = d0.queue l ++ N ∧
    List.Forall₂ (fun (p : Kind × Event) t => t <+: hookCalls L p.1 p.2) H T

theorem PartStep.refl {l : LogId} {L : Log} {d : Del} (h : d.logs l = some L) :
    PartStep l L.hooks d d :=
  ⟨⟨L, h, rfl⟩, fun _ _ => ⟨[], [], [], by simp, by simp, by simp, .nil⟩⟩

theorem Forall₂.append' {α β : Type} {R : α → β → Prop} {a c : List α} {b d : List β}
    (h : List.Forall₂ R a b) (g : List.Forall₂ R c d) : List.Forall₂ R (a ++ c) (b ++ d) := by
  induction h with
  | nil => simpa using g
  | cons x _ ih => exact .cons x ih

theorem PartStep.trans {l : LogId} {hs : Kind → List SinkId} {a b c : Del} (h : PartStep l hs a b)
    (g : PartStep l hs b c) : PartStep l hs a c := by
  refine ⟨g.log, fun L hL => ?_⟩
  obtain ⟨H1, T1, N1, a1, a2, a3, a4⟩ := h.flow L hL
  obtain ⟨H2, T2, N2, b1, b2, b3, b4⟩ := g.flow L hL
  refine ⟨H1 ++ H2, T1 ++ T2, N1 ++ N2, ?_, ?_, ?_, Forall₂.append' a4 b4⟩
  · rw [b1, a1]; simp
  · rw [b2, a2]; simp
  · rw [List.append_assoc, b3, ← List.append_assoc, a3]; simp

theorem PartStep.idle {l : LogId} {hs : Kind → List SinkId} {d d' : Del}
    (hlog : ∃ L, d'.logs l = some L ∧ L.hooks = hs)
    (ht : deliveries l d'.trace = deliveries l d.trace) (hq : d'.queue l = d.queue l)
    (hp : ofLogger l d'.pub = ofLogger l d.pub) : PartStep l hs d d' :=
  ⟨hlog, fun _ _ => ⟨[], [], [], by simp [ht], by simp [hp], by simp [hq], .nil⟩⟩

theorem deliveries_ran {env : Env} {l : LogId} {L : Log} {k : Kind} {e : Event} (hx : k ≠ .exception)
    (tr : List Obs) :
    deliveries l (ran env (hookCalls L k e) tr).1 =
      if e.logger = l then (ran env (hookCalls L k e) tr).1 else [] := by
  have hp := ran_prefix env (hookCalls L k e) tr
  have hall : ∀ o ∈ (ran env (hookCalls L k e) tr).1, ∃ s, o = Obs.hook s k e := by
    intro o ho
    have := hp.subset ho
    simp only [hookCalls, List.mem_map] at this
    obtain ⟨s, _, rfl⟩ := this; exact ⟨s, rfl⟩
  generalize (ran env (hookCalls L k e) tr).1 = t at *
  split
  · rename_i h
    rw [deliveries, List.filter_eq_self]
    intro o ho; obtain ⟨s, rfl⟩ := hall o ho; simp [hx, h]
  · rename_i h
    rw [deliveries, List.filter_eq_nil_iff]
    intro o ho; obtain ⟨s, rfl⟩ := hall o ho; simp [h]

theorem deliveries_ranExc {env : Env} {l : LogId} {L : Log} {e : Event} (tr : List Obs) :
    deliveries l (ran env (hookCalls L .exception e) tr).1 = [] := by
  have hp := ran_prefix env (hookCalls L .exception e) tr
  rw [deliveries, List.filter_eq_nil_iff]
  intro o ho
  have := hp.subset ho
  simp only [hookCalls, List.mem_map] at this
  obtain ⟨s, _, rfl⟩ := this; simp

theorem part_sync {env : Env} {l m : LogId} {hs : Kind → List SinkId}
    {d : Del} {L : Log} {k : Kind} {e : Event}
    (hlog : ∃ L, d.logs l = some L ∧ L.hooks = hs) (hL : d.logs m = some L) (he : d.SyncEmpty l)
    (ha : L.async = false) (hl : e.logger = m) (hx : k ≠ .exception) :
    PartStep l hs d
      ⟨d.trace ++ (ran env (hookCalls L k e) d.trace).1, d.logs, d.pub ++ [(k, e)]⟩ := by
  by_cases h : l = m
  · subst h
    obtain ⟨L0, hL0, hh⟩ := hlog
    rw [hL] at hL0; cases hL0
    refine ⟨⟨L, hL, hh⟩, fun M hM => ⟨[(k, e)], [(ran env (hookCalls L k e) d.trace).1], [(k, e)],
      ?_, ?_, ?_, ?_⟩⟩
    · simp [deliveries_ran hx, hl]
    · simp [ofLogger_single, hx, hl]
    · have hq : d.queue l = [] := by simp [Del.queue, hL, he L hL ha]
      have hq' : (⟨d.trace ++ (ran env (hookCalls L k e) d.trace).1, d.logs, d.pub ++ [(k, e)]⟩ :
        Del).queue l = [] := hq
      rw [hq, hq']; simp
    · refine .cons ?_ .nil
      rw [hookCalls_congr (hM.trans hh.symm)]
      exact ran_prefix ..
  · refine .idle hlog ?_ rfl ?_
    · simp [deliveries_ran hx, hl, Ne.symm h]
    · simp [ofLogger_ne hl h (List.Sublist.refl [(k, e)])]

theorem part_async {lim : Nat} {l m : LogId} {hs : Kind → List SinkId} {d : Del} {L : Log} {k : Kind}
    {e : Event} (hlog : ∃ L, d.logs l = some L ∧ L.hooks = hs) (hL : d.logs m = some L)
    (hl : e.logger = m) (hx : k ≠ .exception)
    (hroom : room l d + (ofLogger l (d.pub ++ [(k, e)])).length ≤ lim + (ofLogger l d.pub).length) :
    PartStep l hs d ⟨d.trace, updLog d.logs m { L with queue := pushBounded lim L.queue (k, e) },
        d.pub ++ [(k, e)]⟩ := by
  by_cases h : l = m
  · subst h
    obtain ⟨L0, hL0, hh⟩ := hlog
    rw [hL] at hL0; cases hL0
    refine ⟨⟨_, updLog_same _ _ _, hh⟩, fun M hM => ⟨[], [], [(k, e)], by simp, ?_, ?_, .nil⟩⟩
    · simp [ofLogger_single, hx, hl]
    · have hq : d.queue l = L.queue := by simp [Del.queue, hL]
      rw [Del.queue_upd, if_pos rfl, hq]
      simp only [List.nil_append]
      have hlen : L.queue.length + 1 ≤ lim := by
        refine room_arith (a := (ofLogger l d.pub).length) ?_
        simpa [ofLogger_single, hx, hl, room, hq] using hroom
      rw [pushBounded_room hlen]
  · refine .idle ?_ rfl ?_ ?_
    · obtain ⟨L0, hL0, hh⟩ := hlog
      exact ⟨L0, by rw [← hL0]; exact updLog_ne _ _ h, hh⟩
    · rw [Del.queue_upd, if_neg h]; rfl
    · simp [ofLogger_ne hl h (List.Sublist.refl [(k, e)])]

theorem part_pubStep {env : Env} {l : LogId} {hs : Kind → List SinkId}
    {d d' : Del} (hlog : ∃ L, d.logs l = some L ∧ L.hooks = hs) (he : d.SyncEmpty l)
    (hroom : room l d + (ofLogger l d'.pub).length ≤ QUEUE_LIMIT + (ofLogger l d.pub).length)
    (st : PubStep env d d') : PartStep l hs d d' := by
  cases st with
  | sync m L k e hL ha hl hk hx => exact part_sync hlog hL he ha hl hx
  | async m L k e hL ha hl hk hx => exact part_async hlog hL hl hx hroom
  | exc m L e hL hl hk => exact .idle hlog (by simp [deliveries_ranExc]) rfl rfl
  | note t ht => exact .idle hlog (by simp [deliveries_noHook l ht]) rfl rfl

theorem part_pub {env : Env} {l : LogId} {hs : Kind → List SinkId}
    {d d' : Del} (hlog : ∃ L, d.logs l = some L ∧ L.hooks = hs) (he : d.SyncEmpty l)
    (st : Star (PubStep env) d d')
    (hroom : room l d + (ofLogger l d'.pub).length ≤ QUEUE_LIMIT + (ofLogger l d.pub).length) :
    PartStep l hs d d' := by
  suffices h : PartStep l hs d d' ∧ d'.SyncEmpty l ∧
      room l d' + (ofLogger l d.pub).length ≤ room l d + (ofLogger l d'.pub).length from h.1
  induction st with
  | refl =>
    obtain ⟨L, hL, rfl⟩ := hlog
    exact ⟨.refl hL, he, Nat.le_refl _⟩
  | @tail b c st s ih =>
    have hg := pub_grow (env := env) l s
    obtain ⟨h1, h2, h3⟩ := ih (by omega)
    refine ⟨h1.trans (part_pubStep h1.log h2 (by omega) s), syncEmpty_pub h2 s, by omega⟩

theorem part_flushStep {env : Env} {l : LogId} {hs : Kind → List SinkId}
    {d d' : Del} (hi : QInv env d) (hlog : ∃ L, d.logs l = some L ∧ L.hooks = hs)
    (st : FlushStep env d d') : PartStep l hs d d' := by
  cases st with
  | pop m L k e q hL hQ hx =>
    have hl : e.logger = m := (hi.q m k e (by simp [Del.queue, hL, hQ])).1
    by_cases h : l = m
    · subst h
      obtain ⟨L0, hL0, hh⟩ := hlog
      rw [hL] at hL0; cases hL0
      refine ⟨⟨_, updLog_same _ _ _, hh⟩, fun M hM => ⟨[(k, e)],
        [(ran env (hookCalls L k e) d.trace).1], [], ?_, by simp, ?_, ?_⟩⟩
      · simp [deliveries_ran hx, hl]
      · rw [Del.queue_upd, if_pos rfl]
        simp [Del.queue, hL, hQ]
      · refine .cons ?_ .nil
        rw [hookCalls_congr (hM.trans hh.symm)]
        exact ran_prefix ..
    · refine .idle ?_ ?_ ?_ rfl
      · obtain ⟨L0, hL0, hh⟩ := hlog
        exact ⟨L0, by rw [← hL0]; exact updLog_ne _ _ h, hh⟩
      · simp [deliveries_ran hx, hl, Ne.symm h]
      · rw [Del.queue_upd, if_neg h]; rfl
  | popExc m L e q t hL hQ ht =>
    exact absurd rfl (hi.q m .exception e (by simp [Del.queue, hL, hQ])).2.2.1
  | other t ht => exact .idle hlog (by simp [deliveries_noHook l ht]) rfl rfl
  | stamp m L t hL =>
    refine .idle ?_ rfl ?_ rfl
    · obtain ⟨L0, hL0, hh⟩ := hlog
      by_cases h : l = m
      · subst h
        rw [hL] at hL0; cases hL0
        exact ⟨_, updLog_same _ _ _, hh⟩
      · exact ⟨L0, by rw [← hL0]; exact updLog_ne _ _ h, hh⟩
    · rw [Del.queue_upd]; split
      · subst_vars; simp [Del.queue, hL]
      · rfl

theorem part_flush {env : Env} {l : LogId} {hs : Kind → List SinkId}
    {d d' : Del} (hi : QInv env d) (hlog : ∃ L, d.logs l = some L ∧ L.hooks = hs)
    (st : Star (FlushStep env) d d') : PartStep l hs d d' := by
  suffices h : PartStep l hs d d' ∧ QInv env d' from h.1
  induction st with
  | refl =>
    obtain ⟨L, hL, rfl⟩ := hlog
    exact ⟨.refl hL, hi⟩
  | tail st s ih =>
    obtain ⟨h1, h2⟩ := ih
    exact ⟨h1.trans (part_flushStep h2 h1.log s), qInv_step h2 (.flush s)⟩

theorem part_item {env : Env} {w : World} (hg : Good env w) {l : LogId}
    (he : SyncEmpty l w) {L : Log} (hL : w.logs l = some L) (it : Item) (hs : it.keepsSinks l)
    (hroom : HasRoom env l w it) :
    PartStep l L.hooks w.del (stepItem env w it).del := by
  cases hk : it.kind with
  | pub => exact part_pub ⟨L, hL, rfl⟩ he (pub_item hg.pre it hk) hroom
  | flush => exact part_flush hg.q ⟨L, hL, rfl⟩ (flush_item it hk)
  | cfg =>
    obtain ⟨h1, h2, h3⟩ := cfg_still (cfg_item (env := env) (w := w) it hk)
    exact .idle (cfg_keeps hL it hk hs) (by rw [h1]) (h3 l) (by rw [h2])
  | disable =>
    obtain ⟨u, rfl⟩ := item_disable hk
    obtain ⟨w1, h1, h2, h3⟩ := disable_keeps (env := env) hL u
    obtain ⟨g1, g2, g3⟩ := cfg_still h1
    have hq1 := h1.inv (P := QInv env) (fun _ _ h s => qInv_step h (.cfg s)) hg.q
    have f1 : PartStep l L.hooks w.del w1.del := .idle h2 (by rw [g1]) (g3 l) (by rw [g2])
    exact f1.trans (part_flush hq1 h2 h3)

theorem part_run {env : Env} {w : World} (hg : Good env w)
    {l : LogId} {L : Log} (hL : w.logs l = some L) (its : List Item)
    (he : Along env (SyncEmpty l) w its)
    (hs : ∀ it ∈ its, it.keepsSinks l) (hroom : AlongStep env (HasRoom env l) w its) :
    PartStep l L.hooks w.del (run env w its).del := by
  induction its generalizing w L with
  | nil => exact .refl hL
  | cons it its ih =>
    obtain ⟨h1, h2⟩ := he.cons
    have f1 := part_item hg h1 hL it (hs it (by simp)) hroom.1
    obtain ⟨L', hL', hh⟩ := f1.log
    have f2 := ih (hg.item it) hL' h2 (fun i hi => hs i (by simp [hi])) hroom.2
    rw [hh] at f2
    exact f1.trans f2

/-! ## One flush -/

/-- What `drain` does when hooks may raise. -/
theorem drain_spec {env : Env} (l : LogId) (L : Log) (q : List (Kind × Event))
    (hq : ∀ k e, (k, e) ∈ q → k ≠ .exception) (w : World) :
    ((drain env l L q w).2 = none ∧ (drain env l L q w).1.trace = w.trace ++ expand L q ∧
      (drain env l L q w).1.logs l = some { L with queue := [] }) ∨
    ∃ x done k e rest t, (drain env l L q w).2 = some x ∧ q = done ++ (k, e) :: rest ∧
      (drain env l L q w).1.trace = w.trace ++ expand L done ++ t ∧ t <+: hookCalls L k e ∧ t ≠ [] ∧
      (drain env l L q w).1.logs l = some { L with queue := rest } := by
  induction q generalizing w with
  | nil => left; simp [drain, expand]
  | cons p q ih =>
    obtain ⟨k, e⟩ := p
    have hk : k ≠ .exception := hq k e (by simp)
    have hd : deliver env L k e (w.setLog l { L with queue := q }) =
        callAll env (hookCalls L k e) (w.setLog l { L with queue := q }) := by
      cases k <;> first | rfl | exact absurd rfl hk
    simp only [drain, hd, callAll_eq]
    cases hr : (ran env (hookCalls L k e) (w.setLog l { L with queue := q }).trace).2 with
    | none =>
      have hfull := ran_none _ _ _ hr
      simp only [hfull]
      rcases ih (fun k e h => hq k e (by simp [h]))
        ((w.setLog l { L with queue := q }).logged (hookCalls L k e)) with
        ⟨h1, h2, h3⟩ | ⟨x, dn, k', e', rest, t, h1, h2, h3, h4, h4', h5⟩
      · left
        refine ⟨h1, ?_, h3⟩
        rw [h2]; simp [World.logged, World.setLog, expand]
      · right
        refine ⟨x, (k, e) :: dn, k', e', rest, t, h1, by simp [h2], ?_, h4, h4', h5⟩
        rw [h3]; simp [World.logged, World.setLog, expand]
    | some x =>
      right
      refine ⟨x, [], k, e, q, (ran env (hookCalls L k e) w.trace).1, rfl, rfl, ?_, ran_prefix .., ?_, ?_⟩
      · simp [World.logged, World.setLog, expand]
      · obtain ⟨pre, o, post, _, h2, _⟩ := ran_split hr
        rw [show (ran env (hookCalls L k e) w.trace).1 = pre ++ [o] from h2]; simp
      · simp [World.logged]

/-- Preflush hooks and notes are not deliveries. -/
theorem runPreflush_noHook {env : Env} (l : LogId) (hs : List Nat) (w : World) :
    ∃ t, (runPreflush env l hs w).1.trace = w.trace ++ t ∧ ∀ o ∈ t, o.isHook = false := by
  induction hs generalizing w with
  | nil => exact ⟨[], by simp [runPreflush], by simp⟩
  | cons h hs ih =>
    simp only [runPreflush, callback]
    have step : ∀ w1 t0, w1.trace = w.trace ++ t0 → (∀ o ∈ t0, Obs.isHook o = false) →
        ∃ t, (runPreflush env l hs w1).1.trace = w.trace ++ t ∧ ∀ o ∈ t, o.isHook = false := by
      intro w1 t0 ht0 hno
      obtain ⟨t, h1, h2⟩ := ih w1
      refine ⟨t0 ++ t, by rw [h1, ht0]; simp, ?_⟩
      intro o ho; rcases List.mem_append.1 ho with ho | ho
      · exact hno o ho
      · exact h2 o ho
    cases hr : env.raises w.trace (.preflush l h) with
    | none => exact step _ [.preflush l h] rfl (by simp [Obs.isHook])
    | some e =>
      dsimp only
      cases e.cls with
      | baseOnly => exact ⟨[.preflush l h], rfl, by simp [Obs.isHook]⟩
      | ordinary =>
        dsimp only
        rw [noteAll_eq]
        have hn := note_noHook (env := env) (n := "preflush") (hs := w.noteHandlers)
          (tr := w.trace ++ [.preflush l h])
        have hn' : ∀ o ∈ [Obs.preflush l h] ++ (ran env (w.noteHandlers.map fun h => Obs.note h "preflush")
            (w.trace ++ [.preflush l h])).1, Obs.isHook o = false := by
          intro o ho
          rcases List.mem_append.1 ho with ho | ho
          · simp at ho; subst ho; rfl
          · exact hn o ho
        dsimp only
        cases hx : (ran env (w.noteHandlers.map fun h => Obs.note h "preflush")
            (w.trace ++ [.preflush l h])).2 with
        | none => exact step _ _ (by simp [World.logged]) hn'
        | some y => exact ⟨_, by simp [World.logged], hn'⟩

/-- What `flush` does when hooks may raise, seen from logger `l`. -/
theorem flush_spec {env : Env} {w : World} {l : LogId} {L : Log} (hL : w.logs l = some L)
    (hi : QInv env w.del) :
    ((flush env w l).2 = none ∧
      deliveries l (flush env w l).1.trace = deliveries l w.trace ++ expand L L.queue ∧
      queued (flush env w l).1 l = []) ∨
    (∃ x, (flush env w l).2 = some x ∧ deliveries l (flush env w l).1.trace = deliveries l w.trace ∧
      queued (flush env w l).1 l = L.queue) ∨
    ∃ x done p rest t, (flush env w l).2 = some x ∧ L.queue = done ++ p :: rest ∧
      deliveries l (flush env w l).1.trace = deliveries l w.trace ++ expand L done ++ t ∧
      t <+: expand L [p] ∧ t ≠ [] ∧ queued (flush env w l).1 l = rest := by
  simp only [flush, hL]
  obtain ⟨hfl, hlogs⟩ := fl_runPreflush (env := env) l L.preflush w
  have hno := runPreflush_noHook (env := env) l L.preflush w
  have hq := hi.kinds hL
  cases hr : runPreflush env l L.preflush w with
  | mk w1 x =>
    rw [hr] at hlogs hno
    obtain ⟨t0, ht0, hnt⟩ := hno
    dsimp only at hlogs ht0
    have hd0 : deliveries l w1.trace = deliveries l w.trace := by
      rw [ht0]; simp [deliveries_noHook l hnt]
    have hexp : ∀ q : List (Kind × Event), (∀ p ∈ q, p.1 ≠ .exception ∧ p.2.logger = l) →
        deliveries l (expand L q) = expand L q := by
      intro q hq
      induction q with
      | nil => rfl
      | cons p q ih =>
        rw [show p :: q = [p] ++ q from rfl, expand_append, deliveries_append,
          ih (fun p hp => hq p (by simp [hp]))]
        congr 1
        have := hq p (by simp)
        simp [expand, deliveries_hookCalls, this]
    have hql : ∀ p ∈ L.queue, p.1 ≠ .exception ∧ p.2.logger = l := by
      intro p hp
      have := hi.q l p.1 p.2 (by simpa [Del.queue, World.del, hL] using hp)
      exact ⟨this.2.2.1, this.1⟩
    cases x with
    | some x =>
      right; left
      refine ⟨x, rfl, hd0, ?_⟩
      simp only [queued, hlogs, hL]
    | none =>
      dsimp only
      rcases drain_spec (env := env) l L L.queue hq w1 with
        ⟨h1, h2, h3⟩ | ⟨x, dn, k', e', rest, t, h1, h2, h3, h4, h4', h5⟩
      · cases hd : drain env l L L.queue w1 with
        | mk w2 y =>
          rw [hd] at h1 h2 h3
          dsimp only at h1 h2 h3
          subst h1
          left
          refine ⟨rfl, ?_, ?_⟩
          · show deliveries l w2.trace = _
            rw [h2, deliveries_append, hd0, hexp _ hql]
          · simp [queued]
      · cases hd : drain env l L L.queue w1 with
        | mk w2 y =>
          rw [hd] at h1 h3 h5
          dsimp only at h1 h3 h5
          subst h1
          right; right
          refine ⟨x, dn, (k', e'), rest, t, rfl, h2, ?_, ?_, h4', ?_⟩
          · show deliveries l w2.trace = _
            rw [h3, deliveries_append, deliveries_append, hd0,
              hexp dn (fun p hp => hql p (by rw [h2]; simp [hp]))]
            congr 1
            have hp := hql (k', e') (by rw [h2]; simp)
            rw [deliveries, List.filter_eq_self]
            intro o ho
            have := h4.subset ho
            simp only [hookCalls, List.mem_map] at this
            obtain ⟨s, _, rfl⟩ := this
            have h1 : k' ≠ .exception := hp.1
            have h2 : e'.logger = l := hp.2
            simp [h1, h2]
          · simpa [expand] using h4
          · simp only [queued, h5]

end Verif
