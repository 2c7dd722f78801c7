import Verif.Lemmas.Received
/-!
# Histories that keep a logger's mode
-/
namespace Verif
open scoped List
attribute [local irreducible] QUEUE_LIMIT

/-- What the items of kind `cfg` do to one logger. -/
theorem cfg_log {env : Env} (w : World) (l : LogId) (it : Item) (hk : it.kind = .cfg) :
    ((stepItem env w it).logs l = none ∧ w.logs l = none) ∨
    (∃ L', (stepItem env w it).logs l = some L' ∧ w.logs l = none ∧ L'.queue = []) ∨
    (∃ L L', w.logs l = some L ∧ (stepItem env w it).logs l = some L' ∧ L'.queue = L.queue ∧
      (L'.async = L.async ∨ (∃ b, it = .op (.setAsync l b) ∧ L'.async = b) ∨
        (it = .op (.enableAsync true) ∧ L'.async = false))) := by
  cases hl : w.logs l with
  | none =>
    cases hs : (stepItem env w it).logs l with
    | none => exact .inl ⟨rfl, rfl⟩
    | some L' =>
      refine .inr (.inl ⟨L', rfl, rfl, ?_⟩)
      have h := (cfg_still (cfg_item (env := env) (w := w) it hk)).2.2 l
      simpa [Del.queue, World.del, hs, hl] using h
  | some L =>
    refine .inr (.inr ?_)
    cases it with
    | enter a => simp [Item.kind] at hk
    | exit a exc => simp [Item.kind] at hk
    | op o =>
      have same : ∀ w' : World, w'.logs l = some L → ∃ L0 L', some L = some L0 ∧
          w'.logs l = some L' ∧ L'.queue = L0.queue ∧
          (L'.async = L0.async ∨ (∃ b, Item.op o = .op (.setAsync l b) ∧ L'.async = b) ∨
          (Item.op o = .op (.enableAsync true) ∧ L'.async = false)) :=
        fun w' h => ⟨L, L, rfl, h, rfl, .inl rfl⟩
      have reg : ∀ (m : LogId) (f : Log → Log), (∀ L, (f L).queue = L.queue ∧ (f L).async = L.async) →
          ∃ L0 L', some L = some L0 ∧ (onLog w m f).logs l = some L' ∧ L'.queue = L0.queue ∧
          (L'.async = L0.async ∨ (∃ b, Item.op o = .op (.setAsync l b) ∧ L'.async = b) ∨
          (Item.op o = .op (.enableAsync true) ∧ L'.async = false)) := by
        intro m f hf
        by_cases h : m = l
        · subst h
          refine ⟨L, f L, rfl, ?_, (hf L).1, .inl (hf L).2⟩
          simp [onLog, hl]
        · exact ⟨L, L, rfl, by rw [onLog_other h, hl], rfl, .inl rfl⟩
      have rest : ∀ {L M : Log}, M.rest = L.rest → M.queue = L.queue ∧ M.async = L.async := by
        intro L M h; simp only [Log.rest, Prod.mk.injEq] at h; exact ⟨h.2.1, h.1⟩
      cases o <;> simp only [Item.kind, reduceCtorEq] at hk <;> dsimp only [stepItem, step]
      case newLogger m ss as =>
        split
        · exact same _ hl
        · rename_i hm
          have : l ≠ m := by rintro rfl; simp [hl] at hm
          exact same _ (by rw [addLogger_logs]; simp [updLog_ne _ _ this, hl])
      case setAsync m b =>
        obtain ⟨L1, a1, -, -, -, a5, a6⟩ := setAsync_hooks (m := m) (b := b) hl
        refine ⟨L, L1, rfl, a1, a5, ?_⟩
        by_cases h : l = m
        · subst h; simp only [if_true] at a6; exact .inr (.inl ⟨b, rfl, a6⟩)
        · rw [if_neg h] at a6; exact .inl a6
      case setSinks m ss => exact reg m _ fun L => rest (setSinks_rest ..)
      case addSink m s => exact reg m _ fun L => rest (addSink_rest ..)
      case clearSinks m => exact reg m _ fun L => rest (setSinks_rest ..)
      case addPreflush m h => exact reg m _ fun L => ⟨rfl, rfl⟩
      case addNoteHandler h => exact same _ hl
      case enableAsync u =>
        simp only [enableAsync]
        cases u
        · exact same _ hl
        · obtain ⟨L1, a1, -, -, -, a5, a6⟩ := foldl_setAsync_hooks (b := false) w.ctxLoggers
            (w := { w with ctxAsync := true }) hl
          refine ⟨L, L1, rfl, a1, a5, ?_⟩
          split at a6
          · exact .inr (.inr ⟨rfl, a6⟩)
          · exact .inl a6
      case addLogger m =>
        split
        · exact same _ hl
        · exact same _ (by rw [addLogger_logs, hl])
      case removeLogger m => exact same _ hl

theorem disable_false {env : Env} (w : World) : Star (FlushStep env) w.del (disableAsync env w false).1.del := by
  simp only [disableAsync, Bool.false_eq_true, if_false]
  have h := fl_ctxFlush (env := env) w.ctxLoggers w
  cases hr : ctxFlush env w.ctxLoggers w with
  | mk w2 r => rw [hr] at h; cases r <;> exact h

theorem item_disable {it : Item} (h : it.kind = .disable) : ∃ u, it = .op (.disableAsync u) := by
  cases it with
  | enter a => simp [Item.kind] at h
  | exit a exc => simp [Item.kind] at h
  | op o => cases o <;> simp only [Item.kind, reduceCtorEq] at h; exact ⟨_, rfl⟩

theorem syncEmpty_item {env : Env} {w : World} (hg : Good env w) {l : LogId} (he : SyncEmpty l w)
    (it : Item) (hm : it.keepsMode l) : SyncEmpty l (stepItem env w it) := by
  cases hk : it.kind with
  | pub => exact (pub_item hg.pre it hk).inv (P := fun d => d.SyncEmpty l) (fun _ _ => syncEmpty_pub) he
  | flush => exact (flush_item it hk).inv (P := fun d => d.SyncEmpty l) (fun _ _ => syncEmpty_flush) he
  | cfg =>
    intro M hM hA
    rcases cfg_log (env := env) w l it hk with ⟨h, _⟩ | ⟨L', h, _, hq⟩ | ⟨L, L', hL, h, hq, hA'⟩
    · rw [h] at hM; cases hM
    · rw [h] at hM; cases hM; exact hq
    · rw [h] at hM; cases hM
      rw [hq]
      rcases hA' with e | ⟨b, rfl, e⟩ | ⟨rfl, e⟩
      · exact he L hL (by rw [← e]; exact hA)
      · have := hm rfl; rw [hA] at e; rw [← e] at this; cases this
      · cases hm
  | disable =>
    obtain ⟨u, rfl⟩ := item_disable hk
    have hu : u = false := hm
    subst hu
    exact (disable_false w).inv (P := fun d => d.SyncEmpty l) (fun _ _ => syncEmpty_flush) he

theorem syncEmpty_along {env : Env} {w : World} (hg : Good env w) {l : LogId} (he : SyncEmpty l w)
    (its : List Item) (hm : ∀ it ∈ its, it.keepsMode l) : Along env (SyncEmpty l) w its := by
  intro pre hp
  have hm' : ∀ it ∈ pre, it.keepsMode l := fun it h => hm it (hp.subset h)
  clear hp hm
  induction pre generalizing w with
  | nil => exact he
  | cons it pre ih =>
    exact ih (hg.item it) (syncEmpty_item hg he it (hm' it (by simp)))
      (fun i h => hm' i (by simp [h]))

theorem syncEmpty_init (l : LogId) : SyncEmpty l World.init := by
  intro L h; simp [World.init] at h

/-! ## Synchronous loggers -/

/-- Logger `l` exists, is synchronous and has an empty queue. -/
def Del.SyncAt (d : Del) (l : LogId) (hs : Kind → List SinkId) : Prop :=
  ∃ L, d.logs l = some L ∧ L.async = false ∧ L.queue = [] ∧ L.hooks = hs

theorem Del.SyncAt.syncEmpty {d : Del} {l : LogId} {hs : Kind → List SinkId} (h : d.SyncAt l hs) :
    d.SyncEmpty l := by
  obtain ⟨L, hL, _, hq, _⟩ := h
  intro M hM _; rw [hL] at hM; cases hM; exact hq

theorem Del.SyncAt.log {d : Del} {l : LogId} {hs : Kind → List SinkId} (h : d.SyncAt l hs) :
    ∃ L, d.logs l = some L ∧ L.hooks = hs := by
  obtain ⟨L, hL, _, _, hh⟩ := h; exact ⟨L, hL, hh⟩

theorem syncAt_pubStep {env : Env} (hquiet : env.Quiet) {l : LogId} {hs : Kind → List SinkId}
    {d d' : Del} (h : d.SyncAt l hs) (st : PubStep env d d') :
    FullStep l hs d d' ∧ d'.SyncAt l hs := by
  cases st with
  | sync m L k e hL ha hl hk hx => exact ⟨full_sync hquiet h.log hL h.syncEmpty ha hl hx, h⟩
  | async m L k e hL ha hl hk hx =>
    obtain ⟨L0, h1, h2, h3, h4⟩ := h
    have hne : l ≠ m := by
      rintro rfl; rw [hL] at h1; cases h1; rw [ha] at h2; cases h2
    refine ⟨.idle ⟨L0, by rw [← h1]; exact updLog_ne _ _ hne, h4⟩ rfl ?_ ?_,
      L0, by rw [← h1]; exact updLog_ne _ _ hne, h2, h3, h4⟩
    · rw [Del.queue_upd, if_neg hne]; rfl
    · simp [ofLogger_ne hl hne (List.Sublist.refl [(k, e)])]
  | exc m L e hL hl hk =>
    refine ⟨.idle h.log ?_ rfl rfl, h⟩
    simp [ran_quiet hquiet, deliveries_hookCalls]
  | note t ht => exact ⟨.idle h.log (by simp [deliveries_noHook l ht]) rfl rfl, h⟩

theorem syncAt_flushStep {env : Env} (hquiet : env.Quiet) {l : LogId} {hs : Kind → List SinkId}
    {d d' : Del} (hi : QInv env d) (h : d.SyncAt l hs) (st : FlushStep env d d') :
    FullStep l hs d d' ∧ d'.SyncAt l hs := by
  refine ⟨full_flushStep hquiet hi h.log st, ?_⟩
  obtain ⟨L0, h1, h2, h3, h4⟩ := h
  cases st with
  | other => exact ⟨L0, h1, h2, h3, h4⟩
  | pop m L k e q hL hQ =>
    have hne : l ≠ m := by
      rintro rfl; rw [hL] at h1; cases h1; rw [h3] at hQ; cases hQ
    exact ⟨L0, by rw [← h1]; exact updLog_ne _ _ hne, h2, h3, h4⟩
  | popExc m L e q t hL hQ =>
    have hne : l ≠ m := by
      rintro rfl; rw [hL] at h1; cases h1; rw [h3] at hQ; cases hQ
    exact ⟨L0, by rw [← h1]; exact updLog_ne _ _ hne, h2, h3, h4⟩
  | stamp m L t hL =>
    by_cases hne : l = m
    · subst hne; rw [hL] at h1; cases h1
      exact ⟨_, updLog_same _ _ _, h2, h3, h4⟩
    · exact ⟨L0, by rw [← h1]; exact updLog_ne _ _ hne, h2, h3, h4⟩

theorem syncAt_flush {env : Env} (hquiet : env.Quiet) {l : LogId} {hs : Kind → List SinkId}
    {d d' : Del} (hi : QInv env d) (h : d.SyncAt l hs) (st : Star (FlushStep env) d d') :
    FullStep l hs d d' ∧ d'.SyncAt l hs := by
  suffices g : QInv env d' ∧ FullStep l hs d d' ∧ d'.SyncAt l hs from g.2
  refine st.inv (P := fun x => QInv env x ∧ FullStep l hs d x ∧ x.SyncAt l hs) ?_ ?_
  · intro a b ⟨g0, g1, g2⟩ s
    have := syncAt_flushStep hquiet g0 g2 s
    exact ⟨qInv_step g0 (.flush s), g1.trans this.1, this.2⟩
  · obtain ⟨L, hL, hh⟩ := h.log
    subst hh
    exact ⟨hi, .refl hL, h⟩

theorem syncAt_item {env : Env} (hquiet : env.Quiet) {w : World} (hg : Good env w) {l : LogId}
    {hs : Kind → List SinkId} (h : w.del.SyncAt l hs) (it : Item) (hm : it.staysSync l)
    (hk' : it.keepsSinks l) :
    FullStep l hs w.del (stepItem env w it).del ∧ (stepItem env w it).del.SyncAt l hs := by
  cases hk : it.kind with
  | pub =>
    refine (pub_item hg.pre it hk).inv (P := fun x => FullStep l hs w.del x ∧ x.SyncAt l hs) ?_ ?_
    · intro a b ⟨g1, g2⟩ s
      have := syncAt_pubStep hquiet g2 s
      exact ⟨g1.trans this.1, this.2⟩
    · obtain ⟨L, hL, hh⟩ := h.log
      subst hh
      exact ⟨.refl hL, h⟩
  | flush => exact syncAt_flush hquiet hg.q h (flush_item it hk)
  | cfg =>
    obtain ⟨L, hL, ha, hq, hh⟩ := h
    obtain ⟨h1, h2, h3⟩ := cfg_still (cfg_item (env := env) (w := w) it hk)
    obtain ⟨L', hL', hh'⟩ := cfg_keeps (env := env) hL it hk hk'
    refine ⟨.idle ⟨L', hL', hh'.trans hh⟩ (by rw [h1]) (h3 l) (by rw [h2]), L', hL', ?_, ?_,
      hh'.trans hh⟩
    · rcases cfg_log (env := env) w l it hk with ⟨g, _⟩ | ⟨M, g, g', _⟩ | ⟨M, M', g, g', _, hA⟩
      · rw [g] at hL'; cases hL'
      · rw [show w.logs l = some L from hL] at g'; cases g'
      · rw [g'] at hL'; cases hL'
        rw [show w.logs l = some L from hL] at g; cases g
        rcases hA with e | ⟨b, rfl, e⟩ | ⟨_, e⟩
        · rw [e, ha]
        · rw [e]; exact hm rfl
        · exact e
    · have := h3 l
      simpa [Del.queue, World.del, hL', show w.logs l = some L from hL, hq] using this
  | disable =>
    obtain ⟨u, rfl⟩ := item_disable hk
    obtain ⟨L, hL, ha, hq, hh⟩ := h
    simp only [stepItem, step, ret, disableAsync]
    have key : ∀ w1 : World, w1.del.SyncAt l hs → QInv env w1.del → FullStep l hs w.del w1.del →
        FullStep l hs w.del ((match ctxFlush env w1.ctxLoggers w1 with
          | (w, some e) => (w, some e)
          | (w, none) => ({ w with ctxAsync := false }, none) : World × Option Exc).1).del ∧
        ((match ctxFlush env w1.ctxLoggers w1 with
          | (w, some e) => (w, some e)
          | (w, none) => ({ w with ctxAsync := false }, none) : World × Option Exc).1).del.SyncAt l hs := by
      intro w1 g1 g2 g3
      have h1 := syncAt_flush hquiet g2 g1 (fl_ctxFlush (env := env) w1.ctxLoggers w1)
      cases hr : ctxFlush env w1.ctxLoggers w1 with
      | mk w2 r => rw [hr] at h1; cases r <;> exact ⟨g3.trans h1.1, h1.2⟩
    cases u with
    | false => exact key w ⟨L, hL, ha, hq, hh⟩ hg.q (by subst hh; exact .refl hL)
    | true =>
      have hc := cfg_foldl_setAsync (env := env) w.ctxLoggers false w
      obtain ⟨L1, a1, a2, -, -, a5, a6⟩ := foldl_setAsync_hooks (b := false) w.ctxLoggers
        (show w.logs l = some L from hL)
      obtain ⟨c1, c2, c3⟩ := cfg_still hc
      refine key _ ⟨L1, a1, ?_, a5.trans hq, a2.trans hh⟩
        (hc.inv (P := QInv env) (fun _ _ h s => qInv_step h (.cfg s)) hg.q)
        (.idle ⟨L1, a1, a2.trans hh⟩ ?_ (c3 l) ?_)
      · rw [a6]; split <;> simp [ha]
      · rw [← c1]; rfl
      · rw [← c2]; rfl

theorem syncAt_run {env : Env} (hquiet : env.Quiet) {w : World} (hg : Good env w) {l : LogId}
    {hs : Kind → List SinkId} (h : w.del.SyncAt l hs) (its : List Item)
    (hm : ∀ it ∈ its, it.staysSync l) (hk : ∀ it ∈ its, it.keepsSinks l) :
    FullStep l hs w.del (run env w its).del ∧ (run env w its).del.SyncAt l hs := by
  induction its generalizing w with
  | nil =>
    obtain ⟨L, hL, hh⟩ := h.log
    subst hh
    exact ⟨.refl hL, h⟩
  | cons it its ih =>
    have h1 := syncAt_item hquiet hg h it (hm it (by simp)) (hk it (by simp))
    have h2 := ih (hg.item it) h1.2 (fun i hi => hm i (by simp [hi])) (fun i hi => hk i (by simp [hi]))
    exact ⟨h1.1.trans h2.1, h2.2⟩

end Verif
