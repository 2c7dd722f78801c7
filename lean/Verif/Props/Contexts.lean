import Verif.Lemmas.Contexts
import Verif.Lemmas.Quiet
/-!
# C146: contexts are independent of one another
-/
namespace Verif.Contexts
variable {env : Env} {s : Sys}

theorem unaffected_iff {l : LogId} {s s' : Sys} : Unaffected l s s' ↔ Apart l s.w s'.w :=
  ⟨fun h => ⟨h.log, h.active, h.actions, h.calls, h.published⟩, fun h => ⟨h.log, h.active, h.act, h.trace, h.pub⟩⟩

/-! ## Loggers of different contexts -/

theorem setCtx_w (s : Sys) (c : CtxId) (f : Ctx → Ctx) : (s.setCtx c f).w = s.w := rfl

theorem apart_newLoggerIn {l m : LogId} (h : m ≠ l) (s : Sys) (c : CtxId) (ss : List SinkId) (as : Option Bool) :
    Apart l s.w (newLoggerIn env s m c ss as).w := (Apart.tick s.w).trans (Apart.setLog _ h _)

theorem apart_step (hi : SInv env s) {l : LogId} (hl : s.w.logs l ≠ none) {c : CtxId} (ho : ∀ d, l ∈ (s.ctx d).loggers → d = c)
    {it : Item} (h : Elsewhere s c l it) :
    Apart l s.w (step env s it).w ∧ ∀ d, l ∈ ((step env s it).ctx d).loggers → d = c := by
  have upd : ∀ (s : Sys) (d : CtxId) (f : Ctx → Ctx), (∀ e, l ∈ (s.ctx e).loggers → e = c) →
      (l ∈ (f (s.ctx d)).loggers → l ∈ (s.ctx d).loggers) → ∀ e, l ∈ ((s.setCtx d f).ctx e).loggers → e = c := by
    intro s d f ho hf e he
    by_cases h : e = d
    · subst h; exact ho e (hf (by simpa [Sys.setCtx] using he))
    · simp only [Sys.setCtx] at he; rw [Function.update_of_ne h] at he; exact ho e he
  have hadd : ∀ {m : LogId}, m ≠ l → ∀ x : Ctx, l ∈ (Ctx.add m x).loggers → l ∈ x.loggers := by
    intro m hm x hx
    rcases mem_add.1 hx with h | h
    · exact h
    · exact absurd h (Ne.symm hm)
  cases it with
  | newCtx =>
    refine ⟨.refl _, fun d hd => ?_⟩
    by_cases e : d = s.next
    · subst e; simp [step] at hd
    · simp only [step] at hd; rw [Function.update_of_ne e] at hd; exact ho d hd
  | setContext d =>
    cases d with
    | none => exact ⟨.refl _, ho⟩
    | some d => simp only [step]; split <;> exact ⟨.refl _, ho⟩
  | newLogger m d ss as =>
    simp only [step, newLogger]
    split
    · exact ⟨.refl _, ho⟩
    · rename_i hm
      have hne : m ≠ l := by rintro rfl; exact hl hm
      cases d with
      | some d =>
        simp only; split
        · exact ⟨apart_newLoggerIn hne .., upd _ d _ ho (hadd hne _)⟩
        · exact ⟨.refl _, ho⟩
      | none =>
        obtain ⟨-, -, h3, h4⟩ := hi.getContext
        refine ⟨?_, upd { s.getContext.1 with w := _, owner := _ } s.getContext.2 _ ?_ (hadd hne _)⟩
        · have := apart_newLoggerIn (env := env) hne s.getContext.1 s.getContext.2 ss as
          rw [h3] at this; exact this
        · intro e he; dsimp only at he; rw [h4] at he; exact ho e he
  | on d o =>
    simp only [step]; split
    · obtain ⟨hd, hadd'⟩ := h
      have hl' : l ∉ (s.ctx d).loggers := fun h => hd (ho d h)
      have hA : ∀ u : Bool, Apart l s.w (if u then allSync (s.ctx d).loggers s.w else s.w) ∧
          WInv env (if u then allSync (s.ctx d).loggers s.w else s.w) := by
        intro u; cases u
        · exact ⟨.refl _, hi.w⟩
        · exact ⟨apart_allSync _ hl' _, winv_allSync hi.w _⟩
      cases o with
      | flush => exact ⟨apart_flushAll s d _ hl' hi.w, ho⟩
      | enable u => exact ⟨(hA u).1, upd { s with w := _ } d (fun x => { x with async := true }) ho id⟩
      | disable u =>
        simp only [onCtx]
        have h1 := (hA u).1.trans (apart_flushAll s d _ hl' (hA u).2)
        cases hr : flushAll env s d (s.ctx d).loggers (if u then allSync (s.ctx d).loggers s.w else s.w) with
        | mk w1 r =>
          rw [hr] at h1
          cases r with
          | none => exact ⟨h1, upd { s with w := _ } d (fun x => { x with async := false }) ho id⟩
          | some e => exact ⟨h1, ho⟩
      | add m =>
        simp only [onCtx]; split
        · exact ⟨.refl _, ho⟩
        · exact ⟨.refl _, upd s d _ ho (hadd (by rintro rfl; exact hadd' rfl) _)⟩
      | remove m =>
        exact ⟨.refl _, upd s d (fun x => { x with loggers := x.loggers.filter (· ≠ m) }) ho fun h => (List.mem_filter.1 h).1⟩
      | handler x => exact ⟨.refl _, upd s d (fun y => { y with handlers := y.handlers ++ [x] }) ho id⟩
    · exact ⟨.refl _, ho⟩
  | call it =>
    simp only [step]; split
    · rename_i hs
      have hw := hi.w.withCtx (match s.notesTo it with | some c => s.ctx c | none => {})
      exact ⟨(apart_withCtx s.w _).trans (apart_item hw.fresh hw.pre.ev hw.q it hs h), ho⟩
    · exact ⟨.refl _, ho⟩

theorem apart_about {l : LogId} {w w' : World} (h : Apart l w w') (it : Verif.Item) (hn : it.about w ≠ some l) : it.about w' ≠ some l := by
  have hA : ∀ a, (w.acts a).map (·.logger) ≠ some l → (w'.acts a).map (·.logger) ≠ some l := by
    intro a ha he
    simp only [Option.map_eq_some_iff] at he
    obtain ⟨x, hx, e⟩ := he
    exact ha (by simp [(h.act a x e).1 hx, e])
  cases it with
  | enter a => exact hA a hn
  | exit a _ => exact hA a hn
  | op o => cases o <;> first | exact hn | exact hA _ hn

/-- C146: while an application works with other contexts and other loggers, makes contexts and loggers, switches the global context,
flushes and switches the mode of other contexts, nothing happens to a logger that is in no other context's table. -/
theorem C146_apart (hs : Reachable env s) {l : LogId} (hl : s.w.logs l ≠ none) {c : CtxId}
    (ho : ∀ d, l ∈ (s.ctx d).loggers → d = c) (its : List Item) (h : ∀ it ∈ its, Elsewhere s c l it) :
    Unaffected l s (run env s its) := by
  rw [unaffected_iff]
  suffices ∀ s' : Sys, SInv env s' → Apart l s.w s'.w → (∀ d, l ∈ (s'.ctx d).loggers → d = c) → Apart l s.w (run env s' its).w from
    this s hs.sinv (.refl _) ho
  induction its with
  | nil => exact fun _ _ h _ => h
  | cons it its ih =>
    intro s' hi ha ho'
    have he : Elsewhere s' c l it := by
      have := h it (by simp)
      cases it with
      | call it => exact apart_about ha it this
      | newCtx => trivial
      | setContext _ => trivial
      | newLogger _ _ _ _ => trivial
      | on d o => exact this
    obtain ⟨h1, h2⟩ := apart_step hi (by rw [ha.log]; exact hl) ho' he
    exact ih (fun it hm => h it (by simp [hm])) _ (hi.step it) (ha.trans h1) h2

/-- C146: an item changes no context but its target. -/
theorem C146_others (hs : Reachable env s) {c : CtxId} (hc : c < s.next) {it : Item} (h : it.target s ≠ some c) :
    (step env s it).ctx c = s.ctx c := by
  have hi := hs.sinv
  have upd : ∀ (s : Sys) (d : CtxId) (f : Ctx → Ctx), d ≠ c → (s.setCtx d f).ctx c = s.ctx c := fun s d f hd => by
    simp only [Sys.setCtx]; exact Function.update_of_ne (Ne.symm hd) ..
  cases it with
  | newCtx => simp only [step]; exact Function.update_of_ne (Nat.ne_of_lt hc) ..
  | setContext d =>
    cases d with
    | none => rfl
    | some d => simp only [step]; split <;> rfl
  | newLogger m d ss as =>
    simp only [step, newLogger]
    split
    · rfl
    · cases d with
      | some d =>
        simp only; split
        · exact upd _ d _ (by rintro rfl; exact h rfl)
        · rfl
      | none =>
        obtain ⟨-, -, h3, h4⟩ := hi.getContext
        refine (upd { s.getContext.1 with w := _, owner := _ } s.getContext.2 _ ?_).trans (congrFun h4 c)
        simp only [Item.target] at h
        simp only [Sys.getContext]
        split
        · rename_i d hd; rintro rfl; exact h hd
        · exact Ne.symm (Nat.ne_of_lt hc)
  | on d o =>
    have hd : d ≠ c := by rintro rfl; exact h rfl
    simp only [step]; split
    · cases o with
      | flush => rfl
      | enable u => simp only [onCtx]; exact upd { s with w := _ } d _ hd
      | disable u =>
        simp only [onCtx]
        split
        · rfl
        · rename_i w1 _; exact upd { s with w := w1 } d (fun x => { x with async := false }) hd
      | add m =>
        simp only [onCtx]; split
        · rfl
        · exact upd s d _ hd
      | remove m => simp only [onCtx]; exact upd s d _ hd
      | handler x => simp only [onCtx]; exact upd s d _ hd
    · rfl
  | call it => simp only [step]; split <;> rfl

/-- C146: a logger stays with the context it was made in. -/
theorem C146_owner (hs : Reachable env s) {l : LogId} (hl : s.w.logs l ≠ none) (its : List Item) :
    (run env s its).owner l = s.owner l := by
  suffices ∀ s : Sys, SInv env s → s.w.logs l ≠ none → (run env s its).owner l = s.owner l from this s hs.sinv hl
  induction its with
  | nil => exact fun _ _ _ => rfl
  | cons it its ih =>
    intro s hi hl
    have key : (step env s it).owner l = s.owner l ∧ (step env s it).w.logs l ≠ none := by
      have some_of : ∀ {w : World}, (w.logs l).isSome = (s.w.logs l).isSome → w.logs l ≠ none := by
        intro w h
        cases h1 : w.logs l <;> cases h2 : s.w.logs l <;> simp_all
      have inn : ∀ (t : Sys) (m c : Nat) ss as, t.w.logs = s.w.logs → t.owner = s.owner → s.w.logs m = none →
          (newLoggerIn env t m c ss as).owner l = s.owner l ∧ (newLoggerIn env t m c ss as).w.logs l ≠ none := by
        intro t m c ss as e1 e2 hm
        have hne : l ≠ m := by rintro rfl; exact hl hm
        refine ⟨?_, ?_⟩
        · show Function.update t.owner m c l = _
          rw [Function.update_of_ne hne, e2]
        · show (if l = m then _ else t.w.logs l) ≠ none
          rw [if_neg hne, e1]; exact hl
      cases it with
      | newCtx => exact ⟨rfl, hl⟩
      | setContext d =>
        cases d with
        | none => exact ⟨rfl, hl⟩
        | some d => simp only [step]; split <;> exact ⟨rfl, hl⟩
      | newLogger m d ss as =>
        simp only [step, newLogger]
        split
        · exact ⟨rfl, hl⟩
        · rename_i hm
          cases d with
          | some d =>
            simp only; split
            · exact inn s m d ss as rfl rfl hm
            · exact ⟨rfl, hl⟩
          | none =>
            refine inn _ m _ ss as ?_ ?_ hm
            · rw [hi.getContext.2.2.1]
            · simp only [Sys.getContext]; split <;> rfl
      | on d o =>
        simp only [step]; split
        · have hA : ∀ u : Bool, ((if u then allSync (s.ctx d).loggers s.w else s.w).logs l).isSome = (s.w.logs l).isSome := by
            intro u; cases u
            · rfl
            · exact allSync_isSome ..
          cases o with
          | flush => exact ⟨rfl, some_of (flushAll_isSome ..)⟩
          | enable u => exact ⟨rfl, some_of (hA u)⟩
          | disable u =>
            simp only [onCtx]
            have h1 : ((flushAll env s d (s.ctx d).loggers (if u then allSync (s.ctx d).loggers s.w else s.w)).1.logs l).isSome =
              (s.w.logs l).isSome := (flushAll_isSome ..).trans (hA u)
            cases hr : flushAll env s d (s.ctx d).loggers (if u then allSync (s.ctx d).loggers s.w else s.w) with
            | mk w1 r =>
              rw [hr] at h1
              cases r <;> exact ⟨rfl, some_of h1⟩
          | add m => simp only [onCtx]; split <;> exact ⟨rfl, hl⟩
          | remove m => exact ⟨rfl, hl⟩
          | handler x => exact ⟨rfl, hl⟩
        · exact ⟨rfl, hl⟩
      | call it =>
        simp only [step]; split
        · rename_i hc; exact ⟨rfl, some_of (call_isSome (hi.w.withCtx _).pre it hc l)⟩
        · exact ⟨rfl, hl⟩
    exact (ih _ (hi.step it) key.2).trans key.1

/-- C146: a new logger belongs to the context it is made for, or else to the global one, is in its table, and without `async=` takes
over its mode. -/
theorem C146_new {l : LogId} (hl : s.w.logs l = none) {c : CtxId} (hc : c < s.next) {oc : Option CtxId}
    (ho : oc = some c ∨ oc = none ∧ s.glob = some c) (ss : List SinkId) :
    (step env s (.newLogger l oc ss none)).owner l = c ∧ l ∈ ((step env s (.newLogger l oc ss none)).ctx c).loggers ∧
    ∃ L, (step env s (.newLogger l oc ss none)).w.logs l = some L ∧ L.async = (s.ctx c).async := by
  have e : step env s (.newLogger l oc ss none) = newLoggerIn env s l c ss none := by
    rcases ho with rfl | ⟨rfl, hg⟩
    · simp [step, newLogger, hl, hc]
    · simp [step, newLogger, hl, Sys.getContext, hg]
  rw [e]
  refine ⟨by simp [newLoggerIn, Sys.setCtx], ?_, newLog env (s.load (some c)) ss none, by simp [newLoggerIn, Sys.setCtx, World.setLog], ?_⟩
  · simp only [newLoggerIn, Sys.setCtx, Function.update_self]; exact mem_add.2 (.inr rfl)
  · have := newLog_rest env (s.load (some c)) ss none
    simp only [Log.rest, Prod.mk.injEq] at this
    exact this.1

/-- C146: with several contexts, too, nothing is delivered that was not published, or more often. -/
theorem C146_once (hs : Reachable env s) (k : SinkId) (l : LogId) (p : Kind × Event) :
    (ofLogger l (received k s.w.trace) ++ queued s.w l).count p ≤ (published s.w l).count p := hs.sinv.w.count k l p

/-! ## Flushing a context -/

theorem flushAll_quiet (h : env.Quiet) (s : Sys) (c : CtxId) (ls : List LogId) {w : World} (hq : WInv env w) :
    (flushAll env s c ls w).2 = none ∧
    ∀ l L, w.logs l = some L → ∃ L', (flushAll env s c ls w).1.logs l = some L' ∧ L'.sinks = L.sinks ∧ L'.async = L.async ∧
      L'.queue = if l ∈ ls then [] else L.queue := by
  induction ls generalizing w with
  | nil => exact ⟨rfl, fun l L hL => ⟨L, hL, rfl, rfl, by simp⟩⟩
  | cons m ls ih =>
    have hf := ctxFlush_quiet h [m] (hq.withCtx (s.ctx (s.owner m))).q
    have hq' : WInv env (flush env (withCtx w (s.ctx (s.owner m))) m).1 :=
      (hq.withCtx _).star (flush_flushLike ..).coreEq ((fl_flush _ m).map fun _ _ => .flush)
    simp only [flushAll]
    simp only [ctxFlush] at hf
    cases hr : flush env (withCtx w (s.ctx (s.owner m))) m with
    | mk w1 r =>
      rw [hr] at hf hq'
      cases r with
      | none =>
        obtain ⟨-, h2⟩ := hf
        simp only
        obtain ⟨h3, h4⟩ := ih hq'
        refine ⟨h3, fun l L hL => ?_⟩
        obtain ⟨L1, e1, e2, -, e4, -, e6⟩ := h2 l L hL
        obtain ⟨L2, f1, f2, f3, f4⟩ := h4 l L1 e1
        refine ⟨L2, f1, f2.trans e2, f3.trans e4, ?_⟩
        rw [f4, e6]
        simp only [List.mem_cons]
        by_cases hm : l = m <;> by_cases hm2 : l ∈ ls <;> simp [hm, hm2]
      | some e =>
        exfalso
        cases hl : w.logs m with
        | none => rw [show flush env (withCtx w (s.ctx (s.owner m))) m = (withCtx w (s.ctx (s.owner m)), none) by
            simp [flush, withCtx, hl]] at hr; cases hr
        | some L0 =>
          have hl' : (withCtx w (s.ctx (s.owner m))).logs m = some L0 := hl
          rw [flush_quiet h hl' ((hq.withCtx _).q.kinds hl')] at hr; cases hr

/-- C146: `context.flush()` empties the queues of the loggers in its table, whichever context they were made in, and no others. -/
theorem C146_flush (h : env.Quiet) (hs : Reachable env s) {c : CtxId} (hc : c < s.next) {l : LogId} (hl : s.w.logs l ≠ none) :
    queued (step env s (.on c .flush)).w l = if l ∈ (s.ctx c).loggers then [] else queued s.w l := by
  obtain ⟨L, hL⟩ := Option.ne_none_iff_exists'.1 hl
  obtain ⟨L', h1, -, -, h2⟩ := (flushAll_quiet h s c (s.ctx c).loggers hs.sinv.w).2 l L hL
  have e : (step env s (.on c .flush)).w = (flushAll env s c (s.ctx c).loggers s.w).1 := by simp [step, hc, onCtx]
  rw [e]
  simp only [queued, h1, hL]; exact h2

theorem deliveries_apart {l : LogId} {w w' : World} (h : Apart l w w') : deliveries l w'.trace = deliveries l w.trace := by
  obtain ⟨t, ht, hn⟩ := h.trace
  rw [ht, deliveries_append]
  suffices deliveries l t = [] by rw [this, List.append_nil]
  simp only [deliveries, List.filter_eq_nil_iff]
  intro o ho
  have := hn o ho
  cases o <;> simp_all [Obs.log?]

/-- C146: and what was in those queues is delivered: every event, in order, to every sink of its logger that wants it. -/
theorem C146_flush_delivers (h : env.Quiet) (hs : Reachable env s) {c : CtxId} (hc : c < s.next) {l : LogId} {L : Log}
    (hL : s.w.logs l = some L) (hl : l ∈ (s.ctx c).loggers) :
    deliveries l (step env s (.on c .flush)).w.trace = deliveries l s.w.trace ++ callsFor env L.sinks L.queue := by
  have e : (step env s (.on c .flush)).w = (flushAll env s c (s.ctx c).loggers s.w).1 := by simp [step, hc, onCtx]
  rw [e]
  have hn := hs.sinv.nodup c
  have hw := hs.sinv.w
  generalize s.w = w at hw hL
  generalize (s.ctx c).loggers = ls at hn hl
  induction ls generalizing w with
  | nil => simp at hl
  | cons m ls ih =>
    have hm : ∃ w1, flush env (withCtx w (s.ctx (s.owner m))) m = (w1, none) ∧ WInv env w1 ∧ (m ≠ l → Apart l w w1) ∧
        (m = l → deliveries l w1.trace = deliveries l w.trace ++ callsFor env L.sinks L.queue) := by
      have hw' := hw.withCtx (s.ctx (s.owner m))
      refine ⟨_, Prod.ext rfl ?_, hw'.star (flush_flushLike ..).coreEq ((fl_flush _ m).map fun _ _ => .flush),
        fun hne => (apart_withCtx w _).trans (Apart.flush hw'.q hne), ?_⟩
      · cases hl : w.logs m with
        | none => simp [flush, withCtx, hl]
        | some L0 =>
          have hl' : (withCtx w (s.ctx (s.owner m))).logs m = some L0 := hl
          rw [flush_quiet h hl' (hw'.q.kinds hl')]
      · rintro rfl
        have hL' : (withCtx w (s.ctx (s.owner m))).logs m = some L := hL
        rw [flush_quiet h hL' (hw'.q.kinds hL')]
        show deliveries m (w.trace ++ (L.preflush.map (Obs.preflush m) ++ expand L L.queue)) = _
        rw [deliveries_append, deliveries_append, expand_callsFor (hw.q.reg m L hL)]
        congr 1
        have e1 : deliveries m (L.preflush.map (Obs.preflush m)) = [] := by
          simp only [deliveries, List.filter_eq_nil_iff]
          intro o ho; obtain ⟨x, _, rfl⟩ := List.mem_map.1 ho; simp
        have e2 : deliveries m (callsFor env L.sinks L.queue) = callsFor env L.sinks L.queue := by
          simp only [deliveries, List.filter_eq_self]
          intro o ho
          simp only [callsFor, List.mem_flatMap, List.mem_map] at ho
          obtain ⟨⟨k, ev⟩, hp, x, _, rfl⟩ := ho
          have hq := hw.q.q m k ev (by simpa [Del.queue, World.del, hL] using hp)
          simp [hq.1, hq.2.2.1]
        rw [e1, e2, List.nil_append]
    obtain ⟨w1, hr, hw1, hne, heq⟩ := hm
    simp only [flushAll, hr]
    simp only [List.nodup_cons] at hn
    by_cases hml : m = l
    · rw [deliveries_apart (apart_flushAll s c ls (hml ▸ hn.1) hw1)]
      exact heq hml
    · have hl' : l ∈ ls := by
        rcases List.mem_cons.1 hl with h | h
        · exact absurd h.symm hml
        · exact h
      have ha := hne hml
      rw [ih w1 hw1 (by rw [ha.log]; exact hL) hn.2 hl', deliveries_apart ha]

/-! ## Notes -/

/-- What the handlers are told in a step. -/
def newNotes (s s' : Sys) (P : Nat → Prop) : Prop := ∃ t, s'.w.trace = s.w.trace ++ t ∧ ∀ h n, (h, n) ∈ notes t → P h

theorem mem_notes {t : List Obs} {h : Nat} {n : String} : (h, n) ∈ notes t ↔ Obs.note h n ∈ t := by
  simp only [notes, List.mem_filterMap]
  constructor
  · rintro ⟨o, ho, e⟩
    cases o with
    | note h' n' => simp only [Option.some.injEq, Prod.mk.injEq] at e; obtain ⟨rfl, rfl⟩ := e; exact ho
    | hook => simp at e
    | preflush => simp at e
  · intro ho; exact ⟨_, ho, rfl⟩

/-- `Q` for the notes, nothing for the rest. -/
def onlyTo (P : Nat → Prop) : Obs → Prop
  | .note h _ => P h
  | _ => True

theorem said_notes {P : Nat → Prop} {s s' : Sys} (h : Said (onlyTo P) s.w s'.w) : newNotes s s' P := by
  obtain ⟨t, ht, h⟩ := h
  exact ⟨t, ht, fun x n hx => h _ (mem_notes.1 hx)⟩

/-- C146: flushing a logger tells only the handlers of the logger's own context. -/
theorem C146_flush_notes (s : Sys) (l : LogId) :
    newNotes s (step env s (.call (.op (.flush l)))) fun h => h ∈ (s.ctx (s.owner l)).handlers := by
  refine said_notes ?_
  simp only [step, isCall, if_true]
  refine Said.trans (b := s.load (some (s.owner l))) (.ofEq rfl) (said_item (fun _ _ _ => trivial) (fun _ _ => trivial) _ rfl ?_)
  intro _ x hx n
  exact hx

/-- C146: flushing a context, alone or in `disable_async`, tells only its own handlers and those of the contexts its loggers were
made in. -/
theorem C146_context_notes (s : Sys) (c : CtxId) (o : CtxOp) :
    newNotes s (step env s (.on c o)) fun h => h ∈ (s.ctx c).handlers ∨ ∃ l ∈ (s.ctx c).loggers, h ∈ (s.ctx (s.owner l)).handlers := by
  refine said_notes ?_
  simp only [step]
  split
  · have hA : ∀ (ls : List LogId) (w : World), (allSync ls w).trace = w.trace := by
      intro ls
      induction ls with
      | nil => exact fun _ => rfl
      | cons m ls ih => exact fun w => (ih _).trans (setAsync_trace ..)
    have hB : ∀ (u : Bool) (ls : List LogId) (w : World), (if u then allSync ls w else w).trace = w.trace := by
      intro u ls w; cases u
      · rfl
      · exact hA ls w
    have hF : ∀ w, Said (onlyTo fun h => h ∈ (s.ctx c).handlers ∨ ∃ l ∈ (s.ctx c).loggers, h ∈ (s.ctx (s.owner l)).handlers) w
        (flushAll env s c (s.ctx c).loggers w).1 := fun w =>
      said_flushAll (fun _ _ _ => trivial) (fun _ _ => trivial) s c (fun x hx _ => .inl hx) _ (fun l hl x hx _ => .inr ⟨l, hl, hx⟩) w
    cases o with
    | flush => exact hF _
    | enable u => exact .ofEq (hB ..)
    | disable u =>
      simp only [onCtx]
      have h1 := Said.trans (.ofEq (hB u (s.ctx c).loggers s.w)) (hF _)
      cases hr : flushAll env s c (s.ctx c).loggers (if u then allSync (s.ctx c).loggers s.w else s.w) with
      | mk w1 r =>
        rw [hr] at h1
        cases r <;> exact h1
    | add m => simp only [onCtx]; split <;> exact .refl _
    | remove m => exact .ofEq rfl
    | handler x => exact .ofEq rfl
  · exact .refl _

/-- C146: of the calls on loggers and actions, only `flush` and leaving a with block tell any handler anything; what leaving a with
block has to tell goes to the global context. -/
theorem C146_call_notes (s : Sys) (it : Verif.Item) (h : ∀ l, it ≠ .op (.flush l)) :
    newNotes s (step env s (.call it)) fun h => (∃ a exc, it = .exit a exc) ∧ ∃ c, s.glob = some c ∧ h ∈ (s.ctx c).handlers := by
  refine said_notes ?_
  simp only [step]
  split
  · rename_i hc
    refine Said.trans (b := s.load (s.notesTo it)) (.ofEq rfl) (said_item (fun _ _ _ => trivial) (fun _ _ => trivial) _ hc ?_)
    intro hn x hx n
    cases it with
    | enter a => simp [notesIn] at hn
    | exit a exc =>
      refine ⟨⟨a, exc, rfl⟩, ?_⟩
      simp only [Sys.notesTo, Sys.load, withCtx] at hx
      cases hg : s.glob with
      | none => simp [hg] at hx
      | some c => exact ⟨c, rfl, by simpa [hg] using hx⟩
    | op o =>
      cases o <;> simp only [notesIn, Bool.false_eq_true] at hn
      case flush l => exact absurd rfl (h l)
  · exact .refl _

/-- C146: a full account would be that what goes wrong in the action of a logger is told to the handlers of the logger's context.  -/
def NotesStayHome (env : Env) : Prop :=
  ∀ s, Reachable env s → ∀ a exc x, s.w.acts a = some x →
    newNotes s (step env s (.call (.exit a exc))) fun h => h ∈ (s.ctx (s.owner x.logger)).handlers

/-! ## One context -/

theorem withCtx_self {w : World} {c : Ctx} (h1 : w.ctxLoggers = c.loggers) (h2 : w.ctxAsync = c.async) (h3 : w.noteHandlers = c.handlers) :
    withCtx w c = w := by
  obtain ⟨⟩ := w; simp only [withCtx] at *; subst h1 h2 h3; rfl

theorem load_keep (s : Sys) (c : Ctx) {w : World} (h : KeepCfg (withCtx s.w c) w) : withCtx w c = w :=
  withCtx_self h.ctxLoggers h.ctxAsync h.noteHandlers

theorem flushAll_single (s : Sys) (hs : ∀ l, s.owner l = 0) (ls : List LogId)
    (w : World) : withCtx (flushAll env s 0 ls w).1 (s.ctx 0) = (ctxFlush env ls (withCtx w (s.ctx 0))).1 ∧
      (flushAll env s 0 ls w).2 = (ctxFlush env ls (withCtx w (s.ctx 0))).2 := by
  induction ls generalizing w with
  | nil => exact ⟨rfl, rfl⟩
  | cons l ls ih =>
    simp only [flushAll, ctxFlush, hs l]
    have hk := (flush_flushLike env (withCtx w (s.ctx 0)) l).keep
    cases hr : flush env (withCtx w (s.ctx 0)) l with
    | mk w1 r =>
      rw [hr] at hk
      have e1 : withCtx w1 (s.ctx 0) = w1 := withCtx_self hk.ctxLoggers hk.ctxAsync hk.noteHandlers
      cases r with
      | none => have := ih w1; rw [e1] at this; exact this
      | some e =>
        obtain ⟨k, t⟩ := e
        cases k with
        | baseOnly => exact ⟨e1, rfl⟩
        | ordinary =>
          simp only [e1]
          have hk2 := (noteAll_flushLike env "context_flush" w1).keep
          cases hr2 : noteAll env "context_flush" w1 with
          | mk w2 r2 =>
            rw [hr2] at hk2
            have e2 : withCtx w2 (s.ctx 0) = w2 := withCtx_self (hk2.ctxLoggers.trans hk.ctxLoggers) (hk2.ctxAsync.trans hk.ctxAsync)
              (hk2.noteHandlers.trans hk.noteHandlers)
            cases r2 with
            | none => have := ih w2; rw [e2] at this; exact this
            | some e' => exact ⟨e2, rfl⟩

theorem allSync_withCtx (ls : List LogId) (c : Ctx) (w : World) :
    ls.foldl (fun w l => setAsync w l false) (withCtx w c) = withCtx (allSync ls w) c := by
  induction ls generalizing w with
  | nil => rfl
  | cons l ls ih =>
    have e : setAsync (withCtx w c) l false = withCtx (setAsync w l false) c := by
      simp only [setAsync]
      show (match w.logs l with | none => _ | some L => _) = _
      cases w.logs l <;> rfl
    simp only [List.foldl_cons, e]; exact ih _

theorem addLogger_withCtx (w : World) (c : Ctx) (l : LogId) : addLogger (withCtx w c) l = withCtx w (Ctx.add l c) := by
  by_cases h : l ∈ c.loggers <;> simp [addLogger, withCtx, Ctx.add, h]

/-- The invariant of an application with one context. -/
structure One (s : Sys) : Prop where
  next : s.next = 1
  glob : s.glob = some 0
  owner : ∀ l, s.owner l = 0

theorem keep_call {w : World} (it : Verif.Item) (h : isCall it) (hne : ∀ a, it ≠ .enter a) (hnx : ∀ a e, it ≠ .exit a e) :
    KeepCfg w (stepItem env w it) := by
  cases it with
  | enter a => exact absurd rfl (hne a)
  | exit a e => exact absurd rfl (hnx a e)
  | op o =>
    refine keep_step o ?_
    cases o <;> first | rfl | simp [isCall] at h

theorem keep_ctx_call {w : World} (it : Verif.Item) (h : isCall it) {c : Ctx} :
    withCtx (stepItem env (withCtx w c) it) c = stepItem env (withCtx w c) it := by
  have enterK : ∀ w : World, ∀ a, (enter env w a).1.ctxLoggers = w.ctxLoggers ∧ (enter env w a).1.ctxAsync = w.ctxAsync ∧
      (enter env w a).1.noteHandlers = w.noteHandlers := by
    intro w a
    simp only [enter]; split
    · exact ⟨rfl, rfl, rfl⟩
    · rename_i x hx
      have := keep_begin (env := env) (w := (w.setAct a { x with isTrans := true, defer := true }).setActive x.logger (some a)) a none [] []
      exact ⟨this.ctxLoggers, this.ctxAsync, this.noteHandlers⟩
  have exitK : ∀ w : World, ∀ a e, (exit env w a e).1.ctxLoggers = w.ctxLoggers ∧ (exit env w a e).1.ctxAsync = w.ctxAsync ∧
      (exit env w a e).1.noteHandlers = w.noteHandlers := by
    intro w a e
    simp only [exit]; split
    · exact ⟨rfl, rfl, rfl⟩
    · have := keep_exitPublish (env := env) (w := w) a e
      cases hr : exitPublish env w a e with
      | mk w1 r =>
        rw [hr] at this
        cases r <;> exact ⟨this.ctxLoggers, this.ctxAsync, this.noteHandlers⟩
  cases it with
  | enter a =>
    simp only [stepItem, guard]
    split
    · obtain ⟨h1, h2, h3⟩ := enterK (withCtx w c) a; exact withCtx_self h1 h2 h3
    · rfl
  | exit a e =>
    simp only [stepItem]
    split
    · obtain ⟨h1, h2, h3⟩ := exitK (withCtx w c) a e; exact withCtx_self h1 h2 h3
    · rfl
  | op o =>
    have := keep_call (env := env) (w := withCtx w c) (.op o) h (by simp) (by simp)
    exact withCtx_self this.ctxLoggers this.ctxAsync this.noteHandlers

theorem one_step (h1 : One s) {it : Item} (hit : OneContext it) :
    One (step env s it) ∧ (step env s it).load (some 0) = Verif.run env (s.load (some 0)) (single it) := by
  have hlt : 0 < s.next := by rw [h1.next]; exact Nat.one_pos
  have setK : ∀ w : World, One { s with w := w } := fun w => ⟨h1.next, h1.glob, h1.owner⟩
  have setC : ∀ (t : Sys) f, One t → One (t.setCtx 0 f) := fun t f h => ⟨h.next, h.glob, h.owner⟩
  cases it with
  | newCtx => exact hit.elim
  | setContext c =>
    obtain rfl : c = some 0 := hit
    simp only [step, hlt, if_true]
    exact ⟨⟨h1.next, rfl, h1.owner⟩, rfl⟩
  | newLogger l c ss as =>
    simp only [single, Verif.run, List.foldl_cons, List.foldl_nil, stepItem, Verif.step]
    have el : (s.load (some 0)).logs = s.w.logs := rfl
    rw [el]
    cases hl : s.w.logs l with
    | some L =>
      have e : step env s (.newLogger l c ss as) = s := by simp [step, newLogger, hl]
      rw [e]; exact ⟨h1, rfl⟩
    | none =>
      have e : step env s (.newLogger l c ss as) = newLoggerIn env s l 0 ss as := by
        rcases hit with rfl | rfl
        · simp [step, newLogger, hl, Sys.getContext, h1.glob]
        · simp [step, newLogger, hl, hlt]
      rw [e]
      refine ⟨⟨h1.next, h1.glob, fun m => ?_⟩, ?_⟩
      · show Function.update s.owner l 0 m = 0
        by_cases em : m = l
        · subst em; simp
        · rw [Function.update_of_ne em]
          exact h1.owner m
      · simp only [Sys.load, newLoggerIn, Sys.setCtx, Function.update_self]
        exact (addLogger_withCtx (s.w.tick.setLog l (newLog env (withCtx s.w (s.ctx 0)) ss as)) (s.ctx 0) l).symm
  | on c o =>
    obtain rfl : c = 0 := hit
    simp only [step, hlt, if_true]
    have hF := fun w => flushAll_single (env := env) s h1.owner (s.ctx 0).loggers w
    cases o with
    | flush =>
      refine ⟨setK _, ?_⟩
      exact (hF s.w).1
    | enable u =>
      simp only [onCtx, single, Verif.run, List.foldl_cons, List.foldl_nil, stepItem, Verif.step, enableAsync]
      cases u with
      | false => exact ⟨setC _ _ h1, by simp [Sys.load, Sys.setCtx, withCtx]⟩
      | true =>
        refine ⟨setC { s with w := _ } _ (setK _), ?_⟩
        have := allSync_withCtx (s.ctx 0).loggers { s.ctx 0 with async := true } s.w
        simp only [if_true, Sys.load, Sys.setCtx, Function.update_self]
        exact this.symm
    | disable u =>
      simp only [onCtx, single, Verif.run, List.foldl_cons, List.foldl_nil, stepItem, Verif.step, ret, disableAsync]
      have eW : (if u then (s.load (some 0)).ctxLoggers.foldl (fun w l => setAsync w l false) (s.load (some 0)) else s.load (some 0)) =
          withCtx (if u then allSync (s.ctx 0).loggers s.w else s.w) (s.ctx 0) := by
        cases u
        · rfl
        · exact allSync_withCtx (s.ctx 0).loggers (s.ctx 0) s.w
      rw [eW]
      generalize (if u then allSync (s.ctx 0).loggers s.w else s.w) = W
      have hw := hF W
      have el : (withCtx W (s.ctx 0)).ctxLoggers = (s.ctx 0).loggers := rfl
      rw [el]
      cases hr : flushAll env s 0 (s.ctx 0).loggers W with
      | mk w1 r =>
        rw [hr] at hw
        cases hr2 : ctxFlush env (s.ctx 0).loggers (withCtx W (s.ctx 0)) with
        | mk w2 r2 =>
          rw [hr2] at hw
          obtain ⟨e1, e2⟩ := hw
          dsimp only at e1 e2
          subst e1 e2
          cases r with
          | none =>
            refine ⟨setC { s with w := w1 } (fun x => { x with async := false }) (setK _), ?_⟩
            simp [Sys.load, Sys.setCtx, withCtx]
          | some e => exact ⟨setK _, rfl⟩
    | add l =>
      simp only [onCtx, single, Verif.run, List.foldl_cons, List.foldl_nil, stepItem, Verif.step]
      have el : (s.load (some 0)).logs = s.w.logs := rfl
      rw [el]
      cases s.w.logs l with
      | none => exact ⟨h1, rfl⟩
      | some L =>
        refine ⟨setC _ _ h1, ?_⟩
        simp only [Sys.load, Sys.setCtx, Function.update_self]
        exact (addLogger_withCtx s.w (s.ctx 0) l).symm
    | remove l => exact ⟨setC s (fun x => { x with loggers := x.loggers.filter (· ≠ l) }) h1, by simp [onCtx, Sys.load, Sys.setCtx, withCtx, single, Verif.run, stepItem, Verif.step, removeLogger]⟩
    | handler x => exact ⟨setC s (fun y => { y with handlers := y.handlers ++ [x] }) h1, by simp [onCtx, Sys.load, Sys.setCtx, withCtx, single, Verif.run, stepItem, Verif.step]⟩
  | call it =>
    simp only [step, single]
    split
    · rename_i hc
      have hto : s.notesTo it = some 0 := by
        cases it with
        | enter a => exact h1.glob
        | exit a e => exact h1.glob
        | op o => cases o <;> first | exact h1.glob | exact congrArg some (h1.owner _)
      refine ⟨setK _, ?_⟩
      rw [hto]
      exact keep_ctx_call it hc
    · exact ⟨h1, rfl⟩

/-- C146: an application that uses one context runs as the model with a single context says: everything proved there applies. -/
theorem C146_single (env : Env) (its : List Item) (h : ∀ it ∈ its, OneContext it) :
    (run env Sys.init (.newCtx :: .setContext (some 0) :: its)).load (some 0) = Verif.run env World.init (its.flatMap single) := by
  suffices ∀ s, One s → (run env s its).load (some 0) = Verif.run env (s.load (some 0)) (its.flatMap single) by
    have e := this (run env Sys.init [.newCtx, .setContext (some 0)]) ⟨rfl, rfl, fun _ => rfl⟩
    exact e
  induction its with
  | nil => exact fun _ _ => rfl
  | cons it its ih =>
    intro s hs
    obtain ⟨h1, h2⟩ := one_step (env := env) hs (h it (by simp))
    have := ih (fun it hm => h it (by simp [hm])) _ h1
    rw [List.flatMap_cons, Verif.run_append, ← h2]
    exact this

/-! ## Two contexts -/

/-- Sink 0 raises whenever it is told of an exception; nothing else raises. -/
def tellEnv : Env where
  clock n := n + 1
  hasHook _ _ := true
  raises _ o := match o with | .hook 0 .exception _ => some ⟨.ordinary, 1⟩ | _ => none
  excInfoErr _ := none
  excText _ n _ := .ok n

/-- Two contexts with a handler each; the first is the global one.  Logger 0 is made in the second, logger 1, asynchronous, in the
first. -/
def twoItems : List Item :=
  [.newCtx, .newCtx, .setContext (some 0), .on 0 (.handler 7), .on 1 (.handler 8), .newLogger 0 (some 1) [0] none,
    .newLogger 1 none [1] (some true), .call (.op (.newAction 0 20 "a" [])), .call (.op (.newAction 1 20 "b" [])),
    .call (.op (.begin 1 none [] []))]

def two (env : Env) : Sys := run env Sys.init twoItems

theorem two_reachable (env : Env) : Reachable env (two env) := ⟨twoItems, rfl⟩

/-- C146 does not hold in full: a failure to record the exception that ends an action is told to the global context, not to the
context of the action's logger. -/
theorem C146_notes_violated : ∃ env, ¬ NotesStayHome env := by
  refine ⟨tellEnv, fun h => ?_⟩
  obtain ⟨x, hx⟩ : ∃ x, (two tellEnv).w.acts 0 = some x := ⟨_, rfl⟩
  obtain ⟨t, ht, hP⟩ := h _ (two_reachable tellEnv) 0 (some ⟨.ordinary, 5⟩) x hx
  have h1 : notes (two tellEnv).w.trace = [] := by decide +kernel
  have h2 : notes (step tellEnv (two tellEnv) (.call (.exit 0 (some ⟨.ordinary, 5⟩)))).w.trace = [(7, "action_exit")] := by decide +kernel
  rw [ht, notes, List.filterMap_append] at h2
  rw [notes] at h1
  rw [h1, List.nil_append] at h2
  have h3 := hP 7 "action_exit" (by rw [notes, h2]; simp)
  have h4 : x.logger = 0 := by
    have : ((two tellEnv).w.acts 0).map (·.logger) = some 0 := by decide +kernel
    rw [hx] at this; simpa using this
  rw [h4] at h3
  exact absurd h3 (by decide +kernel)

/-- Calls that leave logger 0 alone: the other logger's action, flushes and mode switches of the first context, a third context. -/
def otherItems : List Item :=
  [.newCtx, .setContext (some 2), .on 0 .flush, .on 0 (.enable true), .on 0 (.disable true), .call (.op (.warn 1 "x" [] [])),
    .call (.op (.success 1 none [] [])), .newLogger 2 none [0] none, .on 2 .flush, .call (.op (.comment 2 "c" [] []))]

theorem two_only (d : CtxId) (h : 0 ∈ ((two tellEnv).ctx d).loggers) : d = 1 := by
  have hn : (two tellEnv).next = 2 := by decide +kernel
  rcases Nat.lt_or_ge d 2 with hd | hd
  · have h0 : 0 ∉ ((two tellEnv).ctx 0).loggers := by decide +kernel
    rcases Nat.lt_or_ge d 1 with h1 | h1
    · obtain rfl : d = 0 := Nat.lt_one_iff.1 h1
      exact absurd h h0
    · exact Nat.le_antisymm (Nat.le_of_lt_succ hd) h1
  · rw [(two_reachable tellEnv).sinv.unmade d (by rw [hn]; exact hd)] at h; simp at h

theorem two_log : (two tellEnv).w.logs 0 ≠ none := by
  rw [← Option.isSome_iff_ne_none]; decide +kernel

-- C146_apart, C146_owner: the third logger's sink is logger 0's too, and is called, but never about logger 0
example : Unaffected 0 (two tellEnv) (run tellEnv (two tellEnv) otherItems) := by
  refine C146_apart (two_reachable tellEnv) two_log two_only otherItems fun it h => ?_
  simp only [otherItems, List.mem_cons, List.not_mem_nil, or_false] at h
  rcases h with rfl | rfl | rfl | rfl | rfl | rfl | rfl | rfl | rfl | rfl <;>
    first | trivial | exact ⟨by decide, by decide⟩ | (simp only [Elsewhere]; decide +kernel)

example : ((run tellEnv (two tellEnv) otherItems).w.trace.map (·.log?)) ≠ [] ∧ (run tellEnv (two tellEnv) otherItems).next = 3 := by
  decide +kernel

example : (run tellEnv (two tellEnv) otherItems).owner 0 = 1 :=
  (C146_owner (two_reachable tellEnv) two_log otherItems).trans (by decide +kernel)

-- C146_others: calls of the first context leave the second alone
example : (step tellEnv (two tellEnv) (.on 0 (.handler 9))).ctx 1 = (two tellEnv).ctx 1 :=
  C146_others (two_reachable tellEnv) (by decide +kernel) (by simp [Item.target])

-- C146_new: the global context
example : (step tellEnv (two tellEnv) (.newLogger 5 none [] none)).owner 5 = 0 :=
  (C146_new (by rw [← Option.not_isSome_iff_eq_none]; decide +kernel) (c := 0) (by decide +kernel) (.inr ⟨rfl, by decide +kernel⟩) []).1

/-- Nothing raises. -/
def calmEnv : Env := { tellEnv with raises := fun _ _ => none }

-- C146_flush: logger 1 has something queued; its own context's flush delivers it, the other context's does not
example : (queued (two calmEnv).w 1).length = 1 ∧ queued (step calmEnv (two calmEnv) (.on 0 .flush)).w 1 = [] ∧
    (queued (step calmEnv (two calmEnv) (.on 1 .flush)).w 1).length = 1 := by
  have hl : (two calmEnv).w.logs 1 ≠ none := by rw [← Option.isSome_iff_ne_none]; decide +kernel
  have h0 := C146_flush (env := calmEnv) (fun _ _ => rfl) (two_reachable calmEnv) (c := 0) (by decide +kernel) hl
  have h1 := C146_flush (env := calmEnv) (fun _ _ => rfl) (two_reachable calmEnv) (c := 1) (by decide +kernel) hl
  rw [if_pos (by decide +kernel)] at h0
  rw [if_neg (by decide +kernel)] at h1
  refine ⟨by decide +kernel, h0, ?_⟩
  rw [h1]; decide +kernel

-- a logger put into another context's table is flushed with it as well
example : queued (run calmEnv (two calmEnv) [.on 1 (.add 1), .on 1 .flush]).w 1 = [] := by decide +kernel

/-- The preflush hooks raise. -/
def preEnv : Env := { tellEnv with raises := fun _ o => match o with | .preflush .. => some ⟨.ordinary, 2⟩ | _ => none }

-- C146_flush_notes, C146_context_notes: the first context flushes the second's logger; the second's handler is told of the hook
example : notes (run preEnv (two preEnv) [.call (.op (.addPreflush 0 3)), .on 0 (.add 0), .on 0 .flush]).w.trace = [(8, "preflush")] ∧
    notes (run preEnv (two preEnv) [.call (.op (.addPreflush 0 3)), .call (.op (.flush 0))]).w.trace = [(8, "preflush")] := by
  decide +kernel

-- C146_single
example : (run tellEnv Sys.init [.newCtx, .setContext (some 0), .newLogger 0 none [0] none, .on 0 (.enable false),
      .call (.op (.newAction 0 20 "a" [])), .call (.enter 0), .on 0 .flush]).load (some 0) =
    Verif.run tellEnv World.init [.op (.newLogger 0 [0] none), .op (.enableAsync false), .op (.newAction 0 20 "a" []), .enter 0, .op .ctxFlush] :=
  C146_single tellEnv [.newLogger 0 none [0] none, .on 0 (.enable false), .call (.op (.newAction 0 20 "a" [])), .call (.enter 0), .on 0 .flush]
    (by simp [OneContext])

end Verif.Contexts
