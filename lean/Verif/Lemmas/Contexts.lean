import Verif.Lemmas.Apart
/-!
# Several contexts: invariants, who is told what
-/
namespace Verif

/-! ## The calls made in a step -/

/-- All calls made between `w` and `w'` are as `Q` says. -/
def Said (Q : Obs → Prop) (w w' : World) : Prop := ∃ t, w'.trace = w.trace ++ t ∧ ∀ o ∈ t, Q o

namespace Said
variable {Q : Obs → Prop} {env : Env}

theorem refl (w : World) : Said Q w w := ⟨[], by simp⟩
theorem ofEq {w w' : World} (h : w'.trace = w.trace) : Said Q w w' := ⟨[], by simp [h]⟩
theorem trans {a b c : World} (h : Said Q a b) (g : Said Q b c) : Said Q a c := by
  obtain ⟨t, ht, ht'⟩ := h
  obtain ⟨u, hu, hu'⟩ := g
  refine ⟨t ++ u, by rw [hu, ht, List.append_assoc], fun o ho => ?_⟩
  rcases List.mem_append.1 ho with h | h
  · exact ht' o h
  · exact hu' o h
theorem mono {P : Obs → Prop} {a b : World} (h : Said P a b) (hm : ∀ o, P o → Q o) : Said Q a b := by
  obtain ⟨t, ht, h⟩ := h; exact ⟨t, ht, fun o ho => hm o (h o ho)⟩

theorem callAll (w : World) {os : List Obs} (h : ∀ o ∈ os, Q o) : Said Q w (callAll env os w).1 := by
  rw [callAll_eq]
  exact ⟨_, rfl, fun o ho => h o ((ran_prefix env os w.trace).subset ho)⟩

theorem noteAll {w : World} (h : ∀ x ∈ w.noteHandlers, ∀ n, Q (.note x n)) (n : String) : Said Q w (noteAll env n w).1 := by
  refine callAll w ?_
  intro o ho; obtain ⟨x, hx, rfl⟩ := List.mem_map.1 ho; exact h x hx n

variable (hk : ∀ s k e, Q (.hook s k e))
include hk

theorem hooks (w : World) (L : Log) (k : Kind) (e : Event) : Said Q w (Verif.callAll env (hookCalls L k e) w).1 := by
  refine callAll w ?_
  intro o ho; obtain ⟨s, _, rfl⟩ := List.mem_map.1 ho; exact hk ..

theorem publish (w : World) (m : LogId) (k : Kind) (e : Event) : Said Q w (publish env w m k e).1 := by
  simp only [Verif.publish]
  split
  · exact ofEq rfl
  · split
    · exact ofEq rfl
    · exact Said.trans (b := { w with pub := w.pub ++ [(k, e)] }) (ofEq rfl) (hooks hk ..)

theorem publishExc (w : World) (m : LogId) (e : Event) : Said Q w (publishExc env w m e).1 := by
  simp only [Verif.publishExc]
  split
  · exact refl w
  · exact hooks hk ..

theorem begin_ (w : World) (a : ActId) (m : Option String) (f : List Val) (kw : Dict) : Said Q w (begin_ env w a m f kw).1 := by
  simp only [Verif.begin_]
  split
  · exact refl w
  · split
    · exact ofEq rfl
    · exact trans (ofEq rfl) (publish hk ..)

theorem warn (w : World) (a : ActId) (m : String) (f : List Val) (kw : Dict) : Said Q w (warn env w a m f kw).1 := by
  simp only [Verif.warn]
  split
  · exact refl w
  · exact trans (ofEq rfl) (publish hk ..)

theorem endWith (w : World) (a : ActId) (st : Status) (m : String) (f : List Val) (t : Int) (exc : Option Exc) :
    Said Q w (endWith env w a st m f t exc).1 := by
  simp only [Verif.endWith]
  split
  · exact refl w
  · split
    · exact ofEq rfl
    · exact trans (ofEq rfl) (publish hk ..)

omit hk in
theorem andThen {w : World} {r : World × Option Exc} {k : World → World × Option Exc} (h : Said Q w r.1)
    (hk : ∀ w', Said Q w' (k w').1) : Said Q w (andThen r k).1 := by
  obtain ⟨w1, e⟩ := r
  cases e with
  | none => exact h.trans (hk w1)
  | some e => exact h

theorem end_ (w : World) (a : ActId) (st : Status) (m : String) (f : List Val) (kw : Dict) (et : Option Int) (exc : Option Exc) :
    Said Q w (end_ env w a st m f kw et exc).1 := by
  simp only [Verif.end_]
  split
  · exact refl w
  · split
    · split
      · split
        · exact trans (ofEq rfl) (endWith hk ..)
        · exact trans (ofEq rfl) (endWith hk ..)
      · exact trans (ofEq rfl) (endWith hk ..)
    · refine trans (ofEq rfl) (andThen (begin_ hk ..) fun w' => ?_)
      split
      · exact refl _
      · exact endWith hk ..

theorem success (w : World) (a : ActId) (m : Option String) (f : List Val) (kw : Dict) : Said Q w (success env w a m f kw).1 := by
  simp only [Verif.success]; split
  · exact refl w
  · exact end_ hk ..

theorem failure (w : World) (a : ActId) (m : Option String) (f : List Val) (kw : Dict) : Said Q w (failure env w a m f kw).1 := by
  simp only [Verif.failure]; split
  · exact refl w
  · exact end_ hk ..

theorem exception_ (w : World) (a : ActId) (cur : Option Exc) (m : Option String) (f : List Val) (kw : Dict) :
    Said Q w (exception_ env w a cur m f kw).1 := by
  simp only [Verif.exception_]
  split
  · exact refl w
  · split
    · exact ofEq rfl
    · split
      · exact ofEq rfl
      · exact trans (ofEq rfl) (andThen (publishExc hk ..) fun w' => end_ hk ..)

theorem enter (w : World) (a : ActId) : Said Q w (enter env w a).1 := by
  simp only [Verif.enter]
  split
  · exact refl w
  · exact trans (ofEq rfl) (begin_ hk ..)

theorem exitPublish (w : World) (a : ActId) (exc : Option Exc) (hn : ∀ x ∈ w.noteHandlers, ∀ n, Q (.note x n)) :
    Said Q w (exitPublish env w a exc).1 := by
  simp only [Verif.exitPublish]
  split
  · exact refl w
  · rename_i x hx
    cases exc with
    | some e =>
      simp only
      have h2 : Said Q w (Verif.exception_ env (w.setAct a { x with defer := false }) a (some e) none [] []).1 :=
        trans (ofEq rfl) (exception_ hk ..)
      have hc := (keep_exception (env := env) (w := w.setAct a { x with defer := false }) a (some e) none [] []).noteHandlers
      cases hr : Verif.exception_ env (w.setAct a { x with defer := false }) a (some e) none [] [] with
      | mk w1 r =>
        rw [hr] at h2 hc
        cases r with
        | none => exact h2
        | some err =>
          obtain ⟨c, tg⟩ := err
          cases c with
          | baseOnly => exact h2
          | ordinary => exact h2.trans (noteAll (by rw [hc]; exact hn) _)
    | none =>
      simp only
      split
      · exact trans (ofEq rfl) (publish hk ..)
      · exact trans (ofEq rfl) (success hk ..)

theorem exit (w : World) (a : ActId) (exc : Option Exc) (hn : ∀ x ∈ w.noteHandlers, ∀ n, Q (.note x n)) :
    Said Q w (exit env w a exc).1 := by
  simp only [Verif.exit]
  split
  · exact refl w
  · have h := exitPublish (env := env) hk w a exc hn
    cases hr : Verif.exitPublish env w a exc with
    | mk w1 r =>
      rw [hr] at h
      cases r with
      | some e => exact h
      | none => exact h.trans (ofEq rfl)

theorem comment (w : World) (m : LogId) (msg : String) (f : List Val) (kw : Dict) : Said Q w (comment env w m msg f kw).1 := by
  simp only [Verif.comment]
  split
  · exact refl w
  · exact trans (ofEq rfl) (publish hk ..)

omit hk in
theorem runPreflush {m : LogId} (hp : ∀ h, Q (.preflush m h)) (hs : List Nat) (w : World)
    (hn : ∀ x ∈ w.noteHandlers, ∀ n, Q (.note x n)) : Said Q w (runPreflush env m hs w).1 := by
  induction hs generalizing w with
  | nil => exact refl w
  | cons h hs ih =>
    have h0 : Said Q w (callback env w (.preflush m h)).1 := ⟨[.preflush m h], rfl, by simpa using hp h⟩
    have hc : (callback env w (.preflush m h)).1.noteHandlers = w.noteHandlers := rfl
    simp only [Verif.runPreflush]
    cases hr : callback env w (.preflush m h) with
    | mk w1 r =>
      rw [hr] at h0 hc
      dsimp only at hc
      cases r with
      | none => exact h0.trans (ih _ (by rw [hc]; exact hn))
      | some e =>
        obtain ⟨c, tg⟩ := e
        cases c with
        | baseOnly => exact h0
        | ordinary =>
          simp only
          have h1 := h0.trans (noteAll (env := env) (w := w1) (by rw [hc]; exact hn) "preflush")
          have hc2 := (noteAll_flushLike env "preflush" w1).noteHandlers
          cases hx : Verif.noteAll env "preflush" w1 with
          | mk w2 r =>
            rw [hx] at h1 hc2
            dsimp only at hc2
            cases r with
            | none => exact h1.trans (ih _ (by rw [hc2, hc]; exact hn))
            | some e => exact h1

theorem drain (m : LogId) (L : Log) (q : List (Kind × Event)) (w : World) (hn : ∀ x ∈ w.noteHandlers, ∀ n, Q (.note x n)) :
    Said Q w (drain env m L q w).1 := by
  induction q generalizing w with
  | nil => exact ofEq rfl
  | cons p q ih =>
    obtain ⟨k, e⟩ := p
    have h0 : Said Q w (deliver env L k e (w.setLog m { L with queue := q })).1 := by
      refine Said.trans (b := w.setLog m { L with queue := q }) (ofEq rfl) ?_
      cases k <;> first | (refine noteAll ?_ _; exact hn) | exact hooks hk ..
    have hc : (deliver env L k e (w.setLog m { L with queue := q })).1.noteHandlers = w.noteHandlers := by
      cases k <;> simp only [deliver, Verif.noteAll, callAll_eq] <;> rfl
    simp only [Verif.drain]
    cases hr : deliver env L k e (w.setLog m { L with queue := q }) with
    | mk w1 r =>
      rw [hr] at h0 hc
      dsimp only at hc
      cases r with
      | some e => exact h0
      | none => exact h0.trans (ih w1 (by rw [hc]; exact hn))

theorem flush (w : World) (m : LogId) (hp : ∀ h, Q (.preflush m h)) (hn : ∀ x ∈ w.noteHandlers, ∀ n, Q (.note x n)) :
    Said Q w (flush env w m).1 := by
  simp only [Verif.flush]
  split
  · exact refl w
  · rename_i L hL
    have h1 := runPreflush (env := env) hp L.preflush w hn
    have hc := (runPreflush_flushLike env m L.preflush w).noteHandlers
    cases hr : Verif.runPreflush env m L.preflush w with
    | mk w1 r =>
      rw [hr] at h1 hc
      dsimp only at hc
      cases r with
      | some e => exact h1
      | none =>
        simp only
        have h2 := h1.trans (drain (env := env) hk m L L.queue w1 (by rw [hc]; exact hn))
        cases hd : Verif.drain env m L L.queue w1 with
        | mk w2 r =>
          rw [hd] at h2
          cases r with
          | some e => exact h2
          | none => exact h2.trans (ofEq rfl)

omit hk in
theorem guard {w : World} {a : ActId} {r : World × Option Exc} (h : Said Q w r.1) : Said Q w (guard w a r).1 := by
  simp only [Verif.guard]; split
  · exact h
  · exact refl w

end Said

theorem setAsync_trace (w : World) (l : LogId) (b : Bool) : (setAsync w l b).trace = w.trace := by
  simp only [setAsync]; split <;> rfl

theorem onLog_trace (w : World) (l : LogId) (f : Log → Log) : (onLog w l f).trace = w.trace := by
  simp only [onLog]; split <;> rfl

/-- Does the item make notes? -/
def notesIn : Item → Bool
  | .exit .. | .op (.flush _) => true
  | _ => false

theorem said_item {env : Env} {Q : Obs → Prop} {w : World} (hk : ∀ s k e, Q (.hook s k e)) (hp : ∀ l h, Q (.preflush l h)) (it : Item)
    (hs : Contexts.isCall it) (hn : notesIn it → ∀ x ∈ w.noteHandlers, ∀ n, Q (.note x n)) : Said Q w (stepItem env w it) := by
  cases it with
  | enter a => exact Said.guard (.enter hk ..)
  | exit a exc =>
    simp only [stepItem]; split
    · exact .exit hk w a exc (hn rfl)
    · exact .refl w
  | op o =>
    cases o <;> simp only [Contexts.isCall, Bool.false_eq_true] at hs <;> simp only [stepItem, step, ret]
    case newAction m lv nm kw =>
      split
      · exact .refl w
      · exact .ofEq rfl
    case begin a m f kw => exact Said.guard (.begin_ hk ..)
    case warn a m f kw => exact Said.guard (.warn hk ..)
    case success a m f kw => exact Said.guard (.success hk ..)
    case failure a m f kw => exact Said.guard (.failure hk ..)
    case exception a c m f kw => exact Said.guard (.exception_ hk ..)
    case setItem a k v =>
      refine Said.guard ?_
      simp only [setItem]; split
      · exact .refl w
      · exact .ofEq rfl
    case comment m t f kw => exact .comment hk ..
    case flush m => exact .flush hk w m (hp m) (hn rfl)
    case setAsync m b => exact .ofEq (setAsync_trace ..)
    case setSinks m ss => exact .ofEq (onLog_trace ..)
    case addSink m ss => exact .ofEq (onLog_trace ..)
    case clearSinks m => exact .ofEq (onLog_trace ..)
    case addPreflush m p => exact .ofEq (onLog_trace ..)

/-! ## The invariants of the shared state -/

/-- Everything that is known of the state whatever the contexts are. -/
structure WInv (env : Env) (w : World) : Prop where
  trans : TransOK w.core
  ids : IdInv w.core
  pre : DelPre w
  q : QInv env w.del
  count : CountInv w.del

theorem winv_init (env : Env) : WInv env World.init :=
  ⟨transOK_init, idInv_init, delPre_init, qInv_init env, (Reachable.init env).countInv⟩

theorem WInv.fresh {env : Env} {w : World} (h : WInv env w) : w.acts w.nextId = none := by
  cases hx : w.acts w.nextId with
  | none => rfl
  | some x => exact absurd (h.ids.actLt _ x hx) (by simp [World.core])

theorem WInv.withCtx {env : Env} {w : World} (h : WInv env w) (c : Contexts.Ctx) : WInv env (Contexts.withCtx w c) :=
  ⟨h.trans, h.ids, ⟨h.pre.log, h.pre.ev⟩, h.q, h.count⟩

theorem WInv.star {env : Env} {w w' : World} (h : WInv env w) (hc : w'.core = w.core) (hd : Star (DelStep env) w.del w'.del) :
    WInv env w' := by
  have hq := hd.inv (P := fun d => QInv env d ∧ CountInv d) (fun _ _ h s => ⟨qInv_step h.1 s, countInv_step h.1 h.2 s⟩) ⟨h.q, h.count⟩
  refine ⟨hc ▸ h.trans, hc ▸ h.ids, ⟨?_, hc ▸ h.pre.ev⟩, hq.1, hq.2⟩
  intro a x hx
  have : w'.acts = w.acts := congrArg Core.acts hc
  exact DelStar.logs_mono hd x.logger (h.pre.log a x (this ▸ hx))

theorem WInv.item {env : Env} {w : World} (h : WInv env w) (it : Item) : WInv env (stepItem env w it) := by
  have h1 := del_item (env := env) h.pre it
  have hq := h1.inv (P := fun d => QInv env d ∧ CountInv d) (fun _ _ h s => ⟨qInv_step h.1 s, countInv_step h.1 h.2 s⟩) ⟨h.q, h.count⟩
  have h3 := (core_stepItem (env := env) h.trans it).inv (P := fun c => TransOK c ∧ IdInv c ∧ EvInv c)
    (fun _ _ h s => ⟨transOK_step h.1 s, idInv_step h.2.1 s, evInv_step h.2.1 h.2.2 s⟩) ⟨h.trans, h.ids, h.pre.ev⟩
  exact ⟨h3.1, h3.2.1, ⟨logOK_item h.ids h.pre it, h3.2.2⟩, hq.1, hq.2⟩

namespace Contexts
variable {env : Env}

theorem flushAll_star (s : Sys) (c : CtxId) (ls : List LogId) (w : World) :
    (flushAll env s c ls w).1.core = w.core ∧ Star (FlushStep env) w.del (flushAll env s c ls w).1.del := by
  induction ls generalizing w with
  | nil => exact ⟨rfl, .refl _⟩
  | cons l ls ih =>
    simp only [flushAll]
    have hf := fl_flush (env := env) (withCtx w (s.ctx (s.owner l))) l
    have hc := (flush_flushLike env (withCtx w (s.ctx (s.owner l))) l).coreEq
    cases hr : flush env (withCtx w (s.ctx (s.owner l))) l with
    | mk w1 r =>
      rw [hr] at hf hc
      replace hf : Star (FlushStep env) w.del w1.del := hf
      replace hc : w1.core = w.core := hc
      cases r with
      | none => exact ⟨(ih _).1.trans hc, Star.trans hf (ih _).2⟩
      | some e =>
        obtain ⟨k, t⟩ := e
        cases k with
        | baseOnly => exact ⟨hc, hf⟩
        | ordinary =>
          simp only
          have hn := fl_noteAll env "context_flush" (withCtx w1 (s.ctx c))
          have hd := (noteAll_flushLike env "context_flush" (withCtx w1 (s.ctx c))).coreEq
          cases hr2 : noteAll env "context_flush" (withCtx w1 (s.ctx c)) with
          | mk w2 r2 =>
            rw [hr2] at hn hd
            replace hn : Star (FlushStep env) w1.del w2.del := hn
            replace hd : w2.core = w1.core := hd
            cases r2 with
            | none => exact ⟨(ih _).1.trans (hd.trans hc), Star.trans hf (Star.trans hn (ih _).2)⟩
            | some e' => exact ⟨hd.trans hc, Star.trans hf hn⟩

theorem winv_flushAll {w : World} (h : WInv env w) (s : Sys) (c : CtxId) (ls : List LogId) : WInv env (flushAll env s c ls w).1 :=
  h.star (flushAll_star s c ls w).1 ((flushAll_star s c ls w).2.map fun _ _ => .flush)

theorem winv_allSync {w : World} (h : WInv env w) (ls : List LogId) : WInv env (allSync ls w) :=
  h.star (foldl_setAsync_flushLike ls false w).coreEq ((cfg_foldl_setAsync ls false w).map fun _ _ => .cfg)

theorem apart_allSync {l : LogId} (ls : List LogId) (h : l ∉ ls) (w : World) : Apart l w (allSync ls w) := by
  induction ls generalizing w with
  | nil => exact .refl w
  | cons m ls ih =>
    exact (Apart.setAsync w (by rintro rfl; exact h (by simp)) false).trans (ih (fun h' => h (by simp [h'])) _)

theorem apart_withCtx {l : LogId} (w : World) (c : Ctx) : Apart l w (withCtx w c) := .ofEq rfl rfl rfl rfl rfl

theorem apart_flushAll {l : LogId} (s : Sys) (c : CtxId) (ls : List LogId) (h : l ∉ ls) {w : World} (hi : WInv env w) :
    Apart l w (flushAll env s c ls w).1 := by
  induction ls generalizing w with
  | nil => exact .refl w
  | cons m ls ih =>
    have hm : m ≠ l := by rintro rfl; exact h (by simp)
    replace ih := fun {w} => ih (fun h' => h (by simp [h'])) (w := w)
    simp only [flushAll]
    have hf := (apart_withCtx w (s.ctx (s.owner m))).trans (Apart.flush (hi.withCtx (s.ctx (s.owner m))).q hm)
    have h1 : WInv env (flush env (withCtx w (s.ctx (s.owner m))) m).1 :=
      (hi.withCtx (s.ctx (s.owner m))).star (flush_flushLike env (withCtx w (s.ctx (s.owner m))) m).coreEq
        ((fl_flush (env := env) (withCtx w (s.ctx (s.owner m))) m).map fun _ _ => .flush)
    cases hr : flush env (withCtx w (s.ctx (s.owner m))) m with
    | mk w1 r =>
      rw [hr] at hf h1
      cases r with
      | none => exact hf.trans (ih h1)
      | some e =>
        obtain ⟨k, t⟩ := e
        cases k with
        | baseOnly => exact hf
        | ordinary =>
          simp only
          have hn := (hf.trans (apart_withCtx w1 (s.ctx c))).trans (Apart.noteAll (env := env) _ "context_flush")
          have h2 : WInv env (noteAll env "context_flush" (withCtx w1 (s.ctx c))).1 :=
            (h1.withCtx (s.ctx c)).star (noteAll_flushLike env "context_flush" (withCtx w1 (s.ctx c))).coreEq
              ((fl_noteAll env "context_flush" (withCtx w1 (s.ctx c))).map fun _ _ => .flush)
          cases hr2 : noteAll env "context_flush" (withCtx w1 (s.ctx c)) with
          | mk w2 r2 =>
            rw [hr2] at hn h2
            cases r2 with
            | none => exact hn.trans (ih h2)
            | some e' => exact hn

theorem said_flushAll {Q : Obs → Prop} (hk : ∀ s k e, Q (.hook s k e)) (hp : ∀ l h, Q (.preflush l h)) (s : Sys) (c : CtxId)
    (hc : ∀ x ∈ (s.ctx c).handlers, ∀ n, Q (.note x n)) (ls : List LogId)
    (ho : ∀ l ∈ ls, ∀ x ∈ (s.ctx (s.owner l)).handlers, ∀ n, Q (.note x n)) (w : World) : Said Q w (flushAll env s c ls w).1 := by
  induction ls generalizing w with
  | nil => exact .refl w
  | cons m ls ih =>
    replace ih := fun {w} => ih (fun l h' => ho l (by simp [h'])) (w := w)
    simp only [flushAll]
    have hf : Said Q w (flush env (withCtx w (s.ctx (s.owner m))) m).1 :=
      Said.trans (b := withCtx w (s.ctx (s.owner m))) (.ofEq rfl) (.flush hk _ _ (hp m) (ho m (by simp)))
    cases hr : flush env (withCtx w (s.ctx (s.owner m))) m with
    | mk w1 r =>
      rw [hr] at hf
      cases r with
      | none => exact hf.trans ih
      | some e =>
        obtain ⟨k, t⟩ := e
        cases k with
        | baseOnly => exact hf
        | ordinary =>
          simp only
          have hn : Said Q w (noteAll env "context_flush" (withCtx w1 (s.ctx c))).1 :=
            (hf.trans (b := w1) (c := withCtx w1 (s.ctx c)) (.ofEq rfl)).trans (.noteAll hc "context_flush")
          cases hr2 : noteAll env "context_flush" (withCtx w1 (s.ctx c)) with
          | mk w2 r2 =>
            rw [hr2] at hn
            cases r2 with
            | none => exact hn.trans ih
            | some e' => exact hn

/-! ## The invariants of all contexts -/

structure SInv (env : Env) (s : Sys) : Prop where
  w : WInv env s.w
  glob : ∀ c, s.glob = some c → c < s.next
  unmade : ∀ c, s.next ≤ c → s.ctx c = {}
  owner : ∀ l, s.w.logs l ≠ none → s.owner l < s.next
  nodup : ∀ c, (s.ctx c).loggers.Nodup
  made : ∀ c l, l ∈ (s.ctx c).loggers → s.w.logs l ≠ none

theorem sinv_init (env : Env) : SInv env Sys.init :=
  ⟨winv_init env, by simp [Sys.init], fun _ _ => rfl, by simp [Sys.init, World.init], by simp [Sys.init], by simp [Sys.init]⟩

theorem nodup_add {c : Ctx} (h : c.loggers.Nodup) (l : LogId) : (Ctx.add l c).loggers.Nodup := by
  simp only [Ctx.add]; split
  · exact h
  · rename_i hl
    simp only [List.nodup_append, h, List.nodup_cons, List.not_mem_nil, not_false_eq_true, List.nodup_nil, and_self, List.mem_singleton,
      true_and]
    rintro a ha b rfl rfl; exact hl ha

theorem mem_add {c : Ctx} {l m : LogId} : m ∈ (Ctx.add l c).loggers ↔ m ∈ c.loggers ∨ m = l := by
  simp only [Ctx.add]; split
  · rename_i h; constructor
    · exact .inl
    · rintro (h' | rfl)
      · exact h'
      · exact h
  · simp

theorem SInv.setCtx {s : Sys} (h : SInv env s) {c : CtxId} (hc : c < s.next) (f : Ctx → Ctx) (hn : (f (s.ctx c)).loggers.Nodup)
    (hm : ∀ l ∈ (f (s.ctx c)).loggers, s.w.logs l ≠ none) : SInv env (s.setCtx c f) := by
  refine ⟨h.w, h.glob, fun d hd => ?_, h.owner, fun d => ?_, fun d l hl => ?_⟩
  · simp only [Sys.setCtx]
    rw [Function.update_of_ne (by rintro rfl; exact absurd hc (by simpa [Sys.setCtx] using hd))]
    exact h.unmade d hd
  · by_cases e : d = c
    · subst e; simpa [Sys.setCtx] using hn
    · simp only [Sys.setCtx]; rw [Function.update_of_ne e]; exact h.nodup d
  · by_cases e : d = c
    · subst e; exact hm l (by simpa [Sys.setCtx] using hl)
    · simp only [Sys.setCtx] at hl; rw [Function.update_of_ne e] at hl; exact h.made d l hl

/-- Replacing the shared state by a later one. -/
theorem SInv.setW {s : Sys} (h : SInv env s) {w : World} (hw : WInv env w) (hl : ∀ l, (w.logs l).isSome = (s.w.logs l).isSome) :
    SInv env { s with w := w } := by
  have e : ∀ l, w.logs l ≠ none ↔ s.w.logs l ≠ none := by
    intro l; have := hl l
    cases h1 : w.logs l <;> cases h2 : s.w.logs l <;> simp_all
  exact ⟨hw, h.glob, h.unmade, fun l h' => h.owner l ((e l).1 h'), h.nodup, fun c l h' => (e l).2 (h.made c l h')⟩

theorem star_isSome {R : Del → Del → Prop} (hR : ∀ d d', R d d' → ∀ l, (d'.logs l).isSome = (d.logs l).isSome) {d d' : Del}
    (h : Star R d d') (l : LogId) : (d'.logs l).isSome = (d.logs l).isSome := by
  induction h with
  | refl => rfl
  | tail _ s ih => exact (hR _ _ s l).trans ih

theorem onLog_isSome (w : World) (m : LogId) (f : Log → Log) (l : LogId) : ((onLog w m f).logs l).isSome = (w.logs l).isSome := by
  simp only [onLog]; split
  · rfl
  · rename_i L hL
    simp only [World.setLog]; split
    · subst_vars; simp [hL]
    · rfl

theorem setAsync_isSome (w : World) (m : LogId) (b : Bool) (l : LogId) : ((setAsync w m b).logs l).isSome = (w.logs l).isSome :=
  onLog_isSome w m (fun L => { L with async := b }) l

theorem allSync_isSome (ls : List LogId) (w : World) (l : LogId) : ((allSync ls w).logs l).isSome = (w.logs l).isSome := by
  induction ls generalizing w with
  | nil => rfl
  | cons m ls ih => exact (ih _).trans (setAsync_isSome ..)

theorem flushAll_isSome (s : Sys) (c : CtxId) (ls : List LogId) (w : World) (l : LogId) :
    ((flushAll env s c ls w).1.logs l).isSome = (w.logs l).isSome :=
  star_isSome (R := FlushStep env) (fun _ _ h l => h.logs_mono l) (flushAll_star s c ls w).2 l

theorem call_isSome {w : World} (hp : DelPre w) (it : Verif.Item) (hs : isCall it) (l : LogId) :
    ((stepItem env w it).logs l).isSome = (w.logs l).isSome := by
  cases hk : it.kind with
  | pub => exact star_isSome (R := PubStep env) (fun _ _ h l => h.logs_mono l) (pub_item hp it hk) l
  | flush => exact star_isSome (R := FlushStep env) (fun _ _ h l => h.logs_mono l) (flush_item it hk) l
  | cfg =>
    cases it with
    | enter a => simp [Verif.Item.kind] at hk
    | exit a exc => simp [Verif.Item.kind] at hk
    | op o =>
      cases o <;> simp only [isCall, Bool.false_eq_true] at hs <;> simp only [Verif.Item.kind, reduceCtorEq] at hk <;>
        simp only [stepItem, Verif.step]
      case setAsync m b => exact setAsync_isSome ..
      all_goals exact onLog_isSome ..
  | disable =>
    cases it with
    | enter a => simp [Verif.Item.kind] at hk
    | exit a exc => simp [Verif.Item.kind] at hk
    | op o =>
      cases o <;> simp only [isCall, Bool.false_eq_true] at hs <;> simp only [Verif.Item.kind, reduceCtorEq] at hk

theorem SInv.newCtx {s : Sys} (h : SInv env s) (g : Option CtxId) (hg : ∀ c, g = some c → c < s.next + 1) :
    SInv env { s with ctx := Function.update s.ctx s.next {}, next := s.next + 1, glob := g } := by
  have e : Function.update s.ctx s.next {} = s.ctx := by
    funext d; by_cases hd : d = s.next
    · subst hd; simp [h.unmade s.next (Nat.le_refl _)]
    · simp [Function.update_of_ne hd]
  rw [e]
  exact ⟨h.w, hg, fun c hc => h.unmade c (Nat.le_of_succ_le hc), fun l hl => Nat.lt_succ_of_lt (h.owner l hl), h.nodup, h.made⟩

theorem SInv.newLoggerIn {s : Sys} (h : SInv env s) {l : LogId} (hl : s.w.logs l = none) {c : CtxId} (hc : c < s.next)
    (ss : List SinkId) (as : Option Bool) : SInv env (newLoggerIn env s l c ss as) := by
  have hd : Star (DelStep env) s.w.del (s.w.tick.setLog l (newLog env (s.load (some c)) ss as)).del :=
    .single (.cfg (CfgStep.newLog s.w.del l _ hl (newLog_queue ..) (newLog_regOk ..)))
  have hw : WInv env (s.w.tick.setLog l (newLog env (s.load (some c)) ss as)) := h.w.star rfl hd
  have h1 : SInv env { s with w := s.w.tick.setLog l (newLog env (s.load (some c)) ss as), owner := Function.update s.owner l c } := by
    refine ⟨hw, h.glob, h.unmade, fun m hm => ?_, h.nodup, fun d m hm => ?_⟩
    · by_cases e : m = l
      · subst e; simpa using hc
      · simp only [Function.update_of_ne e]
        refine h.owner m ?_
        simpa [World.setLog, World.tick, e] using hm
    · simp only [World.setLog]; split
      · simp
      · exact h.made d m hm
  refine h1.setCtx hc _ (nodup_add (h.nodup c) l) fun m hm => ?_
  simp only [World.setLog]
  rcases mem_add.1 hm with hm | rfl
  · split
    · simp
    · exact h.made c m hm
  · simp

theorem SInv.getContext {s : Sys} (h : SInv env s) : SInv env s.getContext.1 ∧ s.getContext.2 < s.getContext.1.next ∧
    s.getContext.1.w = s.w ∧ s.getContext.1.ctx = s.ctx := by
  simp only [Sys.getContext]
  split
  · rename_i c hc; exact ⟨h, h.glob c hc, rfl, rfl⟩
  · refine ⟨h.newCtx (some s.next) (by simp), by simp, rfl, ?_⟩
    funext d; by_cases hd : d = s.next
    · subst hd; simp [h.unmade s.next (Nat.le_refl _)]
    · simp [Function.update_of_ne hd]

theorem SInv.step {s : Sys} (h : SInv env s) (it : Item) : SInv env (step env s it) := by
  cases it with
  | newCtx => exact h.newCtx s.glob fun c hc => Nat.lt_succ_of_lt (h.glob c hc)
  | setContext c =>
    cases c with
    | none => exact ⟨h.w, by simp [Contexts.step], h.unmade, h.owner, h.nodup, h.made⟩
    | some c =>
      simp only [Contexts.step]; split
      · rename_i hc; exact ⟨h.w, by simpa using hc, h.unmade, h.owner, h.nodup, h.made⟩
      · exact h
  | newLogger l c ss as =>
    simp only [Contexts.step, newLogger]
    split
    · exact h
    · rename_i hl
      cases c with
      | some c =>
        simp only; split
        · rename_i hc; exact h.newLoggerIn hl hc ss as
        · exact h
      | none =>
        obtain ⟨h1, h2, h3, -⟩ := h.getContext
        exact h1.newLoggerIn (by rw [h3]; exact hl) h2 ss as
  | on c o =>
    simp only [Contexts.step]; split
    · rename_i hc
      have hA : ∀ u : Bool, WInv env (if u then allSync (s.ctx c).loggers s.w else s.w) ∧
          ∀ l, ((if u then allSync (s.ctx c).loggers s.w else s.w).logs l).isSome = (s.w.logs l).isSome := by
        intro u; cases u
        · exact ⟨h.w, fun _ => rfl⟩
        · exact ⟨winv_allSync h.w _, allSync_isSome _ _⟩
      cases o with
      | flush => exact h.setW (winv_flushAll h.w ..) fun l => flushAll_isSome ..
      | enable u =>
        refine (h.setW (hA u).1 (hA u).2).setCtx hc (fun x => { x with async := true }) (h.nodup c) ?_
        exact fun l hl => (h.setW (hA u).1 (hA u).2).made c l hl
      | disable u =>
        simp only [onCtx]
        have h1 := h.setW (winv_flushAll (hA u).1 s c (s.ctx c).loggers) fun l => (flushAll_isSome ..).trans ((hA u).2 l)
        cases hr : flushAll env s c (s.ctx c).loggers (if u then allSync (s.ctx c).loggers s.w else s.w) with
        | mk w1 r =>
          rw [hr] at h1
          cases r with
          | none => exact h1.setCtx hc (fun x => { x with async := false }) (h.nodup c) (fun l hl => h1.made c l hl)
          | some e => exact h1
      | add l =>
        simp only [onCtx]; split
        · exact h
        · rename_i L hL
          refine h.setCtx hc _ (nodup_add (h.nodup c) l) fun m hm => ?_
          rcases mem_add.1 hm with hm | rfl
          · exact h.made c m hm
          · simp [hL]
      | remove l =>
        exact h.setCtx hc (fun x => { x with loggers := x.loggers.filter (· ≠ l) }) ((h.nodup c).filter _) fun m hm => h.made c m (List.mem_filter.1 hm).1
      | handler x => exact h.setCtx hc (fun y => { y with handlers := y.handlers ++ [x] }) (h.nodup c) (fun l hl => h.made c l hl)
    · exact h
  | call it =>
    simp only [Contexts.step]; split
    · rename_i hs
      exact h.setW ((h.w.withCtx _).item it) fun l => call_isSome (h.w.withCtx _).pre it hs l
    · exact h

theorem Reachable.sinv {s : Sys} (h : Reachable env s) : SInv env s := by
  obtain ⟨its, rfl⟩ := h
  suffices ∀ s, SInv env s → SInv env (run env s its) from this _ (sinv_init env)
  induction its with
  | nil => exact fun _ h => h
  | cons it its ih => exact fun s h => ih _ (h.step it)

end Contexts
end Verif
