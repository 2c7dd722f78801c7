import Verif.Lemmas.Delivery
/-!
# Fields of an action no operation changes; loggers of actions exist; registry steps
-/
namespace Verif

/-- What is fixed at construction. -/
def Act.fixed (x : Act) : LogId × Int × String × Val × Option ActId × Bool :=
  (x.logger, x.level, x.name, x.reraise, x.parent, x.handle)

/-- All actions of both states agree on the fixed fields. -/
structure SameFixed (w w' : World) : Prop where
  eq : ∀ b, (w'.acts b).map Act.fixed = (w.acts b).map Act.fixed

theorem SameFixed.refl (w : World) : SameFixed w w := ⟨fun _ => rfl⟩
theorem SameFixed.trans {a b c : World} (h : SameFixed a b) (g : SameFixed b c) : SameFixed a c :=
  ⟨fun x => (g.eq x).trans (h.eq x)⟩
theorem SameFixed.ofActs {w w' : World} (h : w'.acts = w.acts) : SameFixed w w' := by
  constructor; intro b; rw [h]
theorem SameFixed.upd {w w' : World} {a : ActId} {x y : Act} (hx : w.acts a = some x)
    (h : w'.acts = updAct w.acts a y) (hf : y.fixed = x.fixed) : SameFixed w w' := by
  constructor
  intro b
  rw [h]
  by_cases hb : b = a
  · subst hb; simp [hx, hf]
  · rw [updAct_ne _ _ hb]

section
variable {env : Env} {w : World} {a : ActId} {x : Act}

theorem fixed_begin (w : World) (a : ActId) (m : Option String) (f : List Val) (kw : Dict) :
    SameFixed w (begin_ env w a m f kw).1 := by
  cases hx : w.acts a with
  | none => simp only [begin_, hx]; exact .refl w
  | some x =>
    obtain ⟨b, hb⟩ := begin_acts (env := env) hx m f kw
    exact .upd hx hb rfl

theorem fixed_warn (w : World) (a : ActId) (m : String) (f : List Val) (kw : Dict) :
    SameFixed w (warn env w a m f kw).1 := by
  cases hx : w.acts a with
  | none => simp only [warn, hx]; exact .refl w
  | some x =>
    simp only [warn, hx]
    exact .upd (y := { x with
      data := x.data.update kw
      warnEvs := x.warnEvs ++ [mkEvent w a x.logger .warn .warning (w.now env) m f none] })
      hx (by simp) rfl

theorem fixed_endWith (w : World) (a : ActId) (st : Status) (m : String) (f : List Val) (t : Int)
    (exc : Option Exc) : SameFixed w (endWith env w a st m f t exc).1 := by
  cases hx : w.acts a with
  | none => simp only [endWith, hx]; exact .refl w
  | some x =>
    simp only [endWith, hx]
    refine .upd (y := { x with endEv := some (mkEvent w a x.logger .end_ st t m f exc) }) hx ?_ rfl
    split <;> simp

theorem fixed_end (w : World) (a : ActId) (st : Status) (m : String) (f : List Val) (kw : Dict)
    (et : Option Int) (exc : Option Exc) : SameFixed w (end_ env w a st m f kw et exc).1 := by
  cases hx : w.acts a with
  | none => simp only [end_, hx]; exact .refl w
  | some x =>
    have h0 : SameFixed w (w.setAct a { x with data := x.data.update kw }) := .upd hx rfl rfl
    have h1 : SameFixed w (w.setAct a { x with data := x.data.update kw }).tick := .upd hx rfl rfl
    simp only [end_, hx]
    split
    · cases et with
      | none => exact h1.trans (fixed_endWith _ _ _ _ _ _ _)
      | some t =>
        simp only
        split
        · exact h1.trans (fixed_endWith _ _ _ _ _ _ _)
        · exact h0.trans (fixed_endWith _ _ _ _ _ _ _)
    · have hb := fixed_begin (env := env) (w.setAct a { x with data := x.data.update kw }) a none [] []
      cases hr : begin_ env (w.setAct a { x with data := x.data.update kw }) a none [] [] with
      | mk w1 r =>
        rw [hr] at hb
        cases r with
        | some e => exact h0.trans hb
        | none =>
          simp only [andThen]
          cases (w1.acts a).bind (·.beginEv) with
          | none => exact h0.trans hb
          | some b => exact (h0.trans hb).trans (fixed_endWith _ _ _ _ _ _ _)

theorem fixed_success (w : World) (a : ActId) (m : Option String) (f : List Val) (kw : Dict) :
    SameFixed w (success env w a m f kw).1 := by
  simp only [success]; split
  · exact .refl w
  · exact fixed_end ..

theorem fixed_failure (w : World) (a : ActId) (m : Option String) (f : List Val) (kw : Dict) :
    SameFixed w (failure env w a m f kw).1 := by
  simp only [failure]; split
  · exact .refl w
  · exact fixed_end ..

theorem fixed_exception (w : World) (a : ActId) (cur : Option Exc) (m : Option String)
    (f : List Val) (kw : Dict) : SameFixed w (exception_ env w a cur m f kw).1 := by
  simp only [exception_]
  split
  · exact .refl w
  · rename_i x hx
    cases env.excInfoErr cur with
    | some err => exact .ofActs rfl
    | none =>
      simp only
      cases (if falsy m then env.excText cur x.name (!x.data.isEmpty) else Except.ok (m.getD "")) with
      | error err => exact .ofActs rfl
      | ok msg =>
        simp only
        generalize hev : mkEvent w.tick a x.logger .exception .exception (w.now env) msg f cur = ev
        have hp := publishExc_acts env ((w.tick).bump.setAct a { x with excEvs := x.excEvs ++ [ev] })
          x.logger ev
        cases hr : publishExc env ((w.tick).bump.setAct a { x with excEvs := x.excEvs ++ [ev] })
          x.logger ev with
        | mk w1 r =>
          rw [hr] at hp
          dsimp only at hp
          have h1 : SameFixed w w1 := .upd (y := { x with excEvs := x.excEvs ++ [ev] }) hx (by rw [hp]; rfl) rfl
          cases r with
          | some e => exact h1
          | none => simp only [andThen]; exact h1.trans (fixed_end ..)

theorem fixed_enter (w : World) (a : ActId) : SameFixed w (enter env w a).1 := by
  simp only [enter]
  split
  · exact .refl w
  · rename_i x hx
    exact SameFixed.trans (.upd (y := { x with isTrans := true, defer := true }) hx (by simp) rfl)
      (fixed_begin _ _ _ _ _)

theorem fixed_exitPublish (w : World) (a : ActId) (exc : Option Exc) :
    SameFixed w (exitPublish env w a exc).1 := by
  simp only [exitPublish]
  split
  · exact .refl w
  · rename_i x hx
    have h0 : SameFixed w (w.setAct a { x with defer := false }) := .upd hx rfl rfl
    cases exc with
    | some e =>
      simp only
      have h2 := fixed_exception (env := env) (w.setAct a { x with defer := false }) a (some e) none [] []
      cases hr : exception_ env (w.setAct a { x with defer := false }) a (some e) none [] [] with
      | mk w1 r =>
        rw [hr] at h2
        cases r with
        | none => exact h0.trans h2
        | some err =>
          obtain ⟨c, tg⟩ := err
          cases c with
          | baseOnly => exact h0.trans h2
          | ordinary =>
            exact (h0.trans h2).trans (.ofActs (noteAll_flushLike env "action_exit" w1).core.acts)
    | none =>
      simp only
      split
      · exact h0.trans (.ofActs (by simp))
      · exact h0.trans (fixed_success ..)

theorem fixed_exit (w : World) (a : ActId) (exc : Option Exc) :
    SameFixed w (exit env w a exc).1 := by
  simp only [exit]
  split
  · exact .refl w
  · have h := fixed_exitPublish (env := env) w a exc
    cases hr : exitPublish env w a exc with
    | mk w1 r =>
      rw [hr] at h
      cases r with
      | some e => exact h
      | none => exact h.trans (.ofActs rfl)

end

theorem SameFixed.find {w w' : World} (h : SameFixed w w') {b : ActId} {y : Act}
    (hy : w'.acts b = some y) : ∃ x, w.acts b = some x ∧ y.fixed = x.fixed := by
  have := h.eq b
  rw [hy] at this
  cases hx : w.acts b with
  | none => rw [hx] at this; simp at this
  | some x => rw [hx] at this; exact ⟨x, rfl, by simpa using this⟩

/-- Registry and queue of every logger are consistent. -/
structure RegOk (env : Env) (L : Log) : Prop where
  nodup : L.sinks.Nodup
  hooks : ∀ k, L.hooks k = L.sinks.filter (fun s => env.hasHook s k)

theorem regOk_empty (env : Env) (L : Log) (h : L.sinks = []) (hh : ∀ k, L.hooks k = []) :
    RegOk env L := ⟨by simp [h], by simp [h, hh]⟩

theorem regOk_addSink {env : Env} {L : Log} (h : RegOk env L) (s : SinkId) :
    RegOk env (addSink env L s) := by
  simp only [addSink]
  split
  · exact h
  · rename_i hs
    refine ⟨?_, ?_⟩
    · simp only [List.nodup_append, h.nodup, List.nodup_cons, List.not_mem_nil, not_false_eq_true,
        List.nodup_nil, and_self, List.mem_singleton, true_and]
      rintro a ha b rfl rfl; exact hs ha
    · intro k
      simp only [List.filter_append, List.filter_cons, List.filter_nil]
      split <;> simp [h.hooks k]

theorem foldl_addSink_regOk {env : Env} (ss : List SinkId) {L : Log} (h : RegOk env L) :
    RegOk env (ss.foldl (addSink env) L) := by
  induction ss generalizing L with
  | nil => exact h
  | cons s ss ih => exact ih (regOk_addSink h s)

theorem regOk_setSinks (env : Env) (L : Log) (ss : List SinkId) : RegOk env (setSinks env L ss) :=
  foldl_addSink_regOk ss (regOk_empty env _ rfl fun _ => rfl)

/-- The parts of a logger registry operations do not touch. -/
def Log.rest (L : Log) : Bool × List (Kind × Event) × List Nat × Int :=
  (L.async, L.queue, L.preflush, L.lastFlush)

theorem addSink_rest (env : Env) (L : Log) (s : SinkId) : (addSink env L s).rest = L.rest := by
  simp only [addSink]; split <;> rfl

theorem foldl_addSink_rest (env : Env) (ss : List SinkId) (L : Log) :
    (ss.foldl (addSink env) L).rest = L.rest := by
  induction ss generalizing L with
  | nil => rfl
  | cons s ss ih => rw [List.foldl_cons, ih, addSink_rest]

theorem setSinks_rest (env : Env) (L : Log) (ss : List SinkId) : (setSinks env L ss).rest = L.rest :=
  foldl_addSink_rest env ss _

/-- Elementary changes made by configuration calls. -/
inductive CfgStep (env : Env) : Del → Del → Prop
  | newLog (d : Del) (l : LogId) (L : Log) : d.logs l = none → L.queue = [] → RegOk env L →
      CfgStep env d ⟨d.trace, updLog d.logs l L, d.pub⟩
  | async (d : Del) (l : LogId) (L : Log) (b : Bool) : d.logs l = some L →
      CfgStep env d ⟨d.trace, updLog d.logs l { L with async := b }, d.pub⟩
  | reg (d : Del) (l : LogId) (L L' : Log) : d.logs l = some L → L'.rest = L.rest →
      (RegOk env L → RegOk env L') →
      CfgStep env d ⟨d.trace, updLog d.logs l L', d.pub⟩
  | preflush (d : Del) (l : LogId) (L : Log) (hs : List Nat) : d.logs l = some L →
      CfgStep env d ⟨d.trace, updLog d.logs l { L with preflush := hs }, d.pub⟩

theorem CfgStep.logs_mono {env : Env} {d d' : Del} (s : CfgStep env d d') (l : LogId) :
    (d.logs l).isSome → (d'.logs l).isSome := by
  cases s <;> (simp only [updLog]; split <;> simp)

/-- Any elementary change. -/
inductive DelStep (env : Env) : Del → Del → Prop
  | pub {d d' : Del} : PubStep env d d' → DelStep env d d'
  | flush {d d' : Del} : FlushStep env d d' → DelStep env d d'
  | cfg {d d' : Del} : CfgStep env d d' → DelStep env d d'

theorem Star.map {α : Type} {R S : α → α → Prop} (h : ∀ a b, R a b → S a b) {a b : α}
    (g : Star R a b) : Star S a b := by
  induction g with
  | refl => exact .refl _
  | tail _ s ih => exact .tail ih (h _ _ s)

theorem DelStep.logs_mono {env : Env} {d d' : Del} (s : DelStep env d d') (l : LogId) :
    (d.logs l).isSome → (d'.logs l).isSome := by
  cases s with
  | pub s => rw [s.logs_mono]; exact id
  | flush s => rw [s.logs_mono]; exact id
  | cfg s => exact s.logs_mono l

theorem DelStar.logs_mono {env : Env} {d d' : Del} (s : Star (DelStep env) d d') (l : LogId) :
    (d.logs l).isSome → (d'.logs l).isSome := by
  induction s with
  | refl => exact id
  | tail _ s ih => exact fun h => s.logs_mono l (ih h)

/-- What kind of changes an item makes. -/
inductive ItemKind
  | pub
  | flush
  | cfg
  | disable

def Item.kind : Item → ItemKind
  | .enter _ => .pub
  | .exit _ _ => .pub
  | .op o =>
    match o with
    | .begin .. => .pub
    | .warn .. => .pub
    | .success .. => .pub
    | .failure .. => .pub
    | .exception .. => .pub
    | .comment .. => .pub
    | .setItem .. => .pub
    | .newAction .. => .pub
    | .flush .. => .flush
    | .ctxFlush => .flush
    | .disableAsync _ => .disable
    | _ => .cfg

/-- The invariant needed to decompose an item: actions have existing loggers and consistent ends. -/
structure DelPre (w : World) : Prop where
  log : LogOK w
  ev : EvInv w.core

theorem pub_guard {env : Env} {w : World} {a : ActId} {r : World × Option Exc}
    (h : ∀ x, w.acts a = some x → Star (PubStep env) w.del r.1.del) :
    Star (PubStep env) w.del (guard w a r).1.del := by
  simp only [guard]
  split
  · rename_i hh
    obtain ⟨x, hx, _⟩ := held_iff.1 hh
    exact h x hx
  · exact .refl _

theorem pub_item {env : Env} {w : World} (hp : DelPre w) (it : Item) (h : it.kind = .pub) :
    Star (PubStep env) w.del (stepItem env w it).del := by
  cases it with
  | enter a => exact pub_guard fun x hx => pub_enter hx (hp.log a x hx)
  | exit a exc =>
    simp only [stepItem]
    split
    · rename_i hh
      obtain ⟨x, hx, _⟩ := held_iff.1 hh
      refine pub_exit hx (hp.log a x hx) ?_ exc
      intro ev hev
      exact ⟨(hp.ev.act a x ev hx (.inr (.inl hev))).2, (hp.ev.endKind a x ev hx hev).1⟩
    · exact .refl _
  | op o =>
    cases o <;> simp only [Item.kind, reduceCtorEq] at h <;> simp only [stepItem, step, ret]
    case newAction l lv nm kw =>
      split
      · exact .refl _
      · exact .refl _
    case begin a m f kw => exact pub_guard fun x hx => pub_begin hx (hp.log a x hx) _ _ _
    case warn a m f kw => exact pub_guard fun x hx => pub_warn hx (hp.log a x hx) _ _ _
    case success a m f kw => exact pub_guard fun x hx => pub_success hx (hp.log a x hx) _ _ _
    case failure a m f kw => exact pub_guard fun x hx => pub_failure hx (hp.log a x hx) _ _ _
    case exception a cur m f kw =>
      exact pub_guard fun x hx => pub_exception hx (hp.log a x hx) _ _ _ _
    case setItem a k v =>
      refine pub_guard fun x hx => ?_
      simp only [setItem, hx]; exact .refl _
    case comment l m f kw => exact pub_comment ..

theorem flush_item {env : Env} {w : World} (it : Item) (h : it.kind = .flush) :
    Star (FlushStep env) w.del (stepItem env w it).del := by
  cases it with
  | enter a => simp [Item.kind] at h
  | exit a exc => simp [Item.kind] at h
  | op o =>
    cases o <;> simp only [Item.kind, reduceCtorEq] at h <;> simp only [stepItem, step, ret]
    case flush l => exact fl_flush ..
    case ctxFlush => exact fl_ctxFlush ..

theorem cfg_setAsync {env : Env} (w : World) (l : LogId) (b : Bool) :
    Star (CfgStep env) w.del (setAsync w l b).del := by
  simp only [setAsync]
  split
  · exact .refl _
  · rename_i L hL
    exact .single (CfgStep.async w.del l L b hL)

theorem cfg_foldl_setAsync {env : Env} (ls : List LogId) (b : Bool) (w : World) :
    Star (CfgStep env) w.del (ls.foldl (fun w l => setAsync w l b) w).del := by
  induction ls generalizing w with
  | nil => exact .refl _
  | cons l ls ih => exact (cfg_setAsync w l b).trans (ih _)

theorem addLogger_del (w : World) (l : LogId) : (addLogger w l).del = w.del := by
  simp only [addLogger]; split <;> rfl

theorem newLog_regOk (env : Env) (w : World) (ss : List SinkId) (as : Option Bool) :
    RegOk env (newLog env w ss as) := regOk_setSinks ..

theorem newLog_rest (env : Env) (w : World) (ss : List SinkId) (as : Option Bool) :
    (newLog env w ss as).rest = (as.getD w.ctxAsync, [], [], w.now env) := setSinks_rest ..

theorem newLog_queue (env : Env) (w : World) (ss : List SinkId) (as : Option Bool) :
    (newLog env w ss as).queue = [] := by
  have := newLog_rest env w ss as
  simp only [Log.rest, Prod.mk.injEq] at this
  exact this.2.1

theorem cfg_item {env : Env} {w : World} (it : Item) (h : it.kind = .cfg) :
    Star (CfgStep env) w.del (stepItem env w it).del := by
  cases it with
  | enter a => simp [Item.kind] at h
  | exit a exc => simp [Item.kind] at h
  | op o =>
    cases o <;> simp only [Item.kind, reduceCtorEq] at h <;> simp only [stepItem, step]
    case newLogger l ss as =>
      split
      · exact .refl _
      · rename_i hl
        refine .single ?_
        rw [addLogger_del]
        exact CfgStep.newLog w.del l _ hl (newLog_queue ..) (newLog_regOk ..)
    case setAsync l b => exact cfg_setAsync ..
    case setSinks l ss =>
      simp only [onLog]; split
      · exact .refl _
      · rename_i L hL
        exact .single (CfgStep.reg w.del l L _ hL (setSinks_rest ..) fun _ => regOk_setSinks ..)
    case addSink l s =>
      simp only [onLog]; split
      · exact .refl _
      · rename_i L hL
        exact .single (CfgStep.reg w.del l L _ hL (addSink_rest ..) fun h => regOk_addSink h s)
    case clearSinks l =>
      simp only [onLog]; split
      · exact .refl _
      · rename_i L hL
        exact .single (CfgStep.reg w.del l L _ hL (setSinks_rest ..) fun _ => regOk_setSinks ..)
    case addPreflush l h =>
      simp only [onLog]; split
      · exact .refl _
      · rename_i L hL
        exact .single (CfgStep.preflush w.del l L _ hL)
    case addNoteHandler h => exact .refl _
    case enableAsync u =>
      simp only [enableAsync]
      cases u
      · exact .refl _
      · exact cfg_foldl_setAsync w.ctxLoggers false { w with ctxAsync := true }
    case addLogger l =>
      split
      · exact .refl _
      · exact .ofEq (addLogger_del ..)
    case removeLogger l => exact .refl _

theorem disableAsync_core (env : Env) (w : World) (u : Bool) :
    (disableAsync env w u).1.core = w.core := by
  simp only [disableAsync]
  have h1 : ∀ w' : World, w'.core = w.core →
      (match ctxFlush env w'.ctxLoggers w' with
        | (w, some e) => (w, some e)
        | (w, none) => ({ w with ctxAsync := false }, none) : World × Option Exc).1.core = w.core := by
    intro w' hw'
    have h2 := (ctxFlush_flushLike env w'.ctxLoggers w').coreEq
    cases hr : ctxFlush env w'.ctxLoggers w' with
    | mk w2 r =>
      rw [hr] at h2
      cases r <;> exact h2.trans hw'
  cases u
  · exact h1 _ rfl
  · exact h1 _ (foldl_setAsync_flushLike w.ctxLoggers false w).coreEq

/-- `disable_async`: switch, then flush. -/
theorem disable_item {env : Env} (w : World) (u : Bool) :
    ∃ w1 : World, Star (CfgStep env) w.del w1.del ∧
      Star (FlushStep env) w1.del (disableAsync env w u).1.del := by
  simp only [disableAsync]
  refine ⟨if u then w.ctxLoggers.foldl (fun w l => setAsync w l false) w else w, ?_, ?_⟩
  · split
    · exact cfg_foldl_setAsync ..
    · exact .refl _
  · generalize (if u then w.ctxLoggers.foldl (fun w l => setAsync w l false) w else w) = w1
    have h := fl_ctxFlush (env := env) w1.ctxLoggers w1
    cases hr : ctxFlush env w1.ctxLoggers w1 with
    | mk w2 r =>
      rw [hr] at h
      cases r <;> exact h

theorem del_item {env : Env} {w : World} (hp : DelPre w) (it : Item) :
    Star (DelStep env) w.del (stepItem env w it).del := by
  cases hk : it.kind with
  | pub => exact (pub_item hp it hk).map fun _ _ => .pub
  | flush => exact (flush_item it hk).map fun _ _ => .flush
  | cfg => exact (cfg_item it hk).map fun _ _ => .cfg
  | disable =>
    cases it with
    | enter a => simp [Item.kind] at hk
    | exit a exc => simp [Item.kind] at hk
    | op o =>
      cases o <;> simp only [Item.kind, reduceCtorEq] at hk
      case disableAsync u =>
        obtain ⟨w1, h1, h2⟩ := disable_item (env := env) w u
        simp only [stepItem, step, ret]
        exact (h1.map fun _ _ => .cfg).trans (h2.map fun _ _ => .flush)

/-- Which actions an item creates, if any. -/
theorem fixed_item {env : Env} (w : World) (hid : w.acts w.nextId = none) (it : Item) :
    (∀ b, w.acts b ≠ none → ((stepItem env w it).acts b).map Act.fixed = (w.acts b).map Act.fixed) ∧
    (∀ b y, (stepItem env w it).acts b = some y → w.acts b = none → (w.logs y.logger).isSome) := by
  have same : ∀ w', SameFixed w w' →
      (∀ b, w.acts b ≠ none → (w'.acts b).map Act.fixed = (w.acts b).map Act.fixed) ∧
      (∀ b y, w'.acts b = some y → w.acts b = none → (w.logs y.logger).isSome) := by
    intro w' h
    refine ⟨fun b _ => h.eq b, fun b y hy hn => ?_⟩
    obtain ⟨x, hx, _⟩ := h.find hy
    rw [hn] at hx; cases hx
  have hg : ∀ a (r : World × Option Exc), SameFixed w r.1 → SameFixed w (guard w a r).1 := by
    intro a r h
    simp only [guard]; split
    · exact h
    · exact .refl w
  cases it with
  | enter a => exact same _ (hg _ _ (fixed_enter ..))
  | exit a exc =>
    simp only [stepItem]; split
    · exact same _ (fixed_exit ..)
    · exact same _ (.refl w)
  | op o =>
    cases o <;> dsimp only [stepItem, step, ret]
    case newLogger l ss as =>
      split
      · exact same _ (.refl w)
      · refine same _ (.ofActs ?_)
        simp only [addLogger]; split <;> rfl
    case newAction l lv nm kw =>
      split
      · exact same _ (.refl w)
      · rename_i L hL
        simp only [newAction, setAct_acts]
        refine ⟨?_, ?_⟩
        · intro b hb
          rw [updAct_ne]
          rintro rfl; exact hb hid
        · intro b y hy hn
          by_cases h : b = w.nextId
          · subst h; simp at hy; subst hy; simp [hL]
          · rw [updAct_ne _ _ h] at hy; simp [hn] at hy
    case comment l m f kw =>
      simp only [comment]
      split
      · exact same _ (.refl w)
      · rename_i L hL
        simp only [publish_acts, setAct_acts]
        refine ⟨?_, ?_⟩
        · intro b hb
          rw [updAct_ne]
          · rfl
          · rintro rfl; exact hb hid
        · intro b y hy hn
          by_cases h : b = w.nextId
          · subst h; simp at hy; subst hy; simp [hL]
          · rw [updAct_ne _ _ h] at hy
            have : w.acts b = some y := hy
            simp [hn] at this
    case begin => exact same _ (hg _ _ (fixed_begin ..))
    case warn => exact same _ (hg _ _ (fixed_warn ..))
    case success => exact same _ (hg _ _ (fixed_success ..))
    case failure => exact same _ (hg _ _ (fixed_failure ..))
    case exception => exact same _ (hg _ _ (fixed_exception ..))
    case setItem a k v =>
      refine same _ (hg _ _ ?_)
      simp only [setItem]; split
      · exact .refl w
      · rename_i x hx; exact .upd hx rfl rfl
    case flush l => exact same _ (.ofActs (flush_flushLike ..).core.acts)
    case setAsync l b => exact same _ (.ofActs (setAsync_flushLike ..).core.acts)
    case setSinks l ss => exact same _ (.ofActs (onLog_flushLike ..).core.acts)
    case addSink l ss => exact same _ (.ofActs (onLog_flushLike ..).core.acts)
    case clearSinks l => exact same _ (.ofActs (onLog_flushLike ..).core.acts)
    case addPreflush l h => exact same _ (.ofActs (onLog_flushLike ..).core.acts)
    case addNoteHandler h => exact same { w with noteHandlers := w.noteHandlers ++ [h] } (.ofActs rfl)
    case ctxFlush => exact same _ (.ofActs (ctxFlush_flushLike ..).core.acts)
    case enableAsync u =>
      refine same _ (.ofActs ?_)
      simp only [enableAsync]
      cases u
      · rfl
      · exact (foldl_setAsync_flushLike w.ctxLoggers false { w with ctxAsync := true }).core.acts
    case disableAsync u =>
      refine same _ (.ofActs ?_)
      exact congrArg Core.acts (disableAsync_core env w u)
    case addLogger l =>
      refine same _ (.ofActs ?_)
      split
      · rfl
      · simp only [addLogger]; split <;> rfl
    case removeLogger l => exact same _ (.ofActs rfl)

theorem logOK_item {env : Env} {w : World} (hid : IdInv w.core) (hp : DelPre w) (it : Item) :
    LogOK (stepItem env w it) := by
  intro a y hy
  have fresh : w.acts w.nextId = none := by
    cases h : w.acts w.nextId with
    | none => rfl
    | some x => exact absurd (hid.actLt _ x h) (by simp [World.core])
  obtain ⟨h1, h2⟩ := fixed_item (env := env) w fresh it
  have hm := DelStar.logs_mono (del_item (env := env) hp it)
  refine hm y.logger ?_
  cases hx : w.acts a with
  | none => exact h2 a y hy hx
  | some x =>
    have := h1 a (by simp [hx])
    rw [hy, hx] at this
    simp only [Option.map_some, Option.some.injEq, Act.fixed, Prod.mk.injEq] at this
    rw [this.1]
    exact hp.log a x hx

theorem del_run {env : Env} {w : World} (ht : TransOK w.core) (hid : IdInv w.core) (hp : DelPre w)
    (its : List Item) : Star (DelStep env) w.del (run env w its).del ∧ DelPre (run env w its) := by
  induction its generalizing w with
  | nil => exact ⟨.refl _, hp⟩
  | cons it its ih =>
    have h1 := del_item (env := env) hp it
    have h2 := logOK_item (env := env) hid hp it
    have hc := core_stepItem (env := env) ht it
    have h3 := hc.inv (P := fun c => TransOK c ∧ IdInv c ∧ EvInv c)
      (fun _ _ h s => ⟨transOK_step h.1 s, idInv_step h.2.1 s, evInv_step h.2.1 h.2.2 s⟩)
      ⟨ht, hid, hp.ev⟩
    have h4 := ih h3.1 h3.2.1 ⟨h2, h3.2.2⟩
    exact ⟨h1.trans h4.1, h4.2⟩

theorem delPre_init : DelPre World.init :=
  ⟨by intro a x h; simp [World.init] at h, evInv_init⟩

theorem Reachable.delPre {env : Env} {w : World} (h : Reachable env w) : DelPre w := by
  obtain ⟨its, rfl⟩ := h
  exact (del_run transOK_init idInv_init delPre_init its).2

theorem Reachable.transOK {env : Env} {w : World} (h : Reachable env w) : TransOK w.core :=
  h.inv (fun _ _ => transOK_step) transOK_init

/-- Delivery invariants that hold initially hold in every reachable state. -/
theorem Reachable.delInv {env : Env} {w : World} (h : Reachable env w) {P : Del → Prop}
    (hs : ∀ a b, P a → DelStep env a b → P b) (h0 : P World.init.del) : P w.del := by
  obtain ⟨its, rfl⟩ := h
  exact (del_run transOK_init idInv_init delPre_init its).1.inv hs h0

/-- Histories compose. -/
theorem Reachable.run {env : Env} {w : World} (h : Reachable env w) (its : List Item) :
    Reachable env (run env w its) := by
  obtain ⟨i0, rfl⟩ := h
  exact ⟨i0 ++ its, by simp [Verif.run]⟩

theorem Reachable.init (env : Env) : Reachable env World.init := ⟨[], rfl⟩

end Verif
