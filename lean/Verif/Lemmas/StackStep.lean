import Verif.Lemmas.Stack
/-!
# Every step keeps the invariant
-/
namespace Verif.Stack
open scoped List
attribute [local irreducible] QUEUE_LIMIT
variable {env : Env} {s s' : St}

theorem logOK_set {w w' : World} (h : LogOK w) {a : ActId} {x y : Verif.Act} (hx : w.acts a = some x) (hy : y.logger = x.logger)
    (ha : w'.acts = updAct w.acts a y) (hl : w'.logs = w.logs) : LogOK w' := by
  intro b z hz
  rw [ha, updAct] at hz
  rw [hl]
  split at hz
  · cases hz; rw [hy]; exact h a x hx
  · exact h b z hz

theorem inv_begin (h : Inv env s) {a : ActId} {x : Verif.Act} (hx : s.w.acts a = some x) (hh : x.handle = true)
    (m : Option String) (f : List Val) (kw : Dict) : Inv env (begin_ env s a m f kw) := by
  have ht := h.core.trans a x hx
  have hlog := h.log a x hx
  simp only [begin_, hx]
  obtain ⟨lg, lv, nm, d, rr, p, b, en, wv, ev, t, df, hd⟩ := x
  simp only at hh ht hlog
  cases b with
  | some b =>
    exact h.acts (.single (.upd s.w.core a _ (d.update kw) t df hx hh ht)) rfl
      (logOK_set h.log hx (y := ⟨lg, lv, nm, d.update kw, rr, p, some b, en, wv, ev, t, df, hd⟩) rfl rfl rfl)
  | none =>
    simp only
    refine h.emit ?_ rfl ?_ hlog rfl rfl (by decide)
    · have := CoreStep.begin s.w.core a _ (d.update kw) t df
        (mkEvent s.w a lg .begin .begin (s.w.now env) (if falsy m then nm ++ " beginning" else m.getD "") f none)
        hx hh rfl rfl rfl rfl rfl rfl
      refine .single ?_
      simpa [World.core, mkEvent, World.now, World.bump] using this
    · exact logOK_set h.log hx (y := ⟨lg, lv, nm, d.update kw, rr, p, _, en, wv, ev, t, df, hd⟩) rfl rfl rfl

theorem inv_enter (h : Inv env s) {a : ActId} {x : Verif.Act} (hx : s.w.acts a = some x) (hh : x.handle = true) :
    Inv env (enter env s a) := by
  have hlog := h.log a x hx
  obtain ⟨lg, lv, nm, d, rr, p, b, en, wv, ev, t, df, hd⟩ := x
  simp only at hh hlog
  simp only [enter, hx, begin_, St.world, setActive_acts, setAct_acts, updAct_same]
  cases b with
  | some b =>
    have := CoreStep.upd s.w.core a _ (d.update []) true true hx hh (by simp)
    refine h.acts (w := World.setAct _ _ _) (.single ?_) rfl
      (logOK_set h.log hx (y := ⟨lg, lv, nm, d.update [], rr, p, some b, en, wv, ev, true, true, hd⟩) rfl (by simp) rfl)
    simpa [World.core] using this
  | none =>
    simp only
    refine h.emit (w := World.setAct _ _ _) ?_ rfl ?_ hlog rfl rfl (by decide)
    · have := CoreStep.begin s.w.core a _ (d.update []) true true
        (mkEvent s.w a lg .begin .begin (s.w.now env) (nm ++ " beginning") [] none)
        hx hh rfl rfl rfl rfl rfl rfl
      refine .single ?_
      simpa [World.core, mkEvent, World.now, World.bump, falsy] using this
    · exact logOK_set h.log hx (y := ⟨lg, lv, nm, d.update [], rr, p, some (mkEvent _ a lg .begin .begin _ _ _ none), en, wv, ev, true, true, hd⟩) rfl
        (by simp [falsy, World.bump]; rfl) rfl

theorem inv_warn (h : Inv env s) {a : ActId} {x : Verif.Act} (hx : s.w.acts a = some x) (hh : x.handle = true)
    (m : String) (f : List Val) (kw : Dict) : Inv env (warn env s a m f kw) := by
  simp only [warn, hx]
  refine h.emit ?_ rfl ?_ (h.log a x hx) rfl rfl (by decide)
  · have := CoreStep.warn s.w.core a x (x.data.update kw) (mkEvent s.w a x.logger .warn .warning (s.w.now env) m f none)
      hx hh rfl rfl rfl rfl rfl
    refine .single ?_
    simpa [World.core, mkEvent, World.now, World.bump] using this
  · exact logOK_set h.log hx (y := { x with data := x.data.update kw, warnEvs := x.warnEvs ++ [_] }) rfl rfl rfl

theorem inv_endWith (h : Inv env s) {a : ActId} {x : Verif.Act} (hx : s.w.acts a = some x) (hh : x.handle = true) (hb : x.beginEv.isSome)
    {st : Status} (hst : st = .success ∨ st = .failure ∨ st = .exception) (hxe : st = .exception → x.excEvs ≠ [])
    (m : String) (f : List Val) (t : Int) (exc : Option Exc) : Inv env (endWith s a st m f t exc) := by
  simp only [endWith, hx]
  have h1 := CoreStep.fin s.w.core a x (mkEvent s.w a x.logger .end_ st t m f exc) hx hh hb rfl rfl rfl rfl hst hxe
  have hl : LogOK (s.w.bump.setAct a { x with endEv := some (mkEvent s.w a x.logger .end_ st t m f exc) }) :=
    logOK_set h.log hx (y := { x with endEv := some (mkEvent s.w a x.logger .end_ st t m f exc) }) rfl rfl rfl
  split
  · refine h.acts (.single ?_) rfl hl
    simpa [World.core, mkEvent, World.bump] using h1
  · refine h.emit ((CoreStar.single h1).tail ?_) rfl hl (h.log a x hx) rfl rfl (by decide)
    have h2 := CoreStep.pubEnd
      ⟨s.w.core.nextId + 1, updAct s.w.core.acts a { x with endEv := some (mkEvent s.w a x.logger .end_ st t m f exc) }, s.w.core.pub⟩ a
      { x with endEv := some (mkEvent s.w a x.logger .end_ st t m f exc) }
      (mkEvent s.w a x.logger .end_ st t m f exc) (by simp) hh rfl
    simpa [World.core, mkEvent, World.bump] using h2

theorem Inv.tick (h : Inv env s) : Inv env (s.world s.w.tick) := h.acts (.ofEq rfl) rfl h.log

theorem inv_end (h : Inv env s) {a : ActId} {x : Verif.Act} (hx : s.w.acts a = some x) (hh : x.handle = true)
    {st : Status} (hst : st = .success ∨ st = .failure ∨ st = .exception) (hxe : st = .exception → x.excEvs ≠ [])
    (m : String) (f : List Val) (kw : Dict) (t : Option Int) (exc : Option Exc) : Inv env (end_ env s a st m f kw t exc) := by
  have ht := h.core.trans a x hx
  have h0 : Inv env (s.world (s.w.setAct a { x with data := x.data.update kw })) := by
    refine h.acts (.single ?_) rfl (logOK_set h.log hx (y := { x with data := x.data.update kw }) rfl rfl rfl)
    exact .upd s.w.core a x (x.data.update kw) x.isTrans x.defer hx hh ht
  have hx0 : (s.world (s.w.setAct a { x with data := x.data.update kw })).w.acts a = some { x with data := x.data.update kw } := by
    simp [St.world]
  simp only [end_, hx]
  split
  · rename_i hi
    split
    · split
      · exact inv_endWith h0.tick (x := { x with data := x.data.update kw }) hx0 hh (ht hi) hst hxe _ _ _ _
      · exact inv_endWith h0 (x := { x with data := x.data.update kw }) hx0 hh (ht hi) hst hxe _ _ _ _
    · exact inv_endWith h0.tick (x := { x with data := x.data.update kw }) hx0 hh (ht hi) hst hxe _ _ _ _
  · exact inv_begin (x := { x with data := x.data.update kw })
      (h0.push (f := .endRest a st m f exc) ⟨hst, { x with data := x.data.update kw }, hx0, hh, hxe⟩ rfl) hx0 hh _ _ _

theorem inv_success (h : Inv env s) {a : ActId} {x : Verif.Act} (hx : s.w.acts a = some x) (hh : x.handle = true)
    (m : Option String) (f : List Val) (kw : Dict) : Inv env (success env s a m f kw) := by
  simp only [success, hx]
  exact inv_end h hx hh (.inl rfl) (by simp) _ _ _ _ _

theorem inv_failure (h : Inv env s) {a : ActId} {x : Verif.Act} (hx : s.w.acts a = some x) (hh : x.handle = true)
    (m : Option String) (f : List Val) (kw : Dict) : Inv env (failure env s a m f kw) := by
  simp only [failure, hx]
  exact inv_end h hx hh (.inr (.inl rfl)) (by simp) _ _ _ _ _

theorem inv_exception (h : Inv env s) {a : ActId} {x : Verif.Act} (hx : s.w.acts a = some x) (hh : x.handle = true)
    (cur : Option Exc) (m : Option String) (f : List Val) (kw : Dict) : Inv env (exception_ env s a cur m f kw) := by
  simp only [exception_, hx]
  split
  · exact h.tick.setUp _
  · split
    · exact h.tick.setUp _
    · rename_i msg hm
      have h0 : Inv env (s.world (s.w.tick.bump.setAct a { x with excEvs := x.excEvs ++
          [mkEvent s.w.tick a x.logger .exception .exception (s.w.now env) msg f cur] })) := by
        refine h.acts (.single ?_) rfl (logOK_set h.log hx (y := { x with excEvs := x.excEvs ++ [_] }) rfl rfl rfl)
        have := CoreStep.exc s.w.core a x (mkEvent s.w.tick a x.logger .exception .exception (s.w.now env) msg f cur) hx hh rfl rfl rfl rfl rfl
        simpa [World.core, mkEvent, World.now, World.bump] using this
      have hx0 : (s.world (s.w.tick.bump.setAct a { x with excEvs := x.excEvs ++
          [mkEvent s.w.tick a x.logger .exception .exception (s.w.now env) msg f cur] })).w.acts a = some { x with excEvs := x.excEvs ++
          [mkEvent s.w.tick a x.logger .exception .exception (s.w.now env) msg f cur] } := by simp [St.world]
      have h1 := h0.push (f := .excRest a msg f kw (s.w.now env) cur)
        ⟨{ x with excEvs := x.excEvs ++ [_] }, hx0, hh, List.append_ne_nil_of_right_ne_nil _ (by simp)⟩ rfl
      have hl : (s.w.logs x.logger).isSome := h.log a x hx
      obtain ⟨L, hL⟩ := Option.isSome_iff_exists.1 hl
      have h2 := h1.pushExc (l := x.logger) (e := mkEvent s.w.tick a x.logger .exception .exception (s.w.now env) msg f cur) hl rfl rfl
        ⟨{ x with excEvs := x.excEvs ++ [_] }, hx0, by simp⟩
      simp only [emitExc]
      split
      · rename_i hn
        simp only [St.push, St.world, setAct_logs] at hn
        rw [show (s.w.tick.bump).logs = s.w.logs from rfl, hL] at hn
        cases hn
      · exact h2

theorem inv_exit (h : Inv env s) {a : ActId} {x : Verif.Act} (hx : s.w.acts a = some x) (hh : x.handle = true) (exc : Option Exc) :
    Inv env (exit env s a exc) := by
  have h0 : Inv env (s.world (s.w.setAct a { x with defer := false })) := by
    refine h.acts (.single ?_) rfl (logOK_set h.log hx (y := { x with defer := false }) rfl rfl rfl)
    exact .upd s.w.core a x x.data x.isTrans false hx hh (h.core.trans a x hx)
  have hx0 : (s.world (s.w.setAct a { x with defer := false })).w.acts a = some { x with defer := false } := by
    simp [St.world]
  have h1 := h0.push (f := .exitRest a) trivial rfl
  simp only [exit, hx]
  split
  · exact inv_exception (x := { x with defer := false }) (h1.push (f := .exitTry a) trivial rfl) hx0 hh _ _ _ _
  · split
    · rename_i ev hev
      refine h1.emit (w := s.w.setAct a { x with defer := false }) (.single ?_) rfl h0.log (h.log a x hx) ?_ ?_ (by decide)
      · exact CoreStep.pubEnd (s.w.setAct a { x with defer := false }).core a { x with defer := false } ev hx0 hh hev
      · exact (h.core.ev.act a x ev hx (.inr (.inl hev))).2
      · exact (h.core.ev.endKind a x ev hx hev).1
    · exact inv_success (x := { x with defer := false }) h1 hx0 hh _ _ _

theorem inv_comment (h : Inv env s) (l : LogId) (m : String) (f : List Val) (kw : Dict) : Inv env (comment env s l m f kw) := by
  simp only [comment]
  split
  · exact h
  · rename_i L hL
    refine h.emit ?_ rfl ?_ (by simp [hL]) rfl rfl (by decide)
    · refine .single ?_
      have := CoreStep.comment s.w.core
        { logger := l, level := 90, name := "_comment", data := kw.erase "parent_action", reraise := .bool true
          parent := initParent s.w l kw
          beginEv := some (mkEvent s.w.bump.tick s.w.nextId l .begin .begin (s.w.now env) (m ++ " (begin comment)") f none)
          endEv := some (mkEvent s.w.bump.tick.bump s.w.nextId l .end_ .success (s.w.now env) (m ++ " (end comment)") f none), warnEvs := [], excEvs := []
          isTrans := false, defer := false, handle := false } _ _
        (mkEvent s.w.bump.tick.bump.bump s.w.nextId l .comment .comment (s.w.now env) m f none)
        rfl rfl rfl rfl rfl rfl rfl rfl rfl rfl rfl rfl rfl rfl rfl rfl rfl rfl rfl rfl rfl rfl
      simpa [World.core, mkEvent, World.now, World.bump] using this
    · intro b y hy
      simp only [setAct_acts, updAct] at hy
      split at hy
      · cases hy; show (s.w.logs l).isSome; simp [hL]
      · exact h.log b y hy

/-! ## Loggers -/

/-- How a logger may change: it may be new, or its lists may get longer. -/
def LogGrow (env : Env) : Option Log → Option Log → Prop
  | none, none => True
  | none, some L' => L'.queue = [] ∧ RegOk env L'
  | some L, some L' => L'.queue = L.queue ∧ (∀ k, L.hooks k <+: L'.hooks k) ∧ (RegOk env L → RegOk env L')
  | some _, none => False

theorem LogGrow.refl (L : Option Log) : LogGrow env L L := by
  cases L
  · trivial
  · exact ⟨rfl, fun _ => List.prefix_rfl, id⟩

theorem LogGrow.trans {a b c : Option Log} (h : LogGrow env a b) (g : LogGrow env b c) : LogGrow env a c := by
  cases a <;> cases b <;> cases c <;> simp only [LogGrow] at h g ⊢
  · exact g
  · exact ⟨g.1.trans h.1, g.2.2 h.2⟩
  · exact ⟨g.1.trans h.1, fun k => (h.2.1 k).trans (g.2.1 k), fun r => g.2.2 (h.2.2 r)⟩

theorem Inv.grow {w : World} (h : Inv env s) (hcore : w.core = s.w.core) (htr : w.trace = s.w.trace)
    (hl : ∀ l, LogGrow env (s.w.logs l) (w.logs l)) : Inv env (s.world w) := by
  refine h.logs hcore htr rfl ⟨?_, fun _ => Nat.le_refl _, ?_⟩ ?_ ?_ ?_
  · intro l hs
    have := hl l
    show (w.logs l).isSome
    cases h1 : s.w.logs l <;> cases h2 : w.logs l <;> simp_all [LogGrow]
  · intro l g k hs _
    have := hl l
    show (if g = s.gen l then _ else _) <+: (if g = s.gen l then _ else _)
    by_cases hg : g = s.gen l
    · rw [if_pos hg, if_pos hg]
      show _ <+: (match w.logs l with | some L => L.hooks k | none => [])
      cases h1 : s.w.logs l <;> cases h2 : w.logs l <;> simp_all [LogGrow]
    · rw [if_neg hg, if_neg hg]
      exact List.prefix_rfl
  · intro l
    have := hl l
    show (match w.logs l with | some L => L.queue | none => []) = (match s.w.logs l with | some L => L.queue | none => [])
    cases h1 : s.w.logs l <;> cases h2 : w.logs l <;> simp_all [LogGrow]
  · intro l L hL
    have h1 := hl l
    have h2 : w.logs l = some L := hL
    rw [h2] at h1
    cases h3 : s.w.logs l with
    | none => rw [h3] at h1; exact h1.2
    | some M => rw [h3] at h1; exact h1.2.2 (h.q.reg l M h3)
  · intro l g k
    have h0 := h.nodup l g k
    simp only [St.list] at h0
    show List.Nodup (if g = s.gen l then _ else _)
    by_cases hg : g = s.gen l
    · rw [if_pos hg]
      show (match w.logs l with | some L => L.hooks k | none => []).Nodup
      have h1 := hl l
      cases h2 : w.logs l with
      | none => exact List.nodup_nil
      | some L =>
        have hr : RegOk env L := by
          rw [h2] at h1
          cases h3 : s.w.logs l with
          | none => rw [h3] at h1; exact h1.2
          | some M => rw [h3] at h1; exact h1.2.2 (h.q.reg l M h3)
        simp only [hr.hooks]
        exact hr.nodup.filter _
    · rw [if_neg hg]
      rw [if_neg hg] at h0
      exact h0

theorem grow_set {w : World} {l : LogId} {L L' : Log} (hL : w.logs l = some L) (hq : L'.queue = L.queue)
    (hk : ∀ k, L.hooks k <+: L'.hooks k) (hr : RegOk env L → RegOk env L') (m : LogId) :
    LogGrow env (w.logs m) ((w.setLog l L').logs m) := by
  simp only [setLog_logs, updLog]
  split
  · subst_vars; rw [hL]; exact ⟨hq, hk, hr⟩
  · exact .refl _

theorem grow_setAsync (w : World) (l : LogId) (b : Bool) (m : LogId) : LogGrow env (w.logs m) ((setAsync w l b).logs m) := by
  simp only [setAsync]
  split
  · exact .refl _
  · rename_i L hL
    exact grow_set (L' := { L with async := b }) hL rfl (fun _ => List.prefix_rfl) (fun r => ⟨r.nodup, r.hooks⟩) m

theorem grow_foldl (ls : List LogId) (b : Bool) (w : World) (m : LogId) :
    LogGrow env (w.logs m) ((ls.foldl (fun w l => setAsync w l b) w).logs m) := by
  induction ls generalizing w with
  | nil => exact .refl _
  | cons l ls ih => exact (grow_setAsync w l b m).trans (ih _)

theorem setAsync_trace (w : World) (l : LogId) (b : Bool) : (setAsync w l b).trace = w.trace := by
  simp only [setAsync]; split <;> rfl

theorem foldl_trace (ls : List LogId) (b : Bool) (w : World) : (ls.foldl (fun w l => setAsync w l b) w).trace = w.trace := by
  induction ls generalizing w with
  | nil => rfl
  | cons l ls ih => rw [List.foldl_cons, ih, setAsync_trace]

theorem inv_setSinks (h : Inv env s) (l : LogId) (ss : List SinkId) : Inv env (setSinks env s l ss) := by
  simp only [setSinks]
  split
  · exact h
  · rename_i L hL
    have hr := regOk_setSinks env L ss
    have hrest := setSinks_rest env L ss
    simp only [Log.rest, Prod.mk.injEq] at hrest
    refine h.logs rfl rfl rfl ⟨?_, ?_, ?_⟩ ?_ ?_ ?_
    · intro m hm
      simp only [setLog_logs, updLog]
      split <;> simp_all
    · intro m
      simp only
      split
      · subst_vars; omega
      · omega
    · intro m g k hm hg
      simp only [St.list, setLog_logs, updLog]
      by_cases hml : m = l
      · subst hml
        by_cases hgg : g = s.gen m
        · subst hgg; simp [hL]
        · have : g ≠ s.gen m + 1 := by omega
          simp [hgg, this]
      · simp [hml]
    · intro m
      simp only [World.del, Del.queue, setLog_logs, updLog]
      by_cases hml : m = l
      · subst hml; simp [hL, hrest.2.1]
      · simp [hml]
    · intro m M hM
      simp only [setLog_logs, updLog] at hM
      split at hM
      · cases hM; exact hr
      · exact h.q.reg m M hM
    · intro m g k
      have h0 := h.nodup m g k
      simp only [St.list, setLog_logs, updLog] at h0 ⊢
      by_cases hml : m = l
      · subst hml
        simp only [if_true, true_and]
        by_cases hgn : g = s.gen m + 1
        · simp only [hgn, if_true, hr.hooks]
          exact hr.nodup.filter _
        · simp only [hgn, if_false]
          by_cases hgg : g = s.gen m
          · simp only [hgg, if_true, hL] at h0 ⊢; exact h0
          · simp only [hgg, if_false] at h0 ⊢; exact h0
      · simp only [hml, if_false, false_and] at h0 ⊢; exact h0

theorem inv_onAct (h : Inv env s) {a : ActId} {r : St} (hr : ∀ x, s.w.acts a = some x → x.handle = true → Inv env r) : Inv env (onAct s a r) := by
  simp only [onAct]
  split
  · rename_i hh
    obtain ⟨x, hx, hxh⟩ := held_iff.1 hh
    exact hr x hx hxh
  · exact h

theorem inv_flush (h : Inv env s) (l : LogId) : Inv env (flush s l) := by
  simp only [flush]
  split
  · exact h
  · exact h.push trivial rfl

theorem inv_call (h : Inv env s) (it : Item) : Inv env (call env s it) := by
  cases it with
  | enter a => exact inv_onAct h fun x hx hh => inv_enter h hx hh
  | exit a exc => exact inv_onAct h fun x hx hh => inv_exit h hx hh exc
  | op o =>
    cases o with
    | begin a m f kw => exact inv_onAct h fun x hx hh => inv_begin h hx hh _ _ _
    | warn a m f kw => exact inv_onAct h fun x hx hh => inv_warn h hx hh _ _ _
    | success a m f kw => exact inv_onAct h fun x hx hh => inv_success h hx hh _ _ _
    | failure a m f kw => exact inv_onAct h fun x hx hh => inv_failure h hx hh _ _ _
    | exception a cur m f kw => exact inv_onAct h fun x hx hh => inv_exception h hx hh _ _ _ _
    | comment l m f kw => exact inv_comment h _ _ _ _
    | flush l => exact inv_flush h l
    | ctxFlush => exact h.push trivial rfl
    | setSinks l ss => exact inv_setSinks h l ss
    | clearSinks l => exact inv_setSinks h l []
    | disableAsync u =>
      simp only [call]
      refine Inv.push (Inv.push (f := .disable) (h.grow ?_ ?_ ?_) trivial rfl) trivial rfl
      · cases u
        · rfl
        · exact (foldl_setAsync_flushLike s.w.ctxLoggers false s.w).coreEq
      · cases u
        · rfl
        · exact foldl_trace _ _ _
      · intro l
        cases u
        · exact .refl _
        · exact grow_foldl _ _ _ l
    | newLogger l ss as =>
      simp only [call, Verif.step]
      split
      · exact h
      · rename_i hl
        refine h.grow ?_ ?_ ?_
        · simp only [addLogger]; split <;> rfl
        · simp only [addLogger]; split <;> rfl
        · intro m
          have : (addLogger (s.w.tick.setLog l (newLog env s.w ss as)) l).logs = updLog s.w.logs l (newLog env s.w ss as) := by
            simp only [addLogger]; split <;> rfl
          rw [this, updLog]
          split
          · subst_vars; rw [hl]; exact ⟨newLog_queue .., newLog_regOk ..⟩
          · exact .refl _
    | newAction l lv nm kw =>
      simp only [call, Verif.step]
      split
      · exact h
      · rename_i L hL
        refine h.acts (core_newAction ..) rfl ?_
        intro b y hy
        simp only [newAction, setAct_acts, updAct] at hy
        split at hy
        · cases hy; show (s.w.logs l).isSome; simp [hL]
        · exact h.log b y hy
    | setItem a k v =>
      simp only [call, Verif.step, guard, ret]
      split
      · rename_i hh
        obtain ⟨x, hx, hxh⟩ := held_iff.1 hh
        simp only [Verif.setItem, hx]
        refine h.acts (.single ?_) rfl (logOK_set h.log hx (y := { x with data := x.data.set k v }) rfl rfl rfl)
        exact .upd s.w.core a x _ x.isTrans x.defer hx hxh (h.core.trans a x hx)
      · exact h
    | setAsync l b =>
      simp only [call, Verif.step]
      exact h.grow (setAsync_flushLike _ _ _).coreEq (setAsync_trace _ _ _) (grow_setAsync _ _ _)
    | addSink l sk =>
      simp only [call, Verif.step, onLog]
      split
      · exact h
      · rename_i L hL
        refine h.grow rfl rfl (grow_set hL ?_ ?_ fun r => regOk_addSink r sk)
        · have := addSink_rest env L sk
          simp only [Log.rest, Prod.mk.injEq] at this
          exact this.2.1
        · intro k
          simp only [addSink]
          split
          · exact List.prefix_rfl
          · simp only
            split
            · exact List.prefix_append ..
            · exact List.prefix_rfl
    | addPreflush l hk =>
      simp only [call, Verif.step, onLog]
      split
      · exact h
      · rename_i L hL
        exact h.grow rfl rfl (grow_set hL rfl (fun _ => List.prefix_rfl) fun r => ⟨r.nodup, r.hooks⟩)
    | addNoteHandler hk => exact h.grow rfl rfl fun _ => .refl _
    | enableAsync u =>
      simp only [call, Verif.step, enableAsync]
      cases u
      · exact h.grow rfl rfl fun _ => .refl _
      · refine h.grow ?_ ?_ ?_
        · exact (foldl_setAsync_flushLike s.w.ctxLoggers false { s.w with ctxAsync := true }).coreEq
        · exact foldl_trace _ _ _
        · intro l
          exact grow_foldl s.w.ctxLoggers false { s.w with ctxAsync := true } l
    | addLogger l =>
      simp only [call, Verif.step]
      split
      · exact h
      · refine h.grow ?_ ?_ ?_
        · simp only [addLogger]; split <;> rfl
        · simp only [addLogger]; split <;> rfl
        · intro m
          have : (addLogger s.w l).logs = s.w.logs := by simp only [addLogger]; split <;> rfl
          rw [this]; exact .refl _
    | removeLogger l => exact h.grow rfl rfl fun _ => .refl _

theorem inv_resume {f : Frame} {fs : List Frame} (h : Inv env s) (hs : s.stack = f :: fs) : Inv env (resume env { s with stack := fs } f) := by
  have h0 := h.pop hs
  have hf : FrameOK { s with stack := fs } f := by
    have := h.frames f (by rw [hs]; exact List.mem_cons_self)
    cases f <;> exact this
  cases f with
  | code => exact h0.push trivial rfl
  | hooks l g k e i =>
    simp only [resume]
    split
    · exact h0
    · rename_i sk hi
      exact h.hook hs hi
  | endRest a st m f exc =>
    obtain ⟨h1, x, hx, hh, hxe⟩ := hf
    simp only at hx
    simp only [resume, hx, Option.bind_some]
    split
    · exact h0
    · rename_i b hb
      exact inv_endWith h0 hx hh (by simp [hb]) h1 hxe _ _ _ _
  | excRest a m f kw t cur =>
    obtain ⟨x, hx, hh, hxe⟩ := hf
    exact inv_end h0 hx hh (.inr (.inr rfl)) (fun _ => hxe) m f kw (some t) cur
  | exitTry a => exact h0
  | exitRest a =>
    simp only [resume]
    split
    · exact h0
    · exact h0.acts (.ofEq rfl) rfl h0.log
  | notes nm i =>
    simp only [resume]
    split
    · exact h0
    · exact Inv.quiet (h0.push trivial rfl) rfl
  | preflush l i =>
    simp only [resume]
    split
    · exact h0
    · split
      · exact h0.push trivial rfl
      · exact Inv.quiet (h0.push trivial rfl) rfl
  | preNote l i => exact h0.push trivial rfl
  | drain l =>
    simp only [resume]
    split
    · exact h0
    · rename_i L hL
      split
      · refine h0.grow rfl rfl (grow_set (w := s.w.tick) hL rfl (fun _ => List.prefix_rfl) fun r => ⟨r.nodup, r.hooks⟩)
      · rename_i k e q hq
        have h1 : Inv env ({ s with stack := fs }.push (.drain l)) := h0.push trivial rfl
        have h2 := h1.take (l := l) (L := L) hL hq
        have hk : k ≠ .exception := (h.q.q l k e (by simp only [World.del, Del.queue]; rw [show s.w.logs l = some L from hL]; simp [hq])).2.2.1
        split
        · exact absurd rfl hk
        · exact h2
  | ctx ls =>
    cases ls with
    | nil => exact h0
    | cons l ls => exact inv_flush (h0.push (f := .ctx ls) trivial rfl) l
  | ctxNote ls => exact h0.push trivial rfl
  | disable => exact h0.grow rfl rfl fun _ => .refl _

theorem inv_unwind (h : Inv env s) (err : Exc) (f : Frame) : Inv env (unwind s err f) := by
  have h0 := h.setUp none
  cases f with
  | code => exact h0.push trivial rfl
  | exitTry a =>
    simp only [unwind]
    split
    · exact h0.push trivial rfl
    · exact h
  | preflush l i =>
    simp only [unwind]
    split
    · exact Inv.push (h0.push trivial rfl) trivial rfl
    · exact h
  | ctx ls =>
    simp only [unwind]
    split
    · exact Inv.push (h0.push trivial rfl) trivial rfl
    · exact h
  | _ => exact h

theorem inv_step (h : Inv env s) (x : Act) : Inv env (step env s x) := by
  simp only [Stack.step]
  split
  · rename_i hs _
    exact inv_unwind (h.pop hs) _ _
  · exact inv_call h _
  · rename_i hs _
    exact h.pop hs
  · rename_i hs _
    exact (h.pop hs).setUp _
  · exact h
  · rename_i hs _
    exact inv_resume h hs
  · exact h

theorem inv_run (h : Inv env s) (xs : List Act) : Inv env (run env s xs) := by
  induction xs generalizing s with
  | nil => exact h
  | cons x xs ih => exact ih (inv_step h x)

theorem Reachable.inv (h : Reachable env s) : Inv env s := by
  obtain ⟨xs, rfl⟩ := h
  exact inv_run (Inv.init env) xs

end Verif.Stack
