import Verif.Lemmas.Received
import Verif.Spec.Objects
/-!
# Calls with objects keep what ordinary calls keep
-/
namespace Verif.Objects
variable {env : Env} {w w' : World}

/-- What holds in every state. -/
structure All (env : Env) (w : World) : Prop where
  good : Good env w
  pub : PubInv w.core
  ord : OrderInv w.core
  count : CountInv w.del

theorem All.init (env : Env) : All env World.init :=
  ⟨Good.init env, pubInv_init, (Reachable.init env).orderInv, (Reachable.init env).countInv⟩

theorem All.of (h : All env w) (hc : CoreStar w.core w'.core) (hd : Star (DelStep env) w.del w'.del) (hl : LogOK w') : All env w' := by
  have h1 := hc.inv (P := fun c => TransOK c ∧ IdInv c ∧ EvInv c ∧ PubInv c ∧ OrderInv c)
    (fun _ _ h s => ⟨transOK_step h.1 s, idInv_step h.2.1 s, evInv_step h.2.1 h.2.2.1 s, pubInv_step h.2.1 h.2.2.1 h.2.2.2.1 s,
      orderInv_step h.2.2.1 h.2.2.2.1 h.2.2.2.2 s⟩) ⟨h.good.trans, h.good.id, h.good.pre.ev, h.pub, h.ord⟩
  have h2 := hd.inv (P := fun d => QInv env d ∧ CountInv d) (fun _ _ h s => ⟨qInv_step h.1 s, countInv_step h.1 h.2 s⟩)
    ⟨h.good.q, h.count⟩
  exact ⟨⟨h1.1, h1.2.1, ⟨hl, h1.2.2.1⟩, h2.1⟩, h1.2.2.2.1, h1.2.2.2.2, h2.2⟩

theorem All.item (h : All env w) (it : Item) : All env (stepItem env w it) :=
  h.of (core_stepItem h.good.trans it) (del_item h.good.pre it) (logOK_item h.good.id h.good.pre it)

theorem All.run (h : All env w) (its : List Item) : All env (run env w its) := by
  induction its generalizing w with
  | nil => exact h
  | cons it its ih => exact ih (h.item it)

/-- Counters go on. -/
theorem All.same (h : All env w) (hs : Same w w') (hn : w.nextId ≤ w'.nextId) : All env w' := by
  rw [hs]
  refine ⟨⟨h.good.trans, ⟨fun a x hx => Nat.lt_of_lt_of_le (h.good.id.actLt a x hx) hn,
    fun e he => Nat.lt_of_lt_of_le (h.good.id.evLt e he) hn, h.good.id.evAct, h.good.id.uniq⟩, ⟨h.good.pre.log, ?_⟩, h.good.q⟩, ?_, h.ord, h.count⟩
  · have := h.good.pre.ev
    exact ⟨this.act, this.beginKind, this.endKind, this.warnKind, this.excKind, this.pub⟩
  · have := h.pub
    exact ⟨this.begin, this.noBegin, this.warn, this.none⟩

theorem Same.refl (w : World) : Same w w := rfl
theorem Same.trans {a b c : World} (h : Same a b) (g : Same b c) : Same a c := by
  rw [Same] at *
  rw [g, h]
theorem same_bump (w : World) : Same w w.bump := rfl
theorem same_tick (w : World) : Same w w.tick := rfl

/-- More data is what `act[key] = value` gives. -/
theorem run_data (a : ActId) : ∀ (kw : Dict) (w : World), w.held a = true →
    run env w (kw.map fun p => .op (.setItem a p.1 p.2)) = withData w a kw := by
  intro kw
  induction kw with
  | nil =>
    intro w _
    have h : (fun b => if b = a then (w.acts a).map (fun x : Act => { x with data := x.data.update [] }) else w.acts b) = w.acts := by
      funext b
      split
      · subst_vars; cases w.acts b <;> rfl
      · rfl
    show w = withData w a []
    rw [withData, h]
  | cons p kw ih =>
    intro w hh
    obtain ⟨x, hx, hxh⟩ := held_iff.1 hh
    have h1 : stepItem env w (.op (.setItem a p.1 p.2)) = w.setAct a { x with data := x.data.set p.1 p.2 } := by
      simp [stepItem, step, guard, hh, ret, setItem, hx]
    show run env (stepItem env w (.op (.setItem a p.1 p.2))) _ = _
    rw [ih _ (by rw [h1]; exact held_iff.2 ⟨{ x with data := x.data.set p.1 p.2 }, by simp, hxh⟩), h1, withData, withData, World.setAct]
    congr
    funext b
    split
    · subst_vars; simp [hx, Dict.update]
    · rename_i hb; simp only [if_neg hb]

theorem All.data (h : All env w) {a : ActId} (hh : w.held a = true) (kw : Dict) : All env (withData w a kw) := by
  rw [← run_data (env := env) a kw w hh]; exact h.run _

theorem setAct_data {a : ActId} {x : Act} (hx : w.acts a = some x) (kw : Dict) :
    w.setAct a { x with data := x.data.update kw } = withData w a kw := by
  rw [World.setAct, withData, hx]; rfl

/-- A changed action of the same logger. -/
theorem logOK_upd (h : LogOK w) {a : ActId} {x y : Act} (hx : w.acts a = some x) (hy : y.logger = x.logger)
    (ha : w'.acts = updAct w.acts a y) (hl : ∀ l, (w.logs l).isSome → (w'.logs l).isSome) : LogOK w' := by
  intro b z hz
  rw [ha, updAct] at hz
  split at hz
  · cases hz; rw [hy]; exact hl _ (h a x hx)
  · exact hl _ (h b z hz)

theorem publish_logs_mono (w : World) (l : LogId) (k : Kind) (e : Event) (m : LogId) (h : (w.logs m).isSome) :
    ((publish env w l k e).1.logs m).isSome := by
  simp only [publish]
  split
  · exact h
  · split
    · simp only [World.setLog]; split <;> simp_all
    · simpa [callAll_eq] using h

/-- `begin` with whatever text. -/
theorem All.begun (h : All env w) {a : ActId} {x : Act} (hx : w.acts a = some x) (hh : x.handle = true) (hb : x.beginEv = none)
    (d : Dict) (msg : String) (f : List Val) :
    All env (publish env (w.tick.bump.setAct a { x with data := d, beginEv := some (mkEvent w a x.logger .begin .begin (w.now env) msg f none) })
      x.logger .begin (mkEvent w a x.logger .begin .begin (w.now env) msg f none)).1 := by
  refine h.of ?_ (Star.map (fun _ _ => DelStep.pub) ?_) ?_
  · have := CoreStep.begin w.core a x d x.isTrans x.defer (mkEvent w a x.logger .begin .begin (w.now env) msg f none)
      hx hh hb rfl rfl rfl rfl rfl
    refine .single ?_
    simpa [World.core, mkEvent, World.now] using this
  · exact pub_publish' (w := w.tick.bump.setAct a _) rfl rfl rfl (by decide) (by simpa using h.good.pre.log a x hx)
  · refine logOK_upd h.good.pre.log hx (y := { x with data := d, beginEv := some (mkEvent w a x.logger .begin .begin (w.now env) msg f none) }) rfl
      (by simp) ?_
    intro l hl
    exact publish_logs_mono _ _ _ _ _ (by simpa using hl)

theorem all_begin (h : All env w) {a : ActId} (hh : w.held a = true) (m : Obj) (f : List Val) (kw : Dict) :
    All env (begin_ env w a m f kw).1 := by
  obtain ⟨x, hx, hxh⟩ := held_iff.1 hh
  have hd : All env (w.setAct a { x with data := x.data.update kw }) := by rw [setAct_data hx]; exact h.data hh kw
  simp only [begin_, hx]
  split
  · exact hd
  · rename_i hb
    split
    · exact hd
    · split
      · exact hd.same rfl (Nat.le_succ _)
      · exact h.begun hx hxh hb _ _ _

theorem all_warn (h : All env w) {a : ActId} (hh : w.held a = true) (m : Obj) (f : List Val) (kw : Dict) :
    All env (warn env w a m f kw).1 := by
  obtain ⟨x, hx, hxh⟩ := held_iff.1 hh
  have hd : All env (w.setAct a { x with data := x.data.update kw }) := by rw [setAct_data hx]; exact h.data hh kw
  simp only [warn, hx]
  split
  · exact hd.same rfl (Nat.le_succ _)
  · rename_i s _
    have := h.item (.op (.warn a s f kw))
    simpa [stepItem, step, guard, hh, ret] using this

/-- Ends with whatever text. -/
theorem all_coreEnd (h : All env w) {a : ActId} {x : Act} (hx : w.acts a = some x) (hxh : x.handle = true) {st : Status}
    (hst : st = .success ∨ st = .failure ∨ st = .exception) (hxe : st = .exception → x.excEvs ≠ []) (s : String) (f : List Val) (kw : Dict)
    (t : Option Int) (exc : Option Exc) : All env (Verif.end_ env w a st s f kw t exc).1 := by
  have hp := pub_end (env := env) hx (h.good.pre.log a x hx) st s f kw t exc
  refine h.of (core_end hx hxh (h.good.trans a x hx) hst hxe _ _ _ _ _) (Star.map (fun _ _ => DelStep.pub) hp) ?_
  intro b y hy
  have h1 := (fixed_end (env := env) w a st s f kw t exc).1 b
  rw [hy] at h1
  cases hz : w.acts b with
  | none => rw [hz] at h1; simp at h1
  | some z =>
    rw [hz] at h1
    simp only [Option.map_some, Option.some.injEq, Act.fixed, Prod.mk.injEq] at h1
    have := PubStar.logs_mono hp y.logger
    simp only [World.del] at this
    rw [this, h1.1]
    exact h.good.pre.log b z hz

theorem all_end (h : All env w) {a : ActId} (hh : w.held a = true) {st : Status} (hst : st = .success ∨ st = .failure)
    (m : Except Exc String) (f : List Val) (kw : Dict) : All env (end_ env w a st m f kw none none).1 := by
  obtain ⟨x, hx, hxh⟩ := held_iff.1 hh
  cases m with
  | ok s =>
    exact all_coreEnd h hx hxh (by rcases hst with rfl | rfl <;> simp) (by rcases hst with rfl | rfl <;> simp) _ _ _ _ _
  | error err =>
    have hd : All env (w.setAct a { x with data := x.data.update kw }) := by rw [setAct_data hx]; exact h.data hh kw
    have hh2 : (w.setAct a { x with data := x.data.update kw }).held a = true := held_iff.2 ⟨{ x with data := x.data.update kw }, by simp, hxh⟩
    simp only [end_, hx]
    split
    · exact hd.same rfl (Nat.le_succ _)
    · have hb := hd.item (.op (.begin a none [] []))
      rw [show stepItem env (w.setAct a { x with data := x.data.update kw }) (.op (.begin a none [] [])) =
        (Verif.begin_ env (w.setAct a { x with data := x.data.update kw }) a none [] []).1 by
          simp [stepItem, step, guard, hh2, ret]] at hb
      cases hr : Verif.begin_ env (w.setAct a { x with data := x.data.update kw }) a none [] [] with
      | mk w1 r =>
        rw [hr] at hb
        cases r with
        | none => exact All.same (w := w1) hb rfl (Nat.le_succ _)
        | some e => exact hb

theorem all_finish (h : All env w) {a : ActId} (hh : w.held a = true) {st : Status} (hst : st = .success ∨ st = .failure) (verb : String)
    (m : Obj) (f : List Val) (kw : Dict) : All env (finish env w a st verb m f kw).1 := by
  obtain ⟨x, hx, hxh⟩ := held_iff.1 hh
  simp only [finish, hx]
  split
  · exact h
  · exact all_end h hh hst _ _ _

/-- The exception's event, and the end, with whatever text. -/
theorem all_exception (h : All env w) {a : ActId} (hh : w.held a = true) (cur : Option Exc) (m : Obj) (f : List Val) (kw : Dict) :
    All env (exception_ env w a cur m f kw).1 := by
  obtain ⟨x, hx, hxh⟩ := held_iff.1 hh
  simp only [exception_, hx]
  split
  · exact h.same rfl (Nat.le_refl _)
  · split
    · exact h.same rfl (Nat.le_refl _)
    · exact h.same rfl (Nat.le_succ _)
    · rename_i he msg hm
      have h0 : All env (w.tick.bump.setAct a { x with excEvs := x.excEvs ++
          [mkEvent w.tick a x.logger .exception .exception (w.now env) msg f cur] }) := by
        refine h.of ?_ (.ofEq rfl) ?_
        · have := CoreStep.exc w.core a x (mkEvent w.tick a x.logger .exception .exception (w.now env) msg f cur) hx hxh rfl rfl rfl rfl rfl
          refine .single ?_
          simpa [World.core, mkEvent, World.now] using this
        · exact logOK_upd h.good.pre.log hx (y := { x with excEvs := x.excEvs ++
            [mkEvent w.tick a x.logger .exception .exception (w.now env) msg f cur] }) rfl (by simp) (fun l hl => by simpa using hl)
      have h1 : All env (publishExc env (w.tick.bump.setAct a { x with excEvs := x.excEvs ++
          [mkEvent w.tick a x.logger .exception .exception (w.now env) msg f cur] }) x.logger
          (mkEvent w.tick a x.logger .exception .exception (w.now env) msg f cur)).1 := by
        have hp := pub_publishExc (env := env) (w := w.tick.bump.setAct a { x with excEvs := x.excEvs ++
          [mkEvent w.tick a x.logger .exception .exception (w.now env) msg f cur] }) (l := x.logger)
          (e := mkEvent w.tick a x.logger .exception .exception (w.now env) msg f cur) rfl rfl
        refine h0.of (.ofEq ?_) (Star.map (fun _ _ => DelStep.pub) hp) ?_
        · simp [World.core]
        · intro b y hy
          have hc := publishExc_core (env := env) (w := w.tick.bump.setAct a { x with excEvs := x.excEvs ++
            [mkEvent w.tick a x.logger .exception .exception (w.now env) msg f cur] }) (l := x.logger)
            (e := mkEvent w.tick a x.logger .exception .exception (w.now env) msg f cur)
          have := PubStar.logs_mono hp y.logger
          simp only [World.del] at this
          rw [this]
          exact h0.good.pre.log b y (hc.acts ▸ hy)
      cases hr : publishExc env (w.tick.bump.setAct a { x with excEvs := x.excEvs ++
          [mkEvent w.tick a x.logger .exception .exception (w.now env) msg f cur] }) x.logger
          (mkEvent w.tick a x.logger .exception .exception (w.now env) msg f cur) with
      | mk w1 r =>
        have hc := publishExc_core (env := env) (w := w.tick.bump.setAct a { x with excEvs := x.excEvs ++
            [mkEvent w.tick a x.logger .exception .exception (w.now env) msg f cur] }) (l := x.logger)
            (e := mkEvent w.tick a x.logger .exception .exception (w.now env) msg f cur)
        rw [hr] at h1 hc
        cases r with
        | some e => exact h1
        | none =>
          simp only [andThen]
          refine all_coreEnd (w := w1) h1 (x := { x with excEvs := x.excEvs ++
            [mkEvent w.tick a x.logger .exception .exception (w.now env) msg f cur] }) ?_ hxh (.inr (.inr rfl)) (fun _ => List.append_ne_nil_of_right_ne_nil _ (by simp)) _ _ _ _ _
          have := hc.acts
          simp only at this
          rw [this]; simp

theorem all_comment (h : All env w) (l : LogId) (m : Obj) (f : List Val) (kw : Dict) : All env (comment env w l m f kw).1 := by
  have le : ∀ n, w.nextId ≤ w.nextId + n := fun n => Nat.le_add_right _ _
  simp only [comment]
  split
  · exact h
  · rename_i L hL
    split
    · exact h.same rfl (le 1)
    · exact h.same rfl (le 2)
    · split
      · exact h.same rfl (le 2)
      · exact h.same rfl (le 3)
      · split
        · exact h.same rfl (le 4)
        · rename_i _ tb _ _ te _ _ msg _
          refine h.of ?_ (Star.map (fun _ _ => DelStep.pub) ?_) ?_
          · refine .single ?_
            have := CoreStep.comment w.core
              { logger := l, level := 90, name := "_comment", data := kw.erase "parent_action", reraise := .bool true
                parent := initParent w l kw
                beginEv := some (mkEvent w.bump.tick w.nextId l .begin .begin (w.now env) tb f none)
                endEv := some (mkEvent w.bump.tick.bump w.nextId l .end_ .success (w.now env) te f none), warnEvs := [], excEvs := []
                isTrans := false, defer := false, handle := false } _ _
              (mkEvent w.bump.tick.bump.bump w.nextId l .comment .comment (w.now env) msg f none)
              rfl rfl rfl rfl rfl rfl rfl rfl rfl rfl rfl rfl rfl rfl rfl rfl rfl rfl rfl rfl rfl rfl
            simpa [World.core, mkEvent, World.now] using this
          · exact pub_publish' (w := World.setAct _ _ _) rfl rfl rfl (by decide) (by simp [hL])
          · intro b y hy
            refine publish_logs_mono _ _ _ _ _ ?_
            simp only [publish_acts, setAct_acts, updAct] at hy
            split at hy
            · cases hy; simp [hL]
            · simpa using h.good.pre.log b y (by simpa using hy)

theorem all_newAction (h : All env w) {l : LogId} (hl : (w.logs l).isSome) (lv : Except Exc Int) (nm : Obj) (kw : Dict) :
    All env (newAction w l lv nm kw).1 := by
  simp only [newAction]
  split
  · exact h.same rfl (Nat.le_succ _)
  · split
    · exact h.same rfl (Nat.le_succ _)
    · rename_i v _ s _
      obtain ⟨L, hL⟩ := Option.isSome_iff_exists.1 hl
      have := h.item (.op (.newAction l v s kw))
      simpa [stepItem, step, hL] using this

theorem All.call (h : All env w) (c : Call) : All env (call env w c).1 := by
  have hg : ∀ {a : ActId} {r : World × Option Exc}, (w.held a = true → All env r.1) → All env (guard w a r).1 := by
    intro a r hr
    simp only [guard]
    split
    · exact hr (by assumption)
    · exact h
  cases c with
  | newAction l lv nm kw =>
    simp only [Objects.call]
    split
    · exact h
    · rename_i L hL
      have := all_newAction h (l := l) (by simp [hL]) lv nm kw
      split <;> simp_all
  | begin a m f kw => exact hg fun hh => all_begin h hh m f kw
  | warn a m f kw => exact hg fun hh => all_warn h hh m f kw
  | success a m f kw => exact hg fun hh => all_finish h hh (.inl rfl) _ m f kw
  | failure a m f kw => exact hg fun hh => all_finish h hh (.inr rfl) _ m f kw
  | exception a cur m f kw => exact hg fun hh => all_exception h hh cur m f kw
  | comment l m f kw => exact all_comment h l m f kw

theorem ReachableAny.all (h : ReachableAny env w) : All env w := by
  obtain ⟨its, rfl⟩ := h
  have : ∀ (its : List (Item ⊕ Call)) (w : World), All env w → All env (runAny env w its) := by
    intro its
    induction its with
    | nil => intro w h; exact h
    | cons it its ih =>
      intro w h
      refine ih _ ?_
      cases it with
      | inl it => exact h.item it
      | inr c => exact h.call c
  exact this its _ (All.init env)

end Verif.Objects
