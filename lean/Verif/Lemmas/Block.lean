import Verif.Lemmas.GotPub
import Verif.Lemmas.Calls
import Verif.Lemmas.CtxFlush
/-!
# With blocks
-/
namespace Verif
open scoped List
attribute [local irreducible] QUEUE_LIMIT

/-- No end event is published for an action that has none. -/
theorem Reachable.no_end {env : Env} {w : World} (h : Reachable env w) {a : ActId} {x : Act}
    (hx : w.acts a = some x) (he : x.endEv = none) : pubsOf w.pub .end_ a = [] := by
  have key := h.inv (P := fun d => (IdInv d ∧ EvInv d ∧ PubInv d) ∧
      ∀ a x, d.acts a = some x → x.endEv = none → pubsOf d.pub .end_ a = []) (by
    rintro c d ⟨⟨hi, hev, hp⟩, hn⟩ s
    refine ⟨⟨idInv_step hi s, evInv_step hi hev s, pubInv_step hi hev hp s⟩, ?_⟩
    intro a x hx he
    have upd : ∀ (f : ActId → Option Act) (b : ActId) (y : Act), f = c.acts →
        updAct f b y a = some x → (y.endEv = none → pubsOf c.pub .end_ b = []) →
        pubsOf c.pub .end_ a = [] := by
      intro f b y hf h hy
      subst hf
      simp only [updAct] at h
      split at h
      · rename_i hb; subst hb; cases h; exact hy he
      · exact hn _ _ h he
    have other : ∀ (k : Kind) (e : Event), k ≠ .end_ → pubsOf (c.pub ++ [(k, e)]) .end_ a = pubsOf c.pub .end_ a := by
      intro k e hk
      rw [pubsOf_append, pubsOf_single, if_neg (fun h => hk h.1), List.append_nil]
    cases s with
    | newAct y hb hye hw => exact upd _ _ _ rfl hx fun _ => hp.none _ _ hi.fresh
    | upd b y dd t f hy => exact upd _ _ _ rfl hx (hn b y hy)
    | begin b y dd t f e hy =>
      show pubsOf (c.pub ++ [_]) _ _ = _
      rw [other _ _ (by decide)]
      exact upd _ _ _ rfl hx (hn b y hy)
    | exc b y e hy => exact upd _ _ _ rfl hx (hn b y hy)
    | fin b y e hy => exact upd _ _ _ rfl hx (fun h => by cases h)
    | pubEnd b y e hy hh hye =>
      show pubsOf (c.pub ++ [_]) _ _ = _
      rw [pubsOf_append, pubsOf_single, if_neg, List.append_nil]
      · exact hn a x hx he
      · rintro ⟨_, hea⟩
        have := (hev.act b y e hy (.inr (.inl hye))).1
        have hx' : c.acts a = some x := hx
        rw [← hea, this, hy] at hx'; cases hx'; rw [he] at hye; cases hye
    | comment y b en e hb hye hw =>
      show pubsOf (c.pub ++ [_]) _ _ = _
      rw [other _ _ (by decide)]
      exact upd _ _ _ rfl hx (fun h => by rw [hye] at h; cases h)
    | warn b y dd e hb hh hid =>
      show pubsOf (c.pub ++ [_]) _ _ = _
      rw [other _ _ (by decide)]
      exact upd _ _ _ rfl hx (hn b y hb))
    ⟨⟨idInv_init, evInv_init, pubInv_init⟩, by intro a x hx; simp [World.core, World.init] at hx⟩
  exact key.2 a x hx he

theorem prep_inside {a : ActId} {it : Item} {x : Act} (h : it.inside a) : it.prep a x = x := by
  cases it with
  | enter b => simp only [Item.inside] at h; simp [Item.prep, h]
  | exit b e => simp only [Item.inside] at h; simp [Item.prep, h]
  | op o => rfl

/-- Inside a block no end event of its action is published. -/
theorem body_run {env : Env} {w : World} (hr : Reachable env w) {a : ActId} {x : Act}
    (hx : w.acts a = some x) (hh : x.handle = true) (hd : x.defer = true) (its : List Item)
    (hin : ∀ it ∈ its, it.inside a) :
    ∃ y, (run env w its).acts a = some y ∧ y.defer = true ∧
      pubsOf (run env w its).pub .end_ a = pubsOf w.pub .end_ a := by
  induction its generalizing w x with
  | nil => exact ⟨x, hx, hd, rfl⟩
  | cons it its ih =>
    obtain ⟨y, hy, h1⟩ := ends_item (env := env) hx hh hr.idInv.fresh (hr.transOK a x hx) hr.evInv it
    obtain ⟨z, hz, hzf⟩ := hr.good.fixed_item it hx
    rw [hy] at hz; cases hz
    rw [prep_inside (hin it (by simp))] at h1
    obtain ⟨z, hz, hzd, hzp⟩ := ih (hr.item it) hy ((Act.fixed_handle hzf).trans hh) (h1.defer.trans hd)
      (fun i hi => hin i (by simp [hi]))
    refine ⟨z, hz, hzd, hzp.trans ?_⟩
    obtain ⟨d, d1, _, d3, _⟩ := h1.pubs
    by_cases hd0 : d = []
    · rw [d1, hd0, List.append_nil]
    · have := (d3 hd0).2; rw [hd] at this; cases this

/-- Entering a block. -/
theorem enter_defer {env : Env} {w : World} {a : ActId} {x : Act} (hr : Reachable env w)
    (hx : w.acts a = some x) (hh : x.handle = true) :
    ∃ y, (stepItem env w (.enter a)).acts a = some y ∧ y.handle = true ∧ y.defer = true ∧
      pubsOf (stepItem env w (.enter a)).pub .end_ a = pubsOf w.pub .end_ a := by
  obtain ⟨y, hy, h1⟩ := ends_item (env := env) hx hh hr.idInv.fresh (hr.transOK a x hx) hr.evInv (.enter a)
  obtain ⟨z, hz, hzf⟩ := hr.good.fixed_item (.enter a) hx
  rw [hy] at hz; cases hz
  refine ⟨y, hy, (Act.fixed_handle hzf).trans hh, by simpa [Item.prep] using h1.defer, ?_⟩
  obtain ⟨d, d1, _, d3, _⟩ := h1.pubs
  by_cases hd0 : d = []
  · rw [d1, hd0, List.append_nil]
  · have := (d3 hd0).1; simp [Item.ends] at this

theorem lastStatus_ne_begin (a : ActId) (its : List Item) : lastStatus a its ≠ some .begin := by
  intro h
  have := List.mem_of_getLast? h
  simp only [List.mem_filterMap] at this
  obtain ⟨it, _, h⟩ := this
  cases it with
  | op o =>
    cases o with
    | exception b c m f kw => cases c <;> simp [Item.statusCall] at h
    | _ => simp [Item.statusCall] at h
  | _ => simp [Item.statusCall] at h

theorem publish_quiet_none {env : Env} (hq : env.Quiet) (w : World) (l : LogId) (k : Kind) (e : Event) :
    (publish env w l k e).2 = none := publish_quiet hq ..

theorem publish_async_none {env : Env} {w : World} {l : LogId} {L : Log} (hL : w.logs l = some L)
    (ha : L.async = true) (k : Kind) (e : Event) : (publish env w l k e).2 = none := by
  simp [publish, hL, ha]

theorem callAll_ordinary {env : Env} (ho : env.Ordinary) (os : List Obs) (w : World) :
    ∀ x, (callAll env os w).2 = some x → x.cls = .ordinary := by
  intro x hx
  rw [callAll_eq] at hx
  obtain ⟨pre, o, post, _, _, h⟩ := ran_split hx
  exact ho _ _ _ h

theorem publish_ordinary {env : Env} (ho : env.Ordinary) (w : World) (l : LogId) (k : Kind) (e : Event) :
    ∀ x, (publish env w l k e).2 = some x → x.cls = .ordinary := by
  intro x hx
  simp only [publish] at hx
  split at hx
  · cases hx
  · split at hx
    · cases hx
    · exact callAll_ordinary ho _ _ x hx

theorem publishExc_ordinary {env : Env} (ho : env.Ordinary) (w : World) (l : LogId) (e : Event) :
    ∀ x, (publishExc env w l e).2 = some x → x.cls = .ordinary := by
  intro x hx
  simp only [publishExc] at hx
  split at hx
  · cases hx
  · exact callAll_ordinary ho _ _ x hx

theorem begin_ordinary {env : Env} (ho : env.Ordinary) (w : World) (a : ActId) (m : Option String) (f : List Val)
    (kw : Dict) : ∀ x, (begin_ env w a m f kw).2 = some x → x.cls = .ordinary := by
  intro x hx
  simp only [begin_] at hx
  split at hx
  · cases hx
  · split at hx
    · cases hx
    · exact publish_ordinary ho _ _ _ _ x hx

theorem endWith_ordinary {env : Env} (ho : env.Ordinary) (w : World) (a : ActId) (st : Status) (m : String)
    (f : List Val) (t : Int) (exc : Option Exc) :
    ∀ x, (endWith env w a st m f t exc).2 = some x → x.cls = .ordinary := by
  intro x hx
  simp only [endWith] at hx
  split at hx
  · cases hx
  · split at hx
    · cases hx
    · exact publish_ordinary ho _ _ _ _ x hx

theorem end_ordinary {env : Env} (ho : env.Ordinary) (w : World) (a : ActId) (st : Status) (m : String)
    (f : List Val) (kw : Dict) (t : Option Int) (exc : Option Exc) :
    ∀ x, (end_ env w a st m f kw t exc).2 = some x → x.cls = .ordinary := by
  intro x hx
  simp only [end_] at hx
  split at hx
  · cases hx
  · rename_i y _
    split at hx
    · split at hx
      · split at hx <;> exact endWith_ordinary ho _ _ _ _ _ _ _ x hx
      · exact endWith_ordinary ho _ _ _ _ _ _ _ x hx
    · have hb := begin_ordinary ho (w.setAct a { y with data := y.data.update kw }) a none [] []
      cases hr : begin_ env (w.setAct a { y with data := y.data.update kw }) a none [] [] with
      | mk w1 r =>
        rw [hr] at hx hb
        cases r with
        | some err =>
          simp only [andThen, Option.some.injEq] at hx
          subst hx; exact hb _ rfl
        | none =>
          simp only [andThen] at hx
          split at hx
          · cases hx
          · exact endWith_ordinary ho _ _ _ _ _ _ _ x hx

theorem exception_ordinary {env : Env} (ho : env.Ordinary)
    (hoi : ∀ c x, env.excInfoErr c = some x → x.cls = .ordinary)
    (hot : ∀ c n b x, env.excText c n b = .error x → x.cls = .ordinary)
    (w : World) (a : ActId) (c : Option Exc) (m : Option String) (f : List Val) (kw : Dict) :
    ∀ x, (exception_ env w a c m f kw).2 = some x → x.cls = .ordinary := by
  intro err herr
  cases hx : w.acts a with
  | none => simp [exception_, hx] at herr
  | some x =>
    rcases exception_spec (env := env) hx c m f kw with ⟨err', he, hr⟩ | ⟨he, msg, ev, w1, hs, ⟨err', hp, hr⟩ | ⟨hp, hr⟩⟩
    · rw [hr] at herr; simp only [Option.some.injEq] at herr; subst herr
      simp only [excEarly] at he
      split at he
      · rename_i e' h'; cases he; exact hoi _ _ h'
      · split at he
        · rename_i e' h'
          cases he
          split at h'
          · exact hot _ _ _ _ h'
          · cases h'
        · cases he
    · rw [hr] at herr; simp only [Option.some.injEq] at herr; subst herr
      exact publishExc_ordinary ho _ _ _ _ hp
    · rw [hr] at herr
      exact end_ordinary ho _ _ _ _ _ _ _ _ _ herr

/-- `success` inside a block raises only what publishing raises. -/
theorem success_pub_none {env : Env} {w : World} {a : ActId} {x : Act} (hx : w.acts a = some x)
    (ht : x.isTrans = true)
    (hpub : ∀ (v : World) (k : Kind) (ev : Event), v.logs = w.logs → (publish env v x.logger k ev).2 = none)
    (m : Option String) (f : List Val) (kw : Dict) : (success env w a m f kw).2 = none := by
  simp only [success, hx, end_, ht, if_true, endWith]
  split
  · rfl
  · rename_i y hy
    simp only [tick_acts, setAct_same, Option.some.injEq] at hy
    subst hy
    split
    · rfl
    · exact hpub _ _ _ rfl

/-- Once entered, an action stays marked. -/
theorem trans_run {env : Env} {w : World} (hr : Reachable env w) {a : ActId} {x : Act}
    (hx : w.acts a = some x) (hh : x.handle = true) (its : List Item)
    (h : x.isTrans = true ∨ .enter a ∈ its) :
    ∃ y, (run env w its).acts a = some y ∧ y.isTrans = true := by
  induction its generalizing w x with
  | nil => exact ⟨x, hx, by simpa using h⟩
  | cons it its ih =>
    obtain ⟨y, hy, h1⟩ := ends_item (env := env) hx hh hr.idInv.fresh (hr.transOK a x hx) hr.evInv it
    obtain ⟨z, hz, hzf⟩ := hr.good.fixed_item it hx
    rw [hy] at hz; cases hz
    refine ih (hr.item it) hy ((Act.fixed_handle hzf).trans hh) ?_
    rw [h1.trans]
    have hp : x.isTrans = true → (it.prep a x).isTrans = true := by
      intro hx
      cases it with
      | enter b => simp only [Item.prep]; split <;> simp [hx]
      | exit b e => simp only [Item.prep]; split <;> simp [hx]
      | op o => exact hx
    rcases h with h | h
    · exact .inl (hp h)
    · rcases List.mem_cons.1 h with h | h
      · subst h; left; simp [Item.prep]
      · exact .inr h

/-- Leaving a block works when foreign code does. -/
theorem exitPublish_calm {env : Env} (hc : env.Calm) {w : World} {a : ActId} {x : Act} (hx : w.acts a = some x)
    (exc : Option Exc) : (exitPublish env w a exc).2 = none := by
  cases exc with
  | none =>
    by_cases he : x.endEv = none
    · rw [exitPublish_open hx he]
      simp only [success]; split
      · rfl
      · exact end_quiet hc.quiet ..
    · obtain ⟨ev, hev⟩ := Option.ne_none_iff_exists'.1 he
      rw [exitPublish_ended hx hev]; exact publish_quiet hc.quiet ..
  | some e =>
    rw [exitPublish_exc hx]
    have key : (exception_ env (w.setAct a { x with defer := false }) a (some e) none [] []).2 = none := by
      rcases exception_spec (env := env) (w := w.setAct a { x with defer := false }) (a := a)
        (x := { x with defer := false }) (by simp) (some e) none [] [] with
        ⟨err', he, hr⟩ | ⟨he, msg, ev, w1, hs, ⟨err', hp, hr⟩ | ⟨hp, hr⟩⟩
      · rw [excEarly_calm hc] at he; cases he
      · rw [publishExc_quiet hc.quiet] at hp; cases hp
      · rw [hr]; exact end_quiet hc.quiet ..
    split
    · rfl
    · rename_i w1 err hr1; rw [hr1] at key; cases key

/-- Recording an exception needs only the `on_exception` hooks to work. -/
theorem exception_records {env : Env} {w : World} {a : ActId} {x : Act}
    (hex : ∀ t s e, env.raises t (.hook s .exception e) = none)
    (hinfo : ∀ e, env.excInfoErr (some e) = none) (htext : ∀ c n b, ∃ m, env.excText c n b = .ok m)
    (hx : w.acts a = some x) (ht : x.isTrans = true) (hb : x.beginEv.isSome) (hd : x.defer = false) (e : Exc) :
    ∃ z ev, (exception_ env w a (some e) none [] []).1.acts a = some z ∧ z.endEv = some ev ∧
      ev.status = .exception ∧ ev.excInfo = some e ∧
      pubsOf (exception_ env w a (some e) none [] []).1.pub .end_ a = pubsOf w.pub .end_ a ++ [ev] := by
  rcases exception_spec (env := env) hx (some e) none [] [] with
    ⟨err', he, hr⟩ | ⟨he, msg, ev, w1, hs, ⟨err', hp, hr⟩ | ⟨hp, hr⟩⟩
  · exfalso
    simp only [excEarly, hinfo, falsy, if_true] at he
    obtain ⟨m, hm⟩ := htext (some e) x.name (!x.data.isEmpty)
    rw [hm] at he; cases he
  · exfalso
    simp only [publishExc] at hp
    split at hp
    · cases hp
    · rw [callAll_eq] at hp
      obtain ⟨pre, o, post, h1, _, h3⟩ := ran_split hp
      have ho : o ∈ pre ++ o :: post := by simp
      rw [← h1] at ho
      simp only [hookCalls, List.mem_map] at ho
      obtain ⟨s, _, rfl⟩ := ho
      rw [hex] at h3; cases h3
  · rw [hr]
    have hx1 : (publishExc env w1 x.logger ev).1.acts a = some { x with excEvs := x.excEvs ++ [ev] } := by
      rw [publishExc_acts', hs.acts]; simp
    rcases end_spec (env := env) hx1 (fun _ => hb) .exception msg [] [] (some (w.now env)) (some e) with
      ⟨b, e', h⟩ | ⟨b, y, h, _⟩
    · refine ⟨_, e', by rw [h.acts, updAct_same], rfl, h.estatus, h.eexc, ?_⟩
      rw [h.pub, publishExc_pub', hs.pub]
      have hbn : x.beginEv.isNone = false := by
        obtain ⟨b', hb'⟩ := Option.isSome_iff_exists.1 hb; simp [hb']
      simp only [hbn, hd, if_false, pubsOf_append, pubsOf_single, h.eact, Bool.false_eq_true, List.append_nil]
      simp
    · have := h.notTrans; simp [ht] at this

theorem addLogger_active (w : World) (l : LogId) : (addLogger w l).active = w.active := by
  simp only [addLogger]; split <;> rfl

theorem step_active {env : Env} {w : World} (o : Op) : (step env w o).1.active = w.active := by
  cases o with
  | newLogger l ss b =>
    simp only [step]; split
    · rfl
    · rw [addLogger_active]; rfl
  | addNoteHandler h => rfl
  | removeLogger l => rfl
  | addLogger l =>
    simp only [step]; split
    · rfl
    · exact addLogger_active ..
  | enableAsync u =>
    simp only [step, enableAsync]; split
    · exact (foldl_setAsync_flushLike _ _ _).active
    · rfl
  | disableAsync u =>
    simp only [step, ret, disableAsync]
    have h : ∀ v : World, v.active = w.active →
        (match ctxFlush env v.ctxLoggers v with
          | (w, some e) => (w, some e)
          | (w, none) => ({ w with ctxAsync := false }, none)).1.active = w.active := by
      intro v hv
      have := (ctxFlush_flushLike env v.ctxLoggers v).active
      split <;> rename_i hr <;> rw [hr] at this <;> exact this.trans hv
    refine h _ ?_
    split
    · exact (foldl_setAsync_flushLike _ _ _).active
    · rfl
  | _ => exact (keep_step _ rfl).active

end Verif
