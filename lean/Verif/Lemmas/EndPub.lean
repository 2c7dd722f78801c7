import Verif.Lemmas.RecStep
/-!
# Which items publish end events of an action
-/
namespace Verif
attribute [local irreducible] QUEUE_LIMIT

/-- Whatever was published belongs to action `a`. -/
def PubOnly (a : ActId) (w w' : World) : Prop := ∃ new, w'.pub = w.pub ++ new ∧ ∀ p ∈ new, p.2.act = a

namespace PubOnly
variable {a : ActId}
theorem ofEq {w w' : World} (h : w'.pub = w.pub) : PubOnly a w w' := ⟨[], by simp [h], by simp⟩
theorem refl (w : World) : PubOnly a w w := .ofEq rfl
theorem trans {x y z : World} (h : PubOnly a x y) (g : PubOnly a y z) : PubOnly a x z := by
  obtain ⟨n, h1, h2⟩ := h
  obtain ⟨m, g1, g2⟩ := g
  refine ⟨n ++ m, by rw [g1, h1, List.append_assoc], ?_⟩
  intro p hp
  rcases List.mem_append.1 hp with h | h
  · exact h2 p h
  · exact g2 p h
theorem pubsOf {w w' : World} (h : PubOnly a w w') {b : ActId} (hb : b ≠ a) (k : Kind) :
    pubsOf w'.pub k b = pubsOf w.pub k b := by
  obtain ⟨n, h1, h2⟩ := h
  rw [h1, pubsOf_append]
  have : Verif.pubsOf n k b = [] := by
    simp only [Verif.pubsOf, List.map_eq_nil_iff, List.filter_eq_nil_iff, decide_eq_true_eq]
    intro p hp hk
    exact hb (hk.2.symm.trans (h2 p hp))
  simp [this]
end PubOnly

section
variable {env : Env} {w : World} {a : ActId}

theorem pubOnly_publish (l : LogId) (k : Kind) (e : Event) (h : e.act = a) :
    PubOnly a w (publish env w l k e).1 := ⟨[(k, e)], by simp, by simp [h]⟩
theorem pubOnly_andThen {r : World × Option Exc} {k : World → World × Option Exc} (h : PubOnly a w r.1)
    (g : ∀ w', PubOnly a w' (k w').1) : PubOnly a w (andThen r k).1 := by
  obtain ⟨w', x⟩ := r
  cases x with
  | none => exact h.trans (g w')
  | some e => exact h
theorem pubOnly_begin (m : Option String) (f : List Val) (kw : Dict) :
    PubOnly a w (begin_ env w a m f kw).1 := by
  simp only [begin_]; split
  · exact .refl _
  · split
    · exact .ofEq rfl
    · exact PubOnly.trans (.ofEq rfl) (pubOnly_publish _ _ _ rfl)
theorem pubOnly_warn (m : String) (f : List Val) (kw : Dict) : PubOnly a w (warn env w a m f kw).1 := by
  simp only [warn]; split
  · exact .refl _
  · exact PubOnly.trans (.ofEq rfl) (pubOnly_publish _ _ _ rfl)
theorem pubOnly_endWith (st : Status) (m : String) (f : List Val) (t : Int) (exc : Option Exc) :
    PubOnly a w (endWith env w a st m f t exc).1 := by
  simp only [endWith]; split
  · exact .refl _
  · split
    · exact .ofEq rfl
    · exact PubOnly.trans (.ofEq rfl) (pubOnly_publish _ _ _ rfl)
theorem pubOnly_end (st : Status) (m : String) (f : List Val) (kw : Dict) (t : Option Int)
    (exc : Option Exc) : PubOnly a w (end_ env w a st m f kw t exc).1 := by
  simp only [end_]; split
  · exact .refl _
  · rename_i x _
    refine PubOnly.trans (.ofEq (w' := w.setAct a { x with data := x.data.update kw }) rfl) ?_
    split
    · split
      · split
        · exact PubOnly.trans (.ofEq rfl) (pubOnly_endWith ..)
        · exact pubOnly_endWith ..
      · exact PubOnly.trans (.ofEq rfl) (pubOnly_endWith ..)
    · refine pubOnly_andThen (pubOnly_begin ..) fun w' => ?_
      split
      · exact .refl _
      · exact pubOnly_endWith ..
theorem pubOnly_success (m : Option String) (f : List Val) (kw : Dict) :
    PubOnly a w (success env w a m f kw).1 := by
  simp only [success]; split
  · exact .refl _
  · exact pubOnly_end ..
theorem pubOnly_failure (m : Option String) (f : List Val) (kw : Dict) :
    PubOnly a w (failure env w a m f kw).1 := by
  simp only [failure]; split
  · exact .refl _
  · exact pubOnly_end ..
theorem pubOnly_exception (cur : Option Exc) (m : Option String) (f : List Val) (kw : Dict) :
    PubOnly a w (exception_ env w a cur m f kw).1 := by
  simp only [exception_]; split
  · exact .refl _
  · refine PubOnly.trans (.ofEq (w' := w.tick) rfl) ?_
    split
    · exact .refl _
    · split
      · exact .refl _
      · exact pubOnly_andThen (.ofEq (by simp)) fun w' => pubOnly_end ..
theorem pubOnly_enter : PubOnly a w (enter env w a).1 := by
  simp only [enter]; split
  · exact .refl _
  · exact PubOnly.trans (.ofEq rfl) (pubOnly_begin ..)
theorem pubOnly_exitPublish (hev : ∀ x e, w.acts a = some x → x.endEv = some e → e.act = a)
    (exc : Option Exc) : PubOnly a w (exitPublish env w a exc).1 := by
  simp only [exitPublish]; split
  · exact .refl _
  · rename_i x hx
    refine PubOnly.trans (.ofEq (w' := w.setAct a { x with defer := false }) rfl) ?_
    split
    · rename_i e
      have h := pubOnly_exception (env := env) (w := w.setAct a { x with defer := false }) (a := a) (some e) none [] []
      cases hr : exception_ env (w.setAct a { x with defer := false }) a (some e) none [] [] with
      | mk w1 r =>
        rw [hr] at h; dsimp only at h
        cases r with
        | none => exact h
        | some err =>
          dsimp only
          cases err.cls with
          | ordinary => exact h.trans (.ofEq (noteAll_pub _))
          | baseOnly => exact h
    · split
      · rename_i ev hev'
        exact pubOnly_publish _ _ _ (hev x ev hx hev')
      · exact pubOnly_success ..
theorem pubOnly_exit (hev : ∀ x e, w.acts a = some x → x.endEv = some e → e.act = a)
    (exc : Option Exc) : PubOnly a w (exit env w a exc).1 := by
  simp only [exit]; split
  · exact .refl _
  · have h := pubOnly_exitPublish (env := env) hev exc
    cases hr : exitPublish env w a exc with
    | mk w1 r =>
      rw [hr] at h; dsimp only at h
      cases r with
      | none => exact h.trans (.ofEq rfl)
      | some e => exact h
theorem pubOnly_guard {r : World × Option Exc} (h : PubOnly a w r.1) : PubOnly a w (guard w a r).1 := by
  simp only [guard]; split
  · exact h
  · exact .refl _
end

/-- An item that is not a call on `a` publishes nothing of `a`. -/
theorem pubs_other {env : Env} {w : World} {a : ActId} {x : Act} (hx : w.acts a = some x)
    (hf : w.acts w.nextId = none) (hev : EvInv w.core) (it : Item) (ht : it.target ≠ some a) (k : Kind) :
    pubsOf (stepItem env w it).pub k a = pubsOf w.pub k a := by
  have hne : a ≠ w.nextId := by rintro rfl; rw [hf] at hx; cases hx
  have fl : ∀ {w' : World}, FlushLike w w' → pubsOf w'.pub k a = pubsOf w.pub k a :=
    fun h => by rw [h.core.pub]
  have only : ∀ {b : ActId} {w' : World}, PubOnly b w w' → b ≠ a →
      pubsOf w'.pub k a = pubsOf w.pub k a := fun h hb => h.pubsOf (Ne.symm hb) k
  cases it with
  | enter b =>
    exact only (pubOnly_guard pubOnly_enter) (by simpa [Item.target] using ht)
  | exit b exc =>
    have hb : b ≠ a := by simpa [Item.target] using ht
    simp only [stepItem]; split
    · exact only (pubOnly_exit (fun y e hy he => (hev.act b y e hy (.inr (.inl he))).1) exc) hb
    · rfl
  | op o =>
    cases o with
    | begin b m f kw => exact only (pubOnly_guard (pubOnly_begin ..)) (by simpa [Item.target] using ht)
    | warn b m f kw => exact only (pubOnly_guard (pubOnly_warn ..)) (by simpa [Item.target] using ht)
    | success b m f kw => exact only (pubOnly_guard (pubOnly_success ..)) (by simpa [Item.target] using ht)
    | failure b m f kw => exact only (pubOnly_guard (pubOnly_failure ..)) (by simpa [Item.target] using ht)
    | exception b c m f kw =>
      exact only (pubOnly_guard (pubOnly_exception ..)) (by simpa [Item.target] using ht)
    | setItem b kk v =>
      exact only (pubOnly_guard (.ofEq (by simp only [setItem]; split <;> rfl)))
        (by simpa [Item.target] using ht)
    | newLogger l ss async =>
      simp only [stepItem, step]; split
      · rfl
      · simp only [addLogger]; split <;> rfl
    | newAction l lv nm kw => simp only [stepItem, step]; split <;> rfl
    | comment l m f kw =>
      simp only [stepItem, step, ret]
      exact (show PubOnly w.nextId w (comment env w l m f kw).1 by
        simp only [comment]; split
        · exact .refl _
        · exact PubOnly.trans (.ofEq rfl) (pubOnly_publish _ _ _ rfl)).pubsOf hne k
    | flush l => exact fl (flush_flushLike ..)
    | setAsync l b => exact fl (setAsync_flushLike ..)
    | setSinks l ss => exact fl (onLog_flushLike ..)
    | addSink l ss => exact fl (onLog_flushLike ..)
    | clearSinks l => exact fl (onLog_flushLike ..)
    | addPreflush l h => exact fl (onLog_flushLike ..)
    | addNoteHandler h => rfl
    | ctxFlush => exact fl (ctxFlush_flushLike ..)
    | enableAsync u =>
      simp only [stepItem, step, enableAsync]
      split
      · have := foldl_setAsync_flushLike w.ctxLoggers false { w with ctxAsync := true }
        rw [this.core.pub]
      · rfl
    | disableAsync u =>
      simp only [stepItem, step, ret, disableAsync]
      have h : FlushLike w (if u then w.ctxLoggers.foldl (fun w l => setAsync w l false) w else w) := by
        split
        · exact foldl_setAsync_flushLike ..
        · exact .refl _
      generalize (if u then w.ctxLoggers.foldl (fun w l => setAsync w l false) w else w) = w1 at h ⊢
      have h2 := h.trans (ctxFlush_flushLike env w1.ctxLoggers w1)
      cases hr : ctxFlush env w1.ctxLoggers w1 with
      | mk w2 r =>
        rw [hr] at h2; dsimp only at h2
        have := h2.core.pub
        cases r with
        | none => simp only; rw [this]
        | some e => simp only; rw [this]
    | addLogger l =>
      simp only [stepItem, step]; split
      · rfl
      · simp only [addLogger]; split <;> rfl
    | removeLogger l => rfl

/-- The effect of a call on its own action's end publications. -/
structure EndStep (w w' : World) (a : ActId) (x x' : Act) (ends : Bool) : Prop where
  pubs : ∃ d, pubsOf w'.pub .end_ a = pubsOf w.pub .end_ a ++ d ∧ d.length ≤ 1 ∧
    (d ≠ [] → ends = true ∧ x.defer = false) ∧ ∀ e ∈ d, x'.endEv = some e
  defer : x'.defer = x.defer
  trans : x'.isTrans = x.isTrans

theorem EndStep.none {w w' : World} {a : ActId} {x x' : Act} {b : Bool}
    (h : pubsOf w'.pub .end_ a = pubsOf w.pub .end_ a) (hd : x'.defer = x.defer)
    (ht : x'.isTrans = x.isTrans) : EndStep w w' a x x' b :=
  ⟨⟨[], by simp [h], by simp, by simp, by simp⟩, hd, ht⟩

section
variable {env : Env} {w : World} {a : ActId} {x : Act}

theorem ends_begin (hx : w.acts a = some x) (m : Option String) (f : List Val) (kw : Dict) :
    ∃ x', (begin_ env w a m f kw).1.acts a = some x' ∧ EndStep w (begin_ env w a m f kw).1 a x x' false := by
  rcases begin_spec (env := env) hx m f kw with ⟨b, hb, h⟩ | ⟨hb, b, _, _, _, h4, _, _, h7, h8, h9⟩
  · rw [h]; exact ⟨_, updAct_same .., .none rfl rfl rfl⟩
  · rw [h7]
    exact ⟨_, updAct_same .., .none (by rw [h8]; simp [pubsOf_single]) rfl rfl⟩

theorem ends_warn (hx : w.acts a = some x) (m : String) (f : List Val) (kw : Dict) :
    ∃ x', (warn env w a m f kw).1.acts a = some x' ∧ EndStep w (warn env w a m f kw).1 a x x' false := by
  obtain ⟨e, _, _, _, _, h5, h6, h7, h8, h9⟩ := warn_spec (env := env) hx m f kw
  rw [h7]
  exact ⟨_, updAct_same .., .none (by rw [h8]; simp [pubsOf_single]) rfl rfl⟩

theorem ends_end (hx : w.acts a = some x) (ht : x.isTrans = true → x.beginEv.isSome) (st : Status)
    (m : String) (f : List Val) (kw : Dict) (et : Option Int) (exc : Option Exc) :
    ∃ x', (end_ env w a st m f kw et exc).1.acts a = some x' ∧
      EndStep w (end_ env w a st m f kw et exc).1 a x x' true ∧
      (env.Quiet → ∃ e, x'.endEv = some e ∧ e.status = st ∧ e.act = a ∧ e.msg = m ∧ e.excInfo = exc ∧
        (x.defer = false →
          pubsOf (end_ env w a st m f kw et exc).1.pub .end_ a = pubsOf w.pub .end_ a ++ [e])) := by
  rcases end_spec (env := env) hx ht st m f kw et exc with ⟨b, e, h⟩ | ⟨b, y, h, hy⟩
  · have hp : pubsOf (end_ env w a st m f kw et exc).1.pub .end_ a =
        pubsOf w.pub .end_ a ++ if x.defer then [] else [e] := by
      rw [h.pub, pubsOf_append, pubsOf_append]
      have h1 : pubsOf (if x.beginEv.isNone then [(Kind.begin, b)] else []) .end_ a = [] := by
        split
        · simp [pubsOf_single]
        · rfl
      rw [h1]
      cases x.defer <;> simp [pubsOf, h.eact]
    refine ⟨{ x with data := x.data.update kw, beginEv := some b, endEv := some e },
      by rw [h.acts]; exact updAct_same .., ⟨⟨_, hp, ?_, ?_, ?_⟩, rfl, rfl⟩, ?_⟩
    · cases x.defer <;> simp
    · cases x.defer <;> simp
    · cases x.defer <;> simp
    · exact fun _ => ⟨e, rfl, h.estatus, h.eact, h.emsg, h.eexc, fun hd => by rw [hp, hd]; simp⟩
  · refine ⟨{ x with data := x.data.update kw, beginEv := some b },
      by rw [h.acts]; exact updAct_same .., .none ?_ rfl rfl, ?_⟩
    · rw [h.pub]; simp [pubsOf_single]
    · intro hq; rw [end_quiet hq] at hy; cases hy

theorem ends_exception (hx : w.acts a = some x) (ht : x.isTrans = true → x.beginEv.isSome)
    (cur : Option Exc) (m : Option String) (f : List Val) (kw : Dict) :
    ∃ x', (exception_ env w a cur m f kw).1.acts a = some x' ∧
      EndStep w (exception_ env w a cur m f kw).1 a x x' true ∧
      (env.Calm → cur.isSome → ∃ e, x'.endEv = some e ∧ e.status = .exception ∧ e.act = a ∧ e.excInfo = cur ∧
        (x.defer = false →
          pubsOf (exception_ env w a cur m f kw).1.pub .end_ a = pubsOf w.pub .end_ a ++ [e])) := by
  rcases exception_spec (env := env) hx cur m f kw with ⟨err, he, hr⟩ | ⟨he, msg, ev, w1, hs, hr⟩
  · rw [hr]
    refine ⟨x, hx, .none rfl rfl rfl, ?_⟩
    intro hc hsome
    obtain ⟨e, rfl⟩ := Option.isSome_iff_exists.1 hsome
    rw [excEarly_calm hc] at he; cases he
  · rcases hr with ⟨err, hp, hr⟩ | ⟨hp, hr⟩
    · rw [hr]
      refine ⟨{ x with excEvs := x.excEvs ++ [ev] }, by rw [publishExc_acts', hs.acts]; simp,
        .none (by rw [publishExc_pub', hs.pub]) rfl rfl, ?_⟩
      intro hc; rw [publishExc_quiet hc.quiet] at hp; cases hp
    · rw [hr]
      obtain ⟨x', h0, h1, h2⟩ :=
        ends_end (env := env) (w := (publishExc env w1 x.logger ev).1) (a := a)
          (x := { x with excEvs := x.excEvs ++ [ev] }) (by rw [publishExc_acts', hs.acts]; simp) ht
          .exception msg f kw (some (w.now env)) cur
      have hpub : (publishExc env w1 x.logger ev).1.pub = w.pub := by rw [publishExc_pub', hs.pub]
      refine ⟨x', h0, ⟨?_, h1.defer, h1.trans⟩, ?_⟩
      · rw [← hpub]; exact h1.pubs
      · intro hc _
        obtain ⟨e, e1, e2, e3, _, e5, e6⟩ := h2 hc.quiet
        exact ⟨e, e1, e2, e3, e5, by rw [← hpub]; exact e6⟩

theorem ends_exitPublish (hx : w.acts a = some x) (ht : x.isTrans = true → x.beginEv.isSome)
    (hev : ∀ e, x.endEv = some e → e.act = a) (exc : Option Exc) :
    ∃ x', (exitPublish env w a exc).1.acts a = some x' ∧
      EndStep w (exitPublish env w a exc).1 a { x with defer := false } x' true ∧
      (env.Calm → ∃ e, x'.endEv = some e ∧ e.act = a ∧ (exc.isSome → e.excInfo = exc) ∧
        (exc = none → ∀ e', x.endEv = some e' → e = e') ∧
        pubsOf (exitPublish env w a exc).1.pub .end_ a = pubsOf w.pub .end_ a ++ [e]) := by
  cases exc with
  | some e =>
    rw [exitPublish_exc hx]
    obtain ⟨x', h0, h1, h2⟩ := ends_exception (env := env) (w := w.setAct a { x with defer := false }) (a := a)
      (x := { x with defer := false }) (by simp) ht (some e) none [] []
    refine ⟨x', ?_⟩
    cases hr : exception_ env (w.setAct a { x with defer := false }) a (some e) none [] [] with
    | mk w1 r =>
      rw [hr] at h0 h1 h2; dsimp only at h0 h1 h2
      have h3 : EndStep w w1 a { x with defer := false } x' true := ⟨h1.pubs, h1.defer, h1.trans⟩
      have h4 : env.Calm → ∃ e', x'.endEv = some e' ∧ e'.act = a ∧ ((some e).isSome → e'.excInfo = some e) ∧
          (some e = none → ∀ e'', x.endEv = some e'' → e' = e'') ∧
          pubsOf w1.pub .end_ a = pubsOf w.pub .end_ a ++ [e'] := by
        intro hc
        obtain ⟨ev, a1, a2, a3, a4, a5⟩ := h2 hc rfl
        exact ⟨ev, a1, a3, fun _ => a4, by simp, a5 rfl⟩
      cases r with
      | none => exact ⟨h0, h3, h4⟩
      | some err =>
        dsimp only
        cases err.cls with
        | baseOnly => exact ⟨h0, h3, h4⟩
        | ordinary =>
          refine ⟨by rw [noteAll_acts]; exact h0, ⟨?_, h3.defer, h3.trans⟩, ?_⟩
          · rw [noteAll_pub]; exact h3.pubs
          · rw [noteAll_pub]; exact h4
  | none =>
    by_cases he : x.endEv = none
    · rw [exitPublish_open hx he]
      simp only [success, setAct_same]
      obtain ⟨x', h0, h1, h2⟩ := ends_end (env := env) (w := w.setAct a { x with defer := false }) (a := a)
        (x := { x with defer := false }) (by simp) ht .success
        (endMsg { x with defer := false } none " succeeded") [] [] none none
      refine ⟨x', h0, ⟨h1.pubs, h1.defer, h1.trans⟩, ?_⟩
      intro hc
      obtain ⟨ev, a1, a2, a3, a4, a5, a6⟩ := h2 hc.quiet
      exact ⟨ev, a1, a3, by simp, by simp [he], a6 rfl⟩
    · obtain ⟨ev, he⟩ := Option.ne_none_iff_exists'.1 he
      rw [exitPublish_ended hx he]
      have hp : pubsOf (publish env (w.setAct a { x with defer := false }) x.logger .end_ ev).1.pub .end_ a =
          pubsOf w.pub .end_ a ++ [ev] := by simp [pubsOf_single, hev ev he]
      refine ⟨{ x with defer := false }, by simp, ⟨⟨[ev], hp, by simp, by simp, by simp [he]⟩, rfl, rfl⟩, ?_⟩
      exact fun _ => ⟨ev, he, hev ev he, by simp, fun _ e' h' => by rw [he] at h'; cases h'; rfl, hp⟩
end

theorem exit_acts_pub {env : Env} {w : World} {a : ActId} {x : Act} (hx : w.acts a = some x)
    (exc : Option Exc) : (exit env w a exc).1.acts = (exitPublish env w a exc).1.acts ∧
      (exit env w a exc).1.pub = (exitPublish env w a exc).1.pub := by
  simp only [exit, hx]
  cases exitPublish env w a exc with
  | mk w1 r => cases r <;> exact ⟨rfl, rfl⟩

/-- The record before the item as far as deferral is concerned. -/
def Item.prep (a : ActId) (it : Item) (x : Act) : Act :=
  match it with
  | .enter b => if b = a then { x with isTrans := true, defer := true } else x
  | .exit b _ => if b = a then { x with defer := false } else x
  | _ => x

theorem ends_item {env : Env} {w : World} {a : ActId} {x : Act}
    (hx : w.acts a = some x) (hh : x.handle = true) (hf : w.acts w.nextId = none)
    (ht : x.isTrans = true → x.beginEv.isSome) (hev : EvInv w.core) (it : Item) :
    ∃ x', (stepItem env w it).acts a = some x' ∧
      EndStep w (stepItem env w it) a (it.prep a x) x' (it.ends a) := by
  have hheld : w.held a = true := held_iff.2 ⟨x, hx, hh⟩
  by_cases htg : it.target = some a
  · cases it with
    | enter b =>
      simp only [Item.target, Option.some.injEq] at htg; subst htg
      simp only [stepItem, guard_held hheld, enter, hx]
      obtain ⟨x', h0, h1⟩ := ends_begin (env := env)
        (w := (w.setAct b { x with isTrans := true, defer := true }).setActive x.logger (some b)) (a := b)
        (x := { x with isTrans := true, defer := true }) (by simp) none [] []
      exact ⟨x', h0, by simpa [Item.prep] using ⟨h1.pubs, h1.defer, h1.trans⟩⟩
    | exit b exc =>
      simp only [Item.target, Option.some.injEq] at htg; subst htg
      simp only [stepItem, hheld, if_true]
      obtain ⟨x', h0, h1, _⟩ := ends_exitPublish (env := env) hx ht
        (fun e he => (hev.act b x e hx (.inr (.inl he))).1) exc
      obtain ⟨e1, e2⟩ := exit_acts_pub (env := env) hx exc
      refine ⟨x', by rw [e1]; exact h0, ?_⟩
      refine ⟨?_, by simpa [Item.prep] using h1.defer, by simpa [Item.prep] using h1.trans⟩
      rw [e2]; simpa [Item.prep, Item.ends] using h1.pubs
    | op o =>
      cases o with
      | begin b m f kw =>
        simp only [Item.target, Option.some.injEq] at htg; subst htg
        simp only [stepItem, step, guard_held hheld]
        exact ends_begin hx m f kw
      | warn b m f kw =>
        simp only [Item.target, Option.some.injEq] at htg; subst htg
        simp only [stepItem, step, guard_held hheld]
        exact ends_warn hx m f kw
      | success b m f kw =>
        simp only [Item.target, Option.some.injEq] at htg; subst htg
        simp only [stepItem, step, guard_held hheld, success, hx]
        obtain ⟨x', h0, h1, _⟩ := ends_end (env := env) hx ht .success (endMsg x m " succeeded") f kw none none
        exact ⟨x', h0, by simpa [Item.prep, Item.ends] using h1⟩
      | failure b m f kw =>
        simp only [Item.target, Option.some.injEq] at htg; subst htg
        simp only [stepItem, step, guard_held hheld, failure, hx]
        obtain ⟨x', h0, h1, _⟩ := ends_end (env := env) hx ht .failure (endMsg x m " failed") f kw none none
        exact ⟨x', h0, by simpa [Item.prep, Item.ends] using h1⟩
      | exception b c m f kw =>
        simp only [Item.target, Option.some.injEq] at htg; subst htg
        simp only [stepItem, step, guard_held hheld]
        obtain ⟨x', h0, h1, _⟩ := ends_exception (env := env) hx ht c m f kw
        exact ⟨x', h0, by simpa [Item.prep, Item.ends] using h1⟩
      | setItem b k v =>
        simp only [Item.target, Option.some.injEq] at htg; subst htg
        simp only [stepItem, step, guard_held hheld, setItem, hx]
        exact ⟨_, setAct_same .., .none rfl rfl rfl⟩
      | _ => simp [Item.target] at htg
  · obtain ⟨h, _⟩ := rec_other (env := env) hx hf it htg
    have hprep : it.prep a x = x := by
      cases it with
      | enter b => simp_all [Item.prep, Item.target]
      | exit b e => simp_all [Item.prep, Item.target]
      | op o => rfl
    rw [hprep]
    exact ⟨x, h, .none (pubs_other hx hf hev it htg _) rfl rfl⟩

end Verif
