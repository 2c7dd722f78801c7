import Verif.Lemmas.Quiet
import Verif.Lemmas.Config
import Verif.Spec.Env
/-!
# What each call does to the record of its action, and to the list of publications
-/
namespace Verif
attribute [local irreducible] QUEUE_LIMIT

variable {env : Env} {w : World} {a : ActId} {x : Act}

theorem publishExc_acts' (l : LogId) (e : Event) : (publishExc env w l e).1.acts = w.acts := by
  simp only [publishExc]; split
  · rfl
  · rw [callAll_eq]; rfl

theorem publishExc_pub' (l : LogId) (e : Event) : (publishExc env w l e).1.pub = w.pub := by
  simp only [publishExc]; split
  · rfl
  · rw [callAll_eq]; rfl

theorem publish_pub' (l : LogId) (k : Kind) (e : Event) :
    (publish env w l k e).1.pub = w.pub ++ [(k, e)] := by
  simp only [publish]; split
  · rfl
  · split
    · rfl
    · rw [callAll_eq]; rfl

/-- `begin`. -/
theorem begin_spec (hx : w.acts a = some x) (m : Option String) (f : List Val) (kw : Dict) :
    (∃ b, x.beginEv = some b ∧
      begin_ env w a m f kw = (w.setAct a { x with data := x.data.update kw }, none)) ∨
    (x.beginEv = none ∧ ∃ b, b.act = a ∧ b.logger = x.logger ∧ b.kind = .begin ∧ b.etime = w.now env ∧
      b.fargs = f ∧ b.msg = (if falsy m then x.name ++ " beginning" else m.getD "") ∧
      (begin_ env w a m f kw).1.acts =
        updAct w.acts a { x with data := x.data.update kw, beginEv := some b } ∧
      (begin_ env w a m f kw).1.pub = w.pub ++ [(.begin, b)] ∧
      (begin_ env w a m f kw).1.ticks = w.ticks + 1) := by
  simp only [begin_, hx]
  by_cases hb : x.beginEv = none
  · right
    refine ⟨hb, mkEvent w a x.logger .begin .begin (w.now env)
      (if falsy m then x.name ++ " beginning" else m.getD "") f none, rfl, rfl, rfl, rfl, rfl, rfl, ?_⟩
    obtain ⟨lg, lv, nm, d, rr, p, b, en, wv, ev, t, df, h⟩ := x
    simp only at hb; subst hb
    simp only
    exact ⟨by simp only [publish_acts]; rfl, by rw [publish_pub']; rfl, by rw [publish_ticks]; rfl⟩
  · left
    obtain ⟨b, hb⟩ := Option.ne_none_iff_exists'.1 hb
    refine ⟨b, hb, ?_⟩
    obtain ⟨lg, lv, nm, d, rr, p, b', en, wv, ev, t, df, h⟩ := x
    simp only at hb; subst hb
    rfl

/-- `warn`. -/
theorem warn_spec (hx : w.acts a = some x) (m : String) (f : List Val) (kw : Dict) :
    ∃ e, e.act = a ∧ e.logger = x.logger ∧ e.kind = .warn ∧ e.etime = w.now env ∧ e.fargs = f ∧ e.msg = m ∧
      (warn env w a m f kw).1.acts =
        updAct w.acts a { x with data := x.data.update kw, warnEvs := x.warnEvs ++ [e] } ∧
      (warn env w a m f kw).1.pub = w.pub ++ [(.warn, e)] ∧
      (warn env w a m f kw).1.ticks = w.ticks + 1 := by
  simp only [warn, hx]
  refine ⟨mkEvent w a x.logger .warn .warning (w.now env) m f none, rfl, rfl, rfl, rfl, rfl, rfl, ?_⟩
  exact ⟨by simp, by rw [publish_pub']; rfl, by rw [publish_ticks]; rfl⟩

/-- `_end` from the creation of the event on. -/
theorem endWith_spec (hx : w.acts a = some x) (st : Status) (m : String) (f : List Val) (t : Int)
    (exc : Option Exc) :
    ∃ e, e.act = a ∧ e.logger = x.logger ∧ e.kind = .end_ ∧ e.status = st ∧ e.etime = t ∧ e.msg = m ∧
      e.fargs = f ∧ e.excInfo = exc ∧
      (endWith env w a st m f t exc).1.acts = updAct w.acts a { x with endEv := some e } ∧
      (endWith env w a st m f t exc).1.pub = w.pub ++ (if x.defer then [] else [(.end_, e)]) ∧
      (endWith env w a st m f t exc).1.ticks = w.ticks := by
  simp only [endWith, hx]
  refine ⟨mkEvent w a x.logger .end_ st t m f exc, rfl, rfl, rfl, rfl, rfl, rfl, rfl, rfl, ?_⟩
  split
  · exact ⟨by simp, by simp, rfl⟩
  · exact ⟨by simp, by rw [publish_pub']; rfl, by rw [publish_ticks]; rfl⟩

/-- The time `_end` gives the end event. -/
def endTimeOf (env : Env) (w : World) (x : Act) (b : Event) (et : Option Int) : Int :=
  if x.isTrans then
    match et with
    | some t => if t = 0 then w.now env else t
    | none => w.now env
  else b.etime

/-- What `_end` did when it got as far as making the end event. -/
structure Ended (env : Env) (w : World) (a : ActId) (x : Act) (st : Status) (m : String) (f : List Val)
    (kw : Dict) (et : Option Int) (exc : Option Exc) (w' : World) (b e : Event) : Prop where
  eact : e.act = a
  elog : e.logger = x.logger
  ekind : e.kind = .end_
  estatus : e.status = st
  emsg : e.msg = m
  efargs : e.fargs = f
  eexc : e.excInfo = exc
  etime : e.etime = endTimeOf env w x b et
  begun : x.beginEv = some b ∨ (x.beginEv = none ∧ x.isTrans = false ∧ b.etime = w.now env ∧ b.kind = .begin)
  acts : w'.acts = updAct w.acts a
    { x with data := x.data.update kw, beginEv := some b, endEv := some e }
  pub : w'.pub = w.pub ++ (if x.beginEv.isNone then [(.begin, b)] else []) ++
    (if x.defer then [] else [(.end_, e)])
  ticks : w.ticks ≤ w'.ticks
  ticksB : x.beginEv = none → w.ticks < w'.ticks
  ticksE : x.isTrans = true → et = none ∨ et = some 0 → w.ticks < w'.ticks

/-- What `_end` did when the begin event it had to make first was refused by a sink. -/
structure Aborted (env : Env) (w : World) (a : ActId) (x : Act) (kw : Dict) (w' : World) (b : Event) :
    Prop where
  notTrans : x.isTrans = false
  none : x.beginEv = none
  btime : b.etime = w.now env
  bkind : b.kind = .begin
  acts : w'.acts = updAct w.acts a { x with data := x.data.update kw, beginEv := some b }
  pub : w'.pub = w.pub ++ [(.begin, b)]
  ticks : w'.ticks = w.ticks + 1

theorem update_nil (d : Dict) : d.update [] = d := rfl

/-- `_end`. -/
theorem end_spec (hx : w.acts a = some x) (ht : x.isTrans = true → x.beginEv.isSome) (st : Status)
    (m : String) (f : List Val) (kw : Dict) (et : Option Int) (exc : Option Exc) :
    (∃ b e, Ended env w a x st m f kw et exc (end_ env w a st m f kw et exc).1 b e) ∨
    (∃ b y, Aborted env w a x kw (end_ env w a st m f kw et exc).1 b ∧
      (end_ env w a st m f kw et exc).2 = some y) := by
  simp only [end_, hx]
  by_cases htr : x.isTrans = true
  · left
    obtain ⟨b, hb⟩ := Option.isSome_iff_exists.1 (ht htr)
    refine ⟨b, ?_⟩
    have main : ∀ (w1 : World) (t : Int), w1.acts = updAct w.acts a { x with data := x.data.update kw } →
        w1.pub = w.pub → w.ticks ≤ w1.ticks → t = endTimeOf env w x b et →
        (et = none ∨ et = some 0 → w.ticks < w1.ticks) → ∃ e, Ended env w a x st m f kw et exc (endWith env w1 a st m f t exc).1 b e := by
      intro w1 t h1 h2 h3 h4 h5
      obtain ⟨e, e1, e2, e3, e4, e5, e6, e7, e8, e9, e10, e11⟩ :=
        endWith_spec (env := env) (w := w1) (a := a) (x := { x with data := x.data.update kw })
          (by rw [h1]; simp) st m f t exc
      refine ⟨e, e1, e2, e3, e4, e6, e7, e8, e5.trans h4, .inl hb, ?_, ?_, by rw [e11]; exact h3, by simp [hb],
        fun _ h => by rw [e11]; exact h5 h⟩
      · rw [e9, h1, updAct_updAct]; simp [← hb]
      · rw [e10, h2]; simp [hb]
    simp only [htr, if_true]
    cases et with
    | none =>
      obtain ⟨e, he⟩ := main (w.setAct a { x with data := x.data.update kw }).tick (w.now env) (by simp)
        rfl (by simp [World.tick]) (by simp [endTimeOf, htr]) (by simp [World.tick])
      exact ⟨e, by simpa [htr, World.now] using he⟩
    | some t =>
      by_cases h0 : t = 0
      · obtain ⟨e, he⟩ := main (w.setAct a { x with data := x.data.update kw }).tick (w.now env) (by simp)
          rfl (by simp [World.tick]) (by simp [endTimeOf, htr, h0]) (by simp [World.tick])
        exact ⟨e, by simpa [htr, h0, World.now] using he⟩
      · obtain ⟨e, he⟩ := main (w.setAct a { x with data := x.data.update kw }) t (by simp)
          rfl (by simp) (by simp [endTimeOf, htr, h0]) (by simp [h0])
        exact ⟨e, by simpa [htr, h0, World.now] using he⟩
  · rw [if_neg htr]
    have htf : x.isTrans = false := by simpa using htr
    rcases begin_spec (env := env) (w := w.setAct a { x with data := x.data.update kw }) (a := a)
      (x := { x with data := x.data.update kw }) (by simp) none [] [] with
      ⟨b, hb, hr⟩ | ⟨hb, b, b1, b2, b3, b4, b5, b6, b7, b8, b9⟩
    · left
      rw [hr]
      simp only [andThen, setAct_acts, updAct_same, update_nil, Option.bind_some]
      dsimp only at hb
      rw [hb]
      dsimp only
      obtain ⟨e, e1, e2, e3, e4, e5, e6, e7, e8, e9, e10, e11⟩ :=
        endWith_spec (env := env)
          (w := (w.setAct a { x with data := x.data.update kw }).setAct a
            { x with data := x.data.update kw })
          (a := a) (x := { x with data := x.data.update kw }) (by simp) st m f b.etime exc
      refine ⟨b, e, e1, e2, e3, e4, e6, e7, e8, by simp [e5, endTimeOf, htf], .inl hb, ?_, ?_, ?_, by simp [hb],
        by simp [htf]⟩
      · simp only [hb] at e9 ⊢
        rw [e9]; simp [updAct_updAct]
      · simp only [hb] at e10 ⊢
        rw [e10]; simp
      · simp only [hb] at e11 ⊢
        rw [e11]; simp
    · dsimp only at hb
      cases hr : begin_ env (w.setAct a { x with data := x.data.update kw }) a none [] [] with
      | mk w1 r =>
        rw [hr] at b7 b8 b9
        dsimp only at b7 b8 b9
        have hacts : w1.acts = updAct w.acts a { x with data := x.data.update kw, beginEv := some b } := by
          rw [b7]; simp [updAct_updAct, update_nil]
        have hnow : b.etime = w.now env := b4
        cases r with
        | some y =>
          right
          exact ⟨b, y, ⟨htf, hb, hnow, b3, hacts, b8, b9⟩, rfl⟩
        | none =>
          left
          simp only [andThen, hacts, updAct_same, Option.bind_some]
          obtain ⟨e, e1, e2, e3, e4, e5, e6, e7, e8, e9, e10, e11⟩ :=
            endWith_spec (env := env) (w := w1) (a := a)
              (x := { x with data := x.data.update kw, beginEv := some b })
              (by rw [hacts]; simp) st m f b.etime exc
          refine ⟨b, e, e1, e2, e3, e4, e6, e7, e8, by simp [e5, endTimeOf, htf],
            .inr ⟨hb, htf, hnow, b3⟩, ?_, ?_, ?_, ?_, by simp [htf]⟩
          · rw [e9, hacts, updAct_updAct]
          · rw [e10, b8]; simp [hb]
          · rw [e11, b9]; simp
          · intro _; rw [e11, b9]; simp

/-- `exception`: what it raises before anything is recorded. -/
def excEarly (env : Env) (x : Act) (cur : Option Exc) (m : Option String) : Option Exc :=
  match env.excInfoErr cur with
  | some err => some err
  | none =>
    match (if falsy m then env.excText cur x.name (!x.data.isEmpty) else .ok (m.getD "")) with
    | .error err => some err
    | .ok _ => none

/-- `exception` after a successful start: the message and the state in which the hooks are called. -/
structure ExcStarted (env : Env) (w : World) (a : ActId) (x : Act) (cur : Option Exc) (f : List Val)
    (msg : String) (ev : Event) (w1 : World) : Prop where
  act : ev.act = a
  log : ev.logger = x.logger
  kind : ev.kind = .exception
  time : ev.etime = w.now env
  exc : ev.excInfo = cur
  emsg : ev.msg = msg
  efargs : ev.fargs = f
  acts : w1.acts = updAct w.acts a { x with excEvs := x.excEvs ++ [ev] }
  pub : w1.pub = w.pub
  ticks : w1.ticks = w.ticks + 1
  logs : w1.logs = w.logs
  keep : KeepCfg w w1
  trace : w1.trace = w.trace

/-- `exception` / `_exception`. -/
theorem exception_spec (hx : w.acts a = some x) (cur : Option Exc) (m : Option String) (f : List Val)
    (kw : Dict) :
    (∃ err, excEarly env x cur m = some err ∧ exception_ env w a cur m f kw = (w.tick, some err)) ∨
    (excEarly env x cur m = none ∧ ∃ msg ev w1, ExcStarted env w a x cur f msg ev w1 ∧
      ((∃ err, (publishExc env w1 x.logger ev).2 = some err ∧
          exception_ env w a cur m f kw = ((publishExc env w1 x.logger ev).1, some err)) ∨
       ((publishExc env w1 x.logger ev).2 = none ∧
          exception_ env w a cur m f kw =
            end_ env (publishExc env w1 x.logger ev).1 a .exception msg f kw (some (w.now env)) cur))) := by
  simp only [exception_, hx, excEarly]
  cases env.excInfoErr cur with
  | some err => exact .inl ⟨err, rfl, rfl⟩
  | none =>
    dsimp only
    cases hm : (if falsy m then env.excText cur x.name (!x.data.isEmpty) else Except.ok (m.getD "")) with
    | error err => exact .inl ⟨err, rfl, rfl⟩
    | ok msg =>
      right
      refine ⟨rfl, msg, mkEvent w.tick a x.logger .exception .exception (w.now env) msg f cur,
        w.tick.bump.setAct a { x with excEvs := x.excEvs ++
          [mkEvent w.tick a x.logger .exception .exception (w.now env) msg f cur] },
        ⟨rfl, rfl, rfl, rfl, rfl, rfl, rfl, by simp, rfl, rfl, rfl, ⟨rfl, rfl, rfl, rfl⟩, rfl⟩, ?_⟩
      dsimp only
      generalize publishExc env _ x.logger _ = r
      obtain ⟨w1, y⟩ := r
      cases y with
      | none => exact .inr ⟨rfl, rfl⟩
      | some y => exact .inl ⟨y, rfl, rfl⟩

end Verif
