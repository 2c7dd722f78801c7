import Verif.Lemmas.CoreInv
/-!
# Every history is a sequence of a few elementary changes of trace, queues and publications
-/
namespace Verif

/-- The part of the state that delivery is about. -/
structure Del where
  trace : List Obs
  logs : LogId → Option Log
  pub : List (Kind × Event)

def World.del (w : World) : Del := ⟨w.trace, w.logs, w.pub⟩

/-- Map update. -/
def updLog (m : LogId → Option Log) (l : LogId) (x : Log) : LogId → Option Log :=
  fun b => if b = l then some x else m b
@[simp] theorem updLog_same (m : LogId → Option Log) (l : LogId) (x : Log) :
    updLog m l x l = some x := by simp [updLog]
theorem updLog_ne (m : LogId → Option Log) {l n : LogId} (x : Log) (h : n ≠ l) :
    updLog m l x n = m n := by simp [updLog, h]
@[simp] theorem setLog_logs (w : World) (l : LogId) (x : Log) :
    (w.setLog l x).logs = updLog w.logs l x := rfl
@[simp] theorem updLog_updLog (m : LogId → Option Log) (l : LogId) (x y : Log) :
    updLog (updLog m l x) l y = updLog m l y := by
  funext b; by_cases h : b = l <;> simp [updLog, h]
theorem updLog_self {m : LogId → Option Log} {l : LogId} {x : Log} (h : m l = some x) :
    updLog m l x = m := by
  funext b; by_cases hb : b = l <;> simp [updLog, hb, h]

/-- Not a sink hook. -/
def Obs.isHook : Obs → Bool
  | .hook .. => true
  | _ => false

/-- Elementary changes made by calls that publish. -/
inductive PubStep (env : Env) : Del → Del → Prop
  | sync (d : Del) (l : LogId) (L : Log) (k : Kind) (e : Event) : d.logs l = some L →
      L.async = false → e.logger = l → e.kind = k → k ≠ .exception →
      PubStep env d ⟨d.trace ++ (ran env (hookCalls L k e) d.trace).1, d.logs, d.pub ++ [(k, e)]⟩
  | async (d : Del) (l : LogId) (L : Log) (k : Kind) (e : Event) : d.logs l = some L →
      L.async = true → e.logger = l → e.kind = k → k ≠ .exception →
      PubStep env d ⟨d.trace,
        updLog d.logs l { L with queue := pushBounded QUEUE_LIMIT L.queue (k, e) },
        d.pub ++ [(k, e)]⟩
  | exc (d : Del) (l : LogId) (L : Log) (e : Event) : d.logs l = some L → e.logger = l →
      e.kind = .exception →
      PubStep env d ⟨d.trace ++ (ran env (hookCalls L .exception e) d.trace).1, d.logs, d.pub⟩
  | note (d : Del) (t : List Obs) : (∀ o ∈ t, o.isHook = false) →
      PubStep env d ⟨d.trace ++ t, d.logs, d.pub⟩

/-- Elementary changes made by flushes. -/
inductive FlushStep (env : Env) : Del → Del → Prop
  | pop (d : Del) (l : LogId) (L : Log) (k : Kind) (e : Event) (q : List (Kind × Event)) :
      d.logs l = some L → L.queue = (k, e) :: q → k ≠ .exception →
      FlushStep env d ⟨d.trace ++ (ran env (hookCalls L k e) d.trace).1,
        updLog d.logs l { L with queue := q }, d.pub⟩
  | popExc (d : Del) (l : LogId) (L : Log) (e : Event) (q : List (Kind × Event)) (t : List Obs) :
      d.logs l = some L → L.queue = (.exception, e) :: q → (∀ o ∈ t, o.isHook = false) →
      FlushStep env d ⟨d.trace ++ t, updLog d.logs l { L with queue := q }, d.pub⟩
  | other (d : Del) (t : List Obs) : (∀ o ∈ t, o.isHook = false) →
      FlushStep env d ⟨d.trace ++ t, d.logs, d.pub⟩
  | stamp (d : Del) (l : LogId) (L : Log) (t : Int) : d.logs l = some L →
      FlushStep env d ⟨d.trace, updLog d.logs l { L with lastFlush := t }, d.pub⟩

/-- Reflexive-transitive closure. -/
inductive Star {α : Type} (R : α → α → Prop) : α → α → Prop
  | refl (a : α) : Star R a a
  | tail {a b c : α} : Star R a b → R b c → Star R a c

namespace Star
variable {α : Type} {R : α → α → Prop}
theorem single {a b : α} (h : R a b) : Star R a b := Star.tail (Star.refl a) h
theorem trans {a b c : α} (h : Star R a b) (g : Star R b c) : Star R a c := by
  induction g with
  | refl => exact h
  | tail _ s ih => exact .tail ih s
theorem ofEq {a b : α} (h : b = a) : Star R a b := by subst h; exact .refl _
theorem inv {P : α → Prop} (hs : ∀ a b, P a → R a b → P b) {a b : α} (h : Star R a b) (ha : P a) :
    P b := by
  induction h with
  | refl => exact ha
  | tail _ s ih => exact hs _ _ ih s
end Star

theorem pub_publish {env : Env} {w : World} {l : LogId} {k : Kind} {e : Event}
    (hl : e.logger = l) (hk : e.kind = k) (hx : k ≠ .exception) (hlog : (w.logs l).isSome) :
    Star (PubStep env) w.del (publish env w l k e).1.del := by
  obtain ⟨L, hL⟩ := Option.isSome_iff_exists.1 hlog
  simp only [publish, hL]
  refine .single ?_
  split
  · rename_i ha
    exact PubStep.async w.del l L k e hL ha hl hk hx
  · rename_i ha
    have := PubStep.sync (env := env) w.del l L k e hL (by simpa using ha) hl hk hx
    simpa [callAll_eq, World.del] using this

theorem pub_publish' {env : Env} {w w0 : World} {l : LogId} {k : Kind} {e : Event}
    (h : w0.del = w.del)
    (hl : e.logger = l) (hk : e.kind = k) (hx : k ≠ .exception) (hlog : (w.logs l).isSome) :
    Star (PubStep env) w0.del (publish env w l k e).1.del := h ▸ pub_publish hl hk hx hlog

theorem pub_begin' {w w0 : World} {d : Del} (h : w0.del = w.del) (g : Star (PubStep env) w.del d) :
    Star (PubStep env) w0.del d := h ▸ g

theorem pub_publishExc {env : Env} {w : World} {l : LogId} {e : Event}
    (hl : e.logger = l) (hk : e.kind = .exception) :
    Star (PubStep env) w.del (publishExc env w l e).1.del := by
  simp only [publishExc]
  split
  · exact .refl _
  · rename_i L hL
    refine .single ?_
    have := PubStep.exc (env := env) w.del l L e hL hl hk
    simpa [callAll_eq, World.del] using this

theorem note_noHook {env : Env} {n : String} {hs : List Nat} {tr : List Obs} :
    ∀ o ∈ (ran env (hs.map (fun h => Obs.note h n)) tr).1, o.isHook = false := by
  intro o ho
  have := (ran_prefix env (hs.map (fun h => Obs.note h n)) tr).subset ho
  simp only [List.mem_map] at this
  obtain ⟨h, _, rfl⟩ := this
  rfl

theorem pub_noteAll (env : Env) (n : String) (w : World) :
    Star (PubStep env) w.del (noteAll env n w).1.del := by
  rw [noteAll_eq]
  exact .single (PubStep.note w.del _ note_noHook)

/-- An action's logger exists. -/
def LogOK (w : World) : Prop := ∀ a x, w.acts a = some x → (w.logs x.logger).isSome

/-- Loggers never disappear. -/
theorem PubStep.logs_mono {env : Env} {d d' : Del} (s : PubStep env d d') (l : LogId) :
    (d'.logs l).isSome = (d.logs l).isSome := by
  cases s with
  | async m L k e hL =>
    by_cases h : l = m
    · subst h; simp [hL]
    · simp [updLog, h]
  | _ => rfl

theorem FlushStep.logs_mono {env : Env} {d d' : Del} (s : FlushStep env d d') (l : LogId) :
    (d'.logs l).isSome = (d.logs l).isSome := by
  cases s with
  | pop m L k e q hL =>
    by_cases h : l = m
    · subst h; simp [hL]
    · simp [updLog, h]
  | popExc m L e q t hL =>
    by_cases h : l = m
    · subst h; simp [hL]
    · simp [updLog, h]
  | stamp m L t hL =>
    by_cases h : l = m
    · subst h; simp [hL]
    · simp [updLog, h]
  | _ => rfl

theorem PubStar.logs_mono {env : Env} {d d' : Del} (s : Star (PubStep env) d d') (l : LogId) :
    (d'.logs l).isSome = (d.logs l).isSome := by
  induction s with
  | refl => rfl
  | tail _ s ih => rw [s.logs_mono, ih]

theorem FlushStar.logs_mono {env : Env} {d d' : Del} (s : Star (FlushStep env) d d') (l : LogId) :
    (d'.logs l).isSome = (d.logs l).isSome := by
  induction s with
  | refl => rfl
  | tail _ s ih => rw [s.logs_mono, ih]

section pubOps
variable {env : Env} {w : World} {a : ActId} {x : Act}

theorem pub_begin (hx : w.acts a = some x) (hl : (w.logs x.logger).isSome) (m : Option String)
    (f : List Val) (kw : Dict) : Star (PubStep env) w.del (begin_ env w a m f kw).1.del := by
  simp only [begin_, hx]
  split
  · exact .refl _
  · exact (by apply pub_publish' <;> first | rfl | (intro h; cases h) | simpa using hl)

theorem pub_warn (hx : w.acts a = some x) (hl : (w.logs x.logger).isSome) (m : String)
    (f : List Val) (kw : Dict) : Star (PubStep env) w.del (warn env w a m f kw).1.del := by
  simp only [warn, hx]
  exact (by apply pub_publish' <;> first | rfl | (intro h; cases h) | simpa using hl)

theorem pub_endWith (hx : w.acts a = some x) (hl : (w.logs x.logger).isSome) (st : Status)
    (m : String) (f : List Val) (t : Int) (exc : Option Exc) :
    Star (PubStep env) w.del (endWith env w a st m f t exc).1.del := by
  simp only [endWith, hx]
  split
  · exact .refl _
  · exact (by apply pub_publish' <;> first | rfl | (intro h; cases h) | simpa using hl)

theorem pub_end (hx : w.acts a = some x) (hl : (w.logs x.logger).isSome) (st : Status)
    (m : String) (f : List Val) (kw : Dict) (et : Option Int) (exc : Option Exc) :
    Star (PubStep env) w.del (end_ env w a st m f kw et exc).1.del := by
  simp only [end_, hx]
  have h1 : ∀ t, Star (PubStep env) w.del
      (endWith env (w.setAct a { x with data := x.data.update kw }) a st m f t exc).1.del := fun t =>
    pub_endWith (w := World.setAct _ _ _) (x := { x with data := x.data.update kw }) (by simp)
      (by simpa using hl) _ _ _ _ _
  have h2 : ∀ t, Star (PubStep env) w.del
      (endWith env (w.setAct a { x with data := x.data.update kw }).tick a st m f t exc).1.del := fun t =>
    pub_endWith (w := (w.setAct a { x with data := x.data.update kw }).tick)
      (x := { x with data := x.data.update kw }) (by simp) (by simpa using hl) _ _ _ _ _
  split
  · cases et with
    | none => exact h2 _
    | some t =>
      simp only
      split
      · exact h2 _
      · exact h1 _
  · have hb := pub_begin (env := env) (w := w.setAct a { x with data := x.data.update kw }) (a := a)
      (x := { x with data := x.data.update kw }) (by simp) (by simpa using hl) none [] []
    obtain ⟨b, hb2⟩ := begin_acts (env := env) (w := w.setAct a { x with data := x.data.update kw })
      (a := a) (x := { x with data := x.data.update kw }) (by simp) none [] []
    cases hr : begin_ env (w.setAct a { x with data := x.data.update kw }) a none [] [] with
    | mk w1 r =>
      rw [hr] at hb hb2
      dsimp only at hb hb2
      cases r with
      | some e => exact hb
      | none =>
        simp only [andThen, hb2, updAct_same, Option.bind_some]
        refine Star.trans hb ?_
        have hw1 := hb2 ▸ updAct_same (w.setAct a { x with data := x.data.update kw }).acts a
          { x with data := (x.data.update kw).update [], beginEv := some b }
        refine pub_endWith hw1 ?_ _ _ _ _ _
        have := PubStar.logs_mono hb x.logger
        simp only [World.del] at this
        rw [this]; exact hl

theorem pub_success (hx : w.acts a = some x) (hl : (w.logs x.logger).isSome) (m : Option String)
    (f : List Val) (kw : Dict) : Star (PubStep env) w.del (success env w a m f kw).1.del := by
  simp only [success, hx]; exact pub_end hx hl _ _ _ _ _ _

theorem pub_failure (hx : w.acts a = some x) (hl : (w.logs x.logger).isSome) (m : Option String)
    (f : List Val) (kw : Dict) : Star (PubStep env) w.del (failure env w a m f kw).1.del := by
  simp only [failure, hx]; exact pub_end hx hl _ _ _ _ _ _

theorem pub_exception (hx : w.acts a = some x) (hl : (w.logs x.logger).isSome) (cur : Option Exc)
    (m : Option String) (f : List Val) (kw : Dict) :
    Star (PubStep env) w.del (exception_ env w a cur m f kw).1.del := by
  simp only [exception_, hx]
  cases env.excInfoErr cur with
  | some err => exact .refl _
  | none =>
    simp only
    cases (if falsy m then env.excText cur x.name (!x.data.isEmpty) else Except.ok (m.getD "")) with
    | error err => exact .refl _
    | ok msg =>
      simp only
      have h1 := pub_publishExc (env := env) (w := (w.tick).bump.setAct a { x with excEvs := x.excEvs ++
        [mkEvent w.tick a x.logger .exception .exception (w.now env) msg f cur] }) (l := x.logger)
        (e := mkEvent w.tick a x.logger .exception .exception (w.now env) msg f cur) rfl rfl
      have hp := publishExc_acts env ((w.tick).bump.setAct a { x with excEvs := x.excEvs ++
        [mkEvent w.tick a x.logger .exception .exception (w.now env) msg f cur] }) x.logger
        (mkEvent w.tick a x.logger .exception .exception (w.now env) msg f cur)
      have hq := publishExc_logs env ((w.tick).bump.setAct a { x with excEvs := x.excEvs ++
        [mkEvent w.tick a x.logger .exception .exception (w.now env) msg f cur] }) x.logger
        (mkEvent w.tick a x.logger .exception .exception (w.now env) msg f cur)
      cases hr : publishExc env ((w.tick).bump.setAct a { x with excEvs := x.excEvs ++
        [mkEvent w.tick a x.logger .exception .exception (w.now env) msg f cur] }) x.logger
        (mkEvent w.tick a x.logger .exception .exception (w.now env) msg f cur) with
      | mk w1 r =>
        rw [hr] at h1 hp hq
        dsimp only at h1 hp hq
        cases r with
        | some e => exact h1
        | none =>
          simp only [andThen]
          refine Star.trans h1 ?_
          exact pub_end (x := { x with excEvs := x.excEvs ++
            [mkEvent w.tick a x.logger .exception .exception (w.now env) msg f cur] })
            (by rw [hp]; simp) (by rw [hq]; simpa using hl) _ _ _ _ _ _

theorem pub_enter (hx : w.acts a = some x) (hl : (w.logs x.logger).isSome) :
    Star (PubStep env) w.del (enter env w a).1.del := by
  simp only [enter, hx]
  refine pub_begin' (w := (w.setAct a { x with isTrans := true, defer := true }).setActive x.logger (some a))
    rfl ?_
  apply pub_begin (x := { x with isTrans := true, defer := true })
  · simp
  · simpa using hl

theorem pub_exitPublish (hx : w.acts a = some x) (hl : (w.logs x.logger).isSome)
    (he : ∀ ev, x.endEv = some ev → ev.logger = x.logger ∧ ev.kind = .end_) (exc : Option Exc) :
    Star (PubStep env) w.del (exitPublish env w a exc).1.del := by
  simp only [exitPublish, hx]
  cases exc with
  | some e =>
    simp only
    have h2 := pub_exception (env := env) (w := w.setAct a { x with defer := false }) (a := a)
      (x := { x with defer := false }) (by simp) (by simpa using hl) (some e) none [] []
    cases hr : exception_ env (w.setAct a { x with defer := false }) a (some e) none [] [] with
    | mk w1 r =>
      rw [hr] at h2
      cases r with
      | none => exact h2
      | some err =>
        obtain ⟨c, tg⟩ := err
        cases c with
        | baseOnly => exact h2
        | ordinary => exact Star.trans h2 (pub_noteAll env "action_exit" w1)
  | none =>
    simp only
    split
    · rename_i ev hev
      exact pub_publish (w := World.setAct _ _ _) (he ev hev).1 (he ev hev).2 (by simp)
        (by simpa using hl)
    · exact pub_success (w := World.setAct _ _ _) (x := { x with defer := false }) (by simp)
        (by simpa using hl) _ _ _

theorem pub_exit (hx : w.acts a = some x) (hl : (w.logs x.logger).isSome)
    (he : ∀ ev, x.endEv = some ev → ev.logger = x.logger ∧ ev.kind = .end_) (exc : Option Exc) :
    Star (PubStep env) w.del (exit env w a exc).1.del := by
  simp only [exit, hx]
  have h := pub_exitPublish (env := env) hx hl he exc
  cases hr : exitPublish env w a exc with
  | mk w1 r =>
    rw [hr] at h
    cases r with
    | some e => exact h
    | none => exact h

theorem pub_comment (env : Env) (w : World) (l : LogId) (m : String) (f : List Val) (kw : Dict) :
    Star (PubStep env) w.del (comment env w l m f kw).1.del := by
  simp only [comment]
  split
  · exact .refl _
  · rename_i L hL
    exact (by apply pub_publish' <;> first | rfl | (intro h; cases h) | simp [hL])

end pubOps

section flushOps
variable {env : Env}

theorem fl_noteAll (env : Env) (n : String) (w : World) :
    Star (FlushStep env) w.del (noteAll env n w).1.del := by
  rw [noteAll_eq]
  exact .single (FlushStep.other w.del _ note_noHook)

theorem fl_runPreflush (l : LogId) (hs : List Nat) (w : World) :
    Star (FlushStep env) w.del (runPreflush env l hs w).1.del ∧
    (runPreflush env l hs w).1.logs = w.logs := by
  induction hs generalizing w with
  | nil => exact ⟨.refl _, rfl⟩
  | cons h hs ih =>
    have hl : Star (FlushStep env) w.del (w.logged [.preflush l h]).del :=
      .single (FlushStep.other w.del [.preflush l h] (by simp [Obs.isHook]))
    simp only [runPreflush, callback]
    cases env.raises w.trace (.preflush l h) with
    | none =>
      have := ih (w.logged [.preflush l h])
      exact ⟨Star.trans hl this.1, this.2⟩
    | some e =>
      obtain ⟨c, t⟩ := e
      cases c with
      | baseOnly => exact ⟨hl, rfl⟩
      | ordinary =>
        simp only
        have hn := fl_noteAll env "preflush" (w.logged [.preflush l h])
        have hn2 : (noteAll env "preflush" (w.logged [.preflush l h])).1.logs = w.logs := by
          rw [noteAll_eq]; rfl
        simp only [World.logged] at hn hl hn2
        cases hr : noteAll env "preflush" { w with trace := w.trace ++ [Obs.preflush l h] } with
        | mk w2 r =>
          rw [hr] at hn hn2
          cases r with
          | none =>
            have := ih w2
            exact ⟨Star.trans hl (Star.trans hn this.1), this.2.trans hn2⟩
          | some e' => exact ⟨Star.trans hl hn, hn2⟩

theorem deliver_logs (env : Env) (L : Log) (k : Kind) (e : Event) (w : World) :
    (deliver env L k e w).1.logs = w.logs := by
  cases k <;> simp [deliver, noteAll_eq, callAll_eq]

theorem fl_drain (l : LogId) (L : Log) (q : List (Kind × Event)) (w : World)
    (hL : w.logs l = some { L with queue := q }) :
    Star (FlushStep env) w.del (drain env l L q w).1.del ∧
    ((drain env l L q w).2 = none →
      (drain env l L q w).1.logs = updLog w.logs l { L with queue := [] }) := by
  induction q generalizing w with
  | nil =>
    simp only [drain]
    refine ⟨?_, fun _ => rfl⟩
    refine .ofEq ?_
    simp only [World.del, setLog_trace, setLog_logs, setLog_pub, updLog_self hL]
  | cons p q ih =>
    obtain ⟨k, e⟩ := p
    simp only [drain]
    have hd : Star (FlushStep env) w.del
        (deliver env L k e (w.setLog l { L with queue := q })).1.del := by
      refine .single ?_
      by_cases hk : k = .exception
      · subst hk
        have := FlushStep.popExc (env := env) w.del l _ e q
          (ran env (w.noteHandlers.map (fun h => Obs.note h "flush")) w.trace).1 hL rfl note_noHook
        simpa [deliver, noteAll_eq, World.del] using this
      · have := FlushStep.pop (env := env) w.del l _ k e q hL rfl hk
        have h2 : deliver env L k e (w.setLog l { L with queue := q }) =
            callAll env (hookCalls L k e) (w.setLog l { L with queue := q }) := by
          cases k <;> first | rfl | exact absurd rfl hk
        rw [h2, callAll_eq]
        simpa [World.del, hookCalls] using this
    have hlogs := deliver_logs env L k e (w.setLog l { L with queue := q })
    cases hr : deliver env L k e (w.setLog l { L with queue := q }) with
    | mk w2 r =>
      rw [hr] at hd hlogs
      dsimp only at hd hlogs
      cases r with
      | none =>
        simp only
        have := ih w2 (by rw [hlogs]; simp)
        refine ⟨Star.trans hd this.1, fun h => ?_⟩
        rw [this.2 h, hlogs]; simp
      | some e' => exact ⟨hd, by simp⟩

theorem fl_flush (w : World) (l : LogId) : Star (FlushStep env) w.del (flush env w l).1.del := by
  simp only [flush]
  cases hl : w.logs l with
  | none => exact .refl _
  | some L =>
    simp only
    have hp := fl_runPreflush (env := env) l L.preflush w
    cases hr : runPreflush env l L.preflush w with
    | mk w1 r =>
      rw [hr] at hp
      dsimp only at hp
      cases r with
      | some e => exact hp.1
      | none =>
        simp only
        have hd := fl_drain (env := env) l L L.queue w1 (by rw [hp.2, hl])
        cases hr2 : drain env l L L.queue w1 with
        | mk w2 r2 =>
          rw [hr2] at hd
          dsimp only at hd
          cases r2 with
          | some e => exact Star.trans hp.1 hd.1
          | none =>
            refine (Star.trans hp.1 hd.1).tail ?_
            have hw2 : w2.logs l = some { L with queue := [] } := by rw [hd.2 rfl]; simp
            have := FlushStep.stamp (env := env) w2.del l _ (w2.now env) hw2
            simpa [World.del] using this

theorem fl_ctxFlush (ls : List LogId) (w : World) :
    Star (FlushStep env) w.del (ctxFlush env ls w).1.del := by
  induction ls generalizing w with
  | nil => exact .refl _
  | cons l ls ih =>
    simp only [ctxFlush]
    have hf := fl_flush (env := env) w l
    cases hr : flush env w l with
    | mk w1 r =>
      rw [hr] at hf
      cases r with
      | none => exact Star.trans hf (ih _)
      | some e =>
        obtain ⟨c, t⟩ := e
        cases c with
        | baseOnly => exact hf
        | ordinary =>
          simp only
          have hn := fl_noteAll env "context_flush" w1
          cases hr2 : noteAll env "context_flush" w1 with
          | mk w2 r2 =>
            rw [hr2] at hn
            cases r2 with
            | none => exact Star.trans hf (Star.trans hn (ih _))
            | some e' => exact Star.trans hf hn

end flushOps
end Verif
