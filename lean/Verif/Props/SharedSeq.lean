import Verif.Model.Shared
import Verif.Model.Action
import Verif.Spec.Samples
import Mathlib.Data.List.Basic
/-!
# The methods of `Model/Action.lean` are schedules of `Model/Shared.lean`
-/
namespace Verif.Shared

/-- An event as the concurrent model knows it: what was published, which event, its status; events are counted from `base`. -/
def Out.seen (base : Nat) : Out → Kind × Nat × Status
  | .begin e => (.begin, base + e, .begin)
  | .warn e => (.warn, base + e, .warning)
  | .fin e st => (.end_, base + e, st)

/-- The action `a` of world `w` is the one of system `s`: same events stored, same events published since `pub0`. -/
structure Like (base : Nat) (pub0 : List (Kind × Event)) (a : ActId) (w : World) (s : Sys) : Prop where
  next : w.nextId = base + s.next
  act : ∃ x, w.acts a = some x ∧ x.isTrans = false ∧ x.defer = false ∧
    x.beginEv.map (·.id) = s.beginEvent.map (base + ·) ∧
    x.endEv.map (fun e => (e.id, e.status)) = s.endEvent.map (fun p => (base + p.1, p.2)) ∧
    x.warnEvs.map (·.id) = s.warnEvents.map (base + ·)
  pub : ∃ new, w.pub = pub0 ++ new ∧ new.map (fun p => (p.1, p.2.id, p.2.status)) = s.out.map (Out.seen base)

theorem run_append (s : Sys) (p q : List (Tid × Act)) : run s (p ++ q) = run (run s p) q := List.foldl_append ..

/-- Thread `t` goes on any number of times. -/
def Goes (t : Tid) (s s' : Sys) : Prop := ∃ n, run s (List.replicate n (t, .go)) = s'

theorem Goes.refl (t : Tid) (s : Sys) : Goes t s s := ⟨0, rfl⟩

theorem Goes.trans {t : Tid} {s s' s'' : Sys} (h : Goes t s s') (h' : Goes t s' s'') : Goes t s s'' := by
  obtain ⟨n, rfl⟩ := h
  obtain ⟨m, rfl⟩ := h'
  exact ⟨n + m, by rw [List.replicate_add, run_append]⟩

theorem Goes.one {t : Tid} {s : Sys} {p : PC} (h : s.pcs[t]? = some p) : Goes t s (go s t p) :=
  ⟨1, by simp [run, step, h]⟩

theorem to_pc {s : Sys} {t : Tid} {p q : PC} (h : s.pcs[t]? = some p) : (s.to t q).pcs[t]? = some q := by
  have : t < s.pcs.length := (List.getElem?_eq_some_iff.1 h).1
  simp [Sys.to, this]

theorem set_same {l : List PC} {t : Tid} {p : PC} (h : l[t]? = some p) : l.set t p = l := by
  obtain ⟨ht, rfl⟩ := List.getElem?_eq_some_iff.1 h
  exact List.set_getElem_self ht

theorem to_to (s : Sys) (t : Tid) (p q : PC) : (s.to t p).to t q = s.to t q := by simp [Sys.to]

theorem Like.to {base : Nat} {pub0 : List (Kind × Event)} {a : ActId} {w : World} {s : Sys} (h : Like base pub0 a w s) (t : Tid)
    (p : PC) : Like base pub0 a w (s.to t p) := ⟨h.next, h.act, h.pub⟩

/-- Publishing to sinks that do not raise. -/
theorem publish_quiet {env : Env} (hq : env.Quiet) (w : World) (l : LogId) (k : Kind) (e : Event) :
    (publish env w l k e).2 = none ∧ (publish env w l k e).1.acts = w.acts ∧ (publish env w l k e).1.nextId = w.nextId ∧
      (publish env w l k e).1.pub = w.pub ++ [(k, e)] := by
  have hc : ∀ (os : List Obs) (v : World), callAll env os v = ({ v with trace := v.trace ++ os }, none) := by
    intro os
    induction os with
    | nil => intro v; simp [callAll]
    | cons o os ih => intro v; simp [callAll, callback, hq v.trace o, ih]
  simp only [publish]
  split
  · simp
  · split
    · simp [World.setLog]
    · simp [hc]

variable {env : Env} {base : Nat} {pub0 : List (Kind × Event)} {a : ActId} {w : World} {s : Sys} {t : Tid}

/-- `begin`, from its test on. -/
theorem begin_sim (hq : env.Quiet) (h : Like base pub0 a w s) (k : Cont) (hp : s.pcs[t]? = some (.test k)) (m : Option String)
    (f : List Val) (kw : Dict) :
    (begin_ env w a m f kw).2 = none ∧ ∃ s', Goes t s (s'.to t k.pc) ∧ Like base pub0 a (begin_ env w a m f kw).1 s' ∧
      s'.beginEvent.isSome ∧ s'.pcs = s.pcs ∧ (s.beginEvent.isSome → s' = s) := by
  obtain ⟨x, hx, h1, h2, h3, h4, h5⟩ := h.act
  simp only [begin_, hx]
  cases hb : x.beginEv with
  | some b =>
    rw [hb] at h3
    refine ⟨rfl, s, ?_, ⟨h.next, ⟨{ x with data := x.data.update kw }, by simp [World.setAct, hb], h1, h2, ?_, h4, h5⟩, h.pub⟩,
      ?_, rfl, fun _ => rfl⟩
    · have := Goes.one hp
      have hs : s.beginEvent.isNone = false := by
        cases he : s.beginEvent with
        | none => rw [he] at h3; simp at h3
        | some _ => rfl
      simpa [go, hs] using this
    · simpa [hb] using h3
    · cases he : s.beginEvent with
      | none => rw [he] at h3; simp at h3
      | some _ => rfl
  | none =>
    rw [hb] at h3
    have hs : s.beginEvent = none := by
      cases he : s.beginEvent with
      | none => rfl
      | some _ => rw [he] at h3; simp at h3
    dsimp only
    generalize he : mkEvent w a x.logger .begin .begin (w.now env) (if falsy m = true then x.name ++ " beginning" else m.getD "") f
      none = e
    have hid : e.id = w.nextId := by rw [← he]; rfl
    have hst : e.status = .begin := by rw [← he]; rfl
    obtain ⟨p1, p2, p3, p4⟩ := publish_quiet hq
      (World.setAct w.tick.bump a { x with data := x.data.update kw, beginEv := some e }) x.logger .begin e
    refine ⟨p1, { s with next := s.next + 1, beginEvent := some s.next, out := s.out ++ [Out.begin s.next] }, ?_,
      ⟨?_, ⟨{ x with data := x.data.update kw, beginEv := some e }, ?_, h1, h2, ?_, h4, h5⟩, ?_⟩, rfl, rfl, by simp [hs]⟩
    · have g1 := Goes.one hp
      simp only [go, hs, Option.isNone_none, if_true] at g1
      have g2 := Goes.one (to_pc (q := .storeBegin k) hp)
      simp only [go] at g2
      have hg2 : ({ s.to t (.storeBegin k) with next := (s.to t (.storeBegin k)).next + 1, beginEvent := some (s.to t (.storeBegin k)).next } : Sys).to t (.pubBegin k) =
          ({ s with next := s.next + 1, beginEvent := some s.next } : Sys).to t (.pubBegin k) := by simp [Sys.to]
      rw [hg2] at g2
      have hp3 : ({ s with next := s.next + 1, beginEvent := some s.next } : Sys).pcs[t]? = some (.test k) := hp
      have g3 := Goes.one (to_pc (q := .pubBegin k) hp3)
      have hgo : go (({ s with next := s.next + 1, beginEvent := some s.next } : Sys).to t (.pubBegin k)) t (.pubBegin k) =
          ({ s with next := s.next + 1, beginEvent := some s.next, out := s.out ++ [Out.begin s.next] } : Sys).to t k.pc := by
        simp [go, Sys.to]
      rw [hgo] at g3
      exact (g1.trans g2).trans g3
    · rw [p3]
      show w.nextId + 1 = base + (s.next + 1)
      rw [h.next]; omega
    · rw [p2]; simp [World.setAct]
    · simp [hid, h.next]
    · obtain ⟨new, n1, n2⟩ := h.pub
      refine ⟨new ++ [(.begin, e)], ?_, ?_⟩
      · rw [p4]
        show w.pub ++ [(.begin, e)] = _
        rw [n1, List.append_assoc]
      · simp [n2, Out.seen, hid, hst, h.next]

/-- `begin` in the sequential model, if the sinks do not raise, is what a thread does that calls it and is left
alone. -/
theorem begin_call (hq : env.Quiet) (h : Like base pub0 a w s) (hp : s.pcs[t]? = some .idle) (m : Option String)
    (f : List Val) (kw : Dict) :
    ∃ n, let s' := run s ((t, .begin) :: List.replicate n (t, .go))
      Like base pub0 a (begin_ env w a m f kw).1 s' ∧ s'.pcs = s.pcs := by
  have h0 : step s t .begin = { s with asked := s.asked ++ [Act.begin] }.to t (.test .ret) := by simp [step, hp, call]
  have hp' : ({ s with asked := s.asked ++ [Act.begin] } : Sys).pcs[t]? = some .idle := hp
  have hl : Like base pub0 a w ({ s with asked := s.asked ++ [Act.begin] }.to t (.test .ret)) := ⟨h.next, h.act, h.pub⟩
  obtain ⟨-, s', ⟨n, hn⟩, l, -, hpc, -⟩ := begin_sim hq hl .ret (to_pc hp') m f kw
  refine ⟨n, ?_⟩
  show Like base pub0 a _ (run (step s t .begin) _) ∧ (run (step s t .begin) _).pcs = _
  rw [h0, hn]
  refine ⟨l.to t _, ?_⟩
  show s'.pcs.set t .idle = s.pcs
  rw [hpc]
  show (s.pcs.set t _).set t .idle = s.pcs
  rw [List.set_set]
  exact set_same hp

/-- The same for `warn`. -/
theorem warn_call (hq : env.Quiet) (h : Like base pub0 a w s) (hp : s.pcs[t]? = some .idle) (m : String)
    (f : List Val) (kw : Dict) :
    let s' := run s [(t, .warn), (t, .go)]
    Like base pub0 a (warn env w a m f kw).1 s' ∧ s'.pcs = s.pcs := by
  obtain ⟨x, hx, h1, h2, h3, h4, h5⟩ := h.act
  simp only [warn, hx]
  generalize he : mkEvent w a x.logger .warn .warning (w.now env) m f none = e
  have hid : e.id = w.nextId := by rw [← he]; rfl
  have hst : e.status = .warning := by rw [← he]; rfl
  obtain ⟨p1, p2, p3, p4⟩ := publish_quiet hq
    (World.setAct w.tick.bump a { x with data := x.data.update kw, warnEvs := x.warnEvs ++ [e] }) x.logger .warn e
  have hr : run s [(t, .warn), (t, .go)] =
      { s with next := s.next + 1, warnEvents := s.warnEvents ++ [s.next], asked := s.asked ++ [Act.warn],
               out := s.out ++ [Out.warn s.next] } := by
    have ht : t < s.pcs.length := (List.getElem?_eq_some_iff.1 hp).1
    simp only [run, List.foldl_cons, List.foldl_nil, step, hp]
    simp [call, Sys.to, ht, go, set_same hp]
  rw [hr]
  refine ⟨⟨?_, ⟨{ x with data := x.data.update kw, warnEvs := x.warnEvs ++ [e] }, ?_, h1, h2, h3, h4, ?_⟩, ?_⟩, rfl⟩
  · rw [p3]
    show w.nextId + 1 = base + (s.next + 1)
    rw [h.next]; omega
  · rw [p2]; simp [World.setAct]
  · simp [h5, hid, h.next]
  · obtain ⟨new, n1, n2⟩ := h.pub
    refine ⟨new ++ [(.warn, e)], ?_, ?_⟩
    · rw [p4]
      show w.pub ++ [(.warn, e)] = _
      rw [n1, List.append_assoc]
    · simp [n2, Out.seen, hid, hst, h.next]

/-- Storing and publishing the end event. -/
theorem endWith_sim (hq : env.Quiet) (h : Like base pub0 a w s) (st : Status) (hp : s.pcs[t]? = some (.storeEnd st)) (m : String)
    (f : List Val) (tm : Int) (exc : Option Exc) :
    ∃ s', Goes t s (s'.to t .idle) ∧ Like base pub0 a (endWith env w a st m f tm exc).1 s' ∧ s'.pcs = s.pcs := by
  obtain ⟨x, hx, h1, h2, h3, h4, h5⟩ := h.act
  simp only [endWith, hx]
  generalize he : mkEvent w a x.logger .end_ st tm m f exc = e
  have hid : e.id = w.nextId := by rw [← he]; rfl
  have hst : e.status = st := by rw [← he]; rfl
  obtain ⟨p1, p2, p3, p4⟩ := publish_quiet hq (World.setAct w.bump a { x with endEv := some e }) x.logger .end_ e
  refine ⟨{ s with next := s.next + 1, endEvent := some (s.next, st), out := s.out ++ [Out.fin s.next st] }, ?_, ?_, rfl⟩
  · have g1 := Goes.one hp
    simp only [go] at g1
    have hp2 : ({ s with next := s.next + 1, endEvent := some (s.next, st) } : Sys).pcs[t]? = some (.storeEnd st) := hp
    have g2 := Goes.one (to_pc (q := .pubEnd) hp2)
    have hgo : go (({ s with next := s.next + 1, endEvent := some (s.next, st) } : Sys).to t .pubEnd) t .pubEnd =
        ({ s with next := s.next + 1, endEvent := some (s.next, st), out := s.out ++ [Out.fin s.next st] } : Sys).to t .idle := by
      simp [go, Sys.to]
    rw [hgo] at g2
    exact g1.trans g2
  · rw [if_neg (by simp [h2])]
    refine ⟨?_, ⟨{ x with endEv := some e }, ?_, h1, h2, h3, ?_, h5⟩, ?_⟩
    · rw [p3]
      show w.nextId + 1 = base + (s.next + 1)
      rw [h.next]; omega
    · rw [p2]; simp [World.setAct]
    · simp [hid, hst, h.next]
    · obtain ⟨new, n1, n2⟩ := h.pub
      refine ⟨new ++ [(.end_, e)], ?_, ?_⟩
      · rw [p4]
        show w.pub ++ [(.end_, e)] = _
        rw [n1, List.append_assoc]
      · simp [n2, Out.seen, hid, hst, h.next]

/-- The same for ending the action. -/
theorem end_sim (hq : env.Quiet) (h : Like base pub0 a w s) (hp : s.pcs[t]? = some .idle) (st : Status) (m : String)
    (f : List Val) (kw : Dict) :
    ∃ n, let s' := run s ((t, .fin st) :: List.replicate n (t, .go))
      Like base pub0 a (end_ env w a st m f kw none none).1 s' ∧ s'.pcs = s.pcs := by
  have h0 : step s t (.fin st) = { s with asked := s.asked ++ [Act.fin st] }.to t (.check st) := by simp [step, hp, call]
  have hp' : ({ s with asked := s.asked ++ [Act.fin st] } : Sys).pcs[t]? = some .idle := hp
  obtain ⟨x, hx, h1, h2, h3, h4, h5⟩ := h.act
  have key : ∃ s', Goes t ({ s with asked := s.asked ++ [Act.fin st] }.to t (.check st)) (s'.to t .idle) ∧
      Like base pub0 a (end_ env w a st m f kw none none).1 s' ∧
      s'.pcs.set t .idle = s.pcs := by
    simp only [end_, hx]
    rw [if_neg (by simp [h1])]
    have hl : Like base pub0 a (w.setAct a { x with data := x.data.update kw })
        ({ s with asked := s.asked ++ [Act.fin st] }.to t (.test (.fin st))) :=
      ⟨h.next, ⟨{ x with data := x.data.update kw }, by simp [World.setAct], h1, h2, h3, h4, h5⟩, h.pub⟩
    have g0 := Goes.one (to_pc (q := .check st) hp')
    have back : ∀ s' : Sys, s'.pcs = (({ s with asked := s.asked ++ [Act.fin st] } : Sys).to t (.test (.fin st))).pcs →
        s'.pcs.set t .idle = s.pcs := by
      intro s' e
      rw [e]
      show (s.pcs.set t _).set t .idle = s.pcs
      rw [List.set_set]
      exact set_same hp
    obtain ⟨b1, s1, g1, l1, i1, c1, same⟩ := begin_sim hq hl (.fin st) (to_pc hp') none [] []
    generalize hw1 : begin_ env (w.setAct a { x with data := x.data.update kw }) a none [] [] = r at *
    obtain ⟨w1, r1⟩ := r
    dsimp only at b1 l1
    subst b1
    simp only [andThen]
    obtain ⟨y, hy, y1, y2, y3, y4, y5⟩ := l1.act
    have hyb : ∃ b, y.beginEv = some b := by
      obtain ⟨e, he⟩ := Option.isSome_iff_exists.1 i1
      rw [he] at y3
      cases hb : y.beginEv with
      | none => rw [hb] at y3; simp at y3
      | some b => exact ⟨b, rfl⟩
    obtain ⟨b, hb⟩ := hyb
    simp only [hy, Option.bind_some, hb]
    have hp1 : s1.pcs[t]? = some (.test (.fin st)) := by
      rw [c1]; exact to_pc hp'
    obtain ⟨s2, g2, l2, c2⟩ := endWith_sim hq (l1.to t (.storeEnd st)) st (to_pc hp1) m f b.etime none
    refine ⟨s2, ?_, l2, ?_⟩
    · by_cases hs : s.beginEvent.isNone = true
      · simp only [go] at g0
        have e0 : (({ s with asked := s.asked ++ [Act.fin st] } : Sys).to t (.check st)).beginEvent.isNone = true := hs
        rw [if_pos e0, to_to] at g0
        exact (g0.trans g1).trans g2
      · -- no begin to make: the thread goes on at the end event at once
        simp only [go] at g0
        have e0 : ¬ (({ s with asked := s.asked ++ [Act.fin st] } : Sys).to t (.check st)).beginEvent.isNone = true := hs
        rw [if_neg e0, to_to] at g0
        have hsame : s1.to t (.storeEnd st) = ({ s with asked := s.asked ++ [Act.fin st] } : Sys).to t (.storeEnd st) := by
          rw [same (by simpa [Sys.to, Option.isNone_iff_eq_none, Option.isSome_iff_ne_none] using hs), to_to]
        rw [hsame] at g2
        exact g0.trans g2
    · rw [c2]
      show (s1.pcs.set t _).set t .idle = _
      rw [List.set_set]
      exact back s1 c1
  obtain ⟨s', ⟨n, hn⟩, l, c⟩ := key
  refine ⟨n, ?_⟩
  show Like base pub0 a _ (run (step s t (.fin st)) _) ∧ (run (step s t (.fin st)) _).pcs = _
  rw [h0, hn]
  exact ⟨l.to t _, c⟩

/-- A call on an action, with its arguments. -/
inductive Call
  | begin (m : Option String) (f : List Val) (kw : Dict)
  | warn (m : String) (f : List Val) (kw : Dict)
  | success (m : Option String) (f : List Val) (kw : Dict)
  | failure (m : Option String) (f : List Val) (kw : Dict)

/-- Making it in the world model. -/
def Call.make (env : Env) (a : ActId) (w : World) : Call → World
  | .begin m f kw => (begin_ env w a m f kw).1
  | .warn m f kw => (Verif.warn env w a m f kw).1
  | .success m f kw => (Verif.success env w a m f kw).1
  | .failure m f kw => (Verif.failure env w a m f kw).1

/-- The same call of the concurrent model. -/
def Call.act : Call → Act
  | .begin .. => .begin
  | .warn .. => .warn
  | .success .. => .fin .success
  | .failure .. => .fin .failure

/-- **C102**: what calls on an action do in the sequential model, if the sinks do not raise, is what one thread of the
concurrent model does that makes the same calls, each finished before the next: the same events stored, the same ones published
in the same order. -/
theorem C102_sequential (hq : env.Quiet) : ∀ (cs : List Call) {w : World} {s : Sys},
    Like base pub0 a w s → s.pcs[t]? = some .idle →
    ∃ ns : List Nat, ns.length = cs.length ∧
      Like base pub0 a (cs.foldl (Call.make env a) w)
        (run s ((cs.zip ns).flatMap fun p => (t, p.1.act) :: List.replicate p.2 (t, .go))) := by
  intro cs
  induction cs with
  | nil => intro w s h _; exact ⟨[], rfl, h⟩
  | cons c cs ih =>
    intro w s h hp
    have key : ∃ n, let s' := run s ((t, c.act) :: List.replicate n (t, .go))
        Like base pub0 a (Call.make env a w c) s' ∧ s'.pcs = s.pcs := by
      obtain ⟨x, hx, -⟩ := h.act
      cases c with
      | begin m f kw => exact begin_call hq h hp m f kw
      | warn m f kw => exact ⟨1, warn_call hq h hp m f kw⟩
      | success m f kw =>
        simp only [Call.make, Verif.success, hx]
        exact end_sim hq h hp .success _ f kw
      | failure m f kw =>
        simp only [Call.make, Verif.failure, hx]
        exact end_sim hq h hp .failure _ f kw
    obtain ⟨n, l, hpc⟩ := key
    obtain ⟨ns, h1, h2⟩ := ih l (by rw [hpc]; exact hp)
    refine ⟨n :: ns, by simp [h1], ?_⟩
    rw [List.zip_cons_cons, List.flatMap_cons, run_append]
    exact h2

/-- A new action is like a new system. -/
theorem like_init {x : Verif.Act} (hx : w.acts a = some x) (h1 : x.isTrans = false) (h2 : x.defer = false) (h3 : x.beginEv = none)
    (h4 : x.endEv = none) (h5 : x.warnEvs = []) (n : Nat) : Like w.nextId w.pub a w (init n) :=
  ⟨rfl, ⟨x, hx, h1, h2, by simp [h3, init], by simp [h4, init], by simp [h5, init]⟩, [], by simp, rfl⟩

open Verif.Sample in
/-- An action warned about and ended twice: two end events, the warning first. -/
example : ∃ ns : List Nat,
    (run (init 3) (([Call.warn "w" [] [], Call.success none [] [], Call.failure none [] []].zip ns).flatMap
      fun p => (2, p.1.act) :: List.replicate p.2 (2, .go))).out.map (Out.seen 1) =
    [(.warn, 1, .warning), (.begin, 2, .begin), (.end_, 3, .success), (.end_, 4, .failure)] := by
  let w0 : World := Verif.run quiet World.init (setup ++ [mk "a"])
  obtain ⟨x, hx⟩ : ∃ x, w0.acts 0 = some x := Option.isSome_iff_exists.1 (by decide +kernel)
  have hf : (w0.acts 0).map (fun x => (x.isTrans, x.defer, x.beginEv.isNone, x.endEv.isNone, x.warnEvs.isEmpty)) =
      some (false, false, true, true, true) := by decide +kernel
  rw [hx] at hf
  simp only [Option.map_some, Option.some.injEq, Prod.mk.injEq, Option.isNone_iff_eq_none, List.isEmpty_iff] at hf
  have hl := like_init (w := w0) (a := 0) hx hf.1 hf.2.1 hf.2.2.1 hf.2.2.2.1 hf.2.2.2.2 3
  have hn : w0.nextId = 1 := by decide +kernel
  have hpub : w0.pub = [] := by decide +kernel
  rw [hn, hpub] at hl
  obtain ⟨ns, -, h⟩ := C102_sequential (env := quiet) (t := 2) (fun _ _ => rfl)
    [Call.warn "w" [] [], Call.success none [] [], Call.failure none [] []] hl (by decide)
  refine ⟨ns, ?_⟩
  obtain ⟨new, n1, n2⟩ := h.pub
  rw [← n2]
  simp only [List.nil_append] at n1
  rw [← n1]
  decide +kernel

end Verif.Shared
