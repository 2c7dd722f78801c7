import Verif.Lemmas.SameBut
import Verif.Spec.Script
/-!
# What single calls of a script do
-/
namespace Verif

/-- Publishing with quiet hooks: what it changes apart from queues and deliveries. -/
theorem publish_same {env : Env} (hq : env.Quiet) (w : World) (l : LogId) (k : Kind) (e : Event) :
    (publish env w l k e).2 = none ∧ (publish env w l k e).1.acts = w.acts ∧ (publish env w l k e).1.active = w.active ∧
    (publish env w l k e).1.nextId = w.nextId ∧ (publish env w l k e).1.pub = w.pub ++ [(k, e)] ∧
    ∀ m, (w.logs m).isSome → ((publish env w l k e).1.logs m).isSome := by
  simp only [publish]
  cases hL : w.logs l with
  | none => exact ⟨rfl, rfl, rfl, rfl, rfl, fun _ h => h⟩
  | some L =>
    dsimp only
    split
    · refine ⟨rfl, rfl, rfl, rfl, rfl, fun m h => ?_⟩
      simp only [World.setLog]; split
      · rfl
      · exact h
    · rw [callAll_quiet hq]
      exact ⟨rfl, rfl, rfl, rfl, rfl, fun _ h => h⟩

theorem publishExc_same {env : Env} (hq : env.Quiet) (w : World) (l : LogId) (e : Event) :
    (publishExc env w l e).2 = none ∧ (publishExc env w l e).1.acts = w.acts ∧ (publishExc env w l e).1.active = w.active ∧
    (publishExc env w l e).1.nextId = w.nextId ∧ (publishExc env w l e).1.pub = w.pub ∧
    (publishExc env w l e).1.logs = w.logs := by
  simp only [publishExc]
  cases hL : w.logs l with
  | none => exact ⟨rfl, rfl, rfl, rfl, rfl, rfl⟩
  | some L => dsimp only; rw [callAll_quiet hq]; exact ⟨rfl, rfl, rfl, rfl, rfl, rfl⟩

/-- What a view says of an event stays true. -/
theorem viewEv_run {env : Env} {w : World} (h : Good env w) (its : List Item) {p : Kind × Event} {ln : Line}
    (hv : viewEv w p = some ln) : viewEv (run env w its) p = some ln := by
  simp only [viewEv] at hv ⊢
  cases hx : w.acts p.2.act with
  | none => rw [hx] at hv; cases hv
  | some x =>
    rw [hx] at hv
    obtain ⟨y, hy, hf⟩ := h.fixed_run its hx
    simp only [Act.fixed, Prod.mk.injEq] at hf
    obtain ⟨-, -, hn, -, hp, -⟩ := hf
    rw [hy]
    dsimp only at hv ⊢
    rw [hn, hp]
    cases hpar : x.parent with
    | none => rw [hpar] at hv; exact hv
    | some a =>
      rw [hpar] at hv
      dsimp only at hv ⊢
      cases hz : w.acts a with
      | none => rw [hz] at hv; cases hv
      | some z =>
        obtain ⟨z', hz', hf'⟩ := h.fixed_run its hz
        simp only [Act.fixed, Prod.mk.injEq] at hf'
        rw [hz] at hv
        rw [hz', Option.map_some, hf'.2.2.1]
        exact hv

/-- The name of the parent, if there is one. -/
def Inside (w : World) (parent : Option ActId) (i : Option String) : Prop :=
  match parent with
  | none => i = none
  | some p => ∃ y, w.acts p = some y ∧ i = some y.name

theorem Inside.run {env : Env} {w : World} (h : Good env w) (its : List Item) {p : Option ActId} {i : Option String}
    (hi : Inside w p i) : Inside (run env w its) p i := by
  cases p with
  | none => exact hi
  | some p =>
    obtain ⟨y, hy, e⟩ := hi
    obtain ⟨z, hz, hf⟩ := h.fixed_run its hy
    simp only [Act.fixed, Prod.mk.injEq] at hf
    exact ⟨z, hz, by rw [e, hf.2.2.1]⟩

theorem Inside.unique {w : World} {p : Option ActId} {i j : Option String} (hi : Inside w p i) (hj : Inside w p j) : i = j := by
  cases p with
  | none => exact (show i = none from hi).trans (show j = none from hj).symm
  | some p =>
    obtain ⟨y, hy, e⟩ := hi
    obtain ⟨z, hz, e'⟩ := hj
    rw [hy] at hz
    cases hz
    rw [e, e']

theorem viewEv_of {w : World} {a : ActId} {x : Act} (hx : w.acts a = some x) {i : Option String} (hi : Inside w x.parent i)
    {e : Event} (he : e.act = a) (k : Kind) : viewEv w (k, e) = some ⟨k, e.status, x.name, i, e.msg⟩ := by
  simp only [viewEv, he, hx]
  cases hp : x.parent with
  | none => rw [hp] at hi; rw [show i = none from hi]
  | some p =>
    rw [hp] at hi
    obtain ⟨y, hy, rfl⟩ := hi
    simp only [hy, Option.map_some]

/-- The record of an action whose block `b` is being executed. -/
structure InBlk (w : World) (l : LogId) (a : ActId) (b : Blk) (x : Act) : Prop where
  here : w.acts a = some x
  logger : x.logger = l
  name : x.name = b.name
  handle : x.handle = true
  trans : x.isTrans = true
  defer : x.defer = true
  begun : x.beginEv.isSome
  said : x.endEv.map (fun e => (e.status, e.msg)) = b.said
  ev : ∀ e, x.endEv = some e → e.act = a ∧ e.logger = l
  full : x.data.isEmpty = !b.full
  inside : Inside w x.parent b.inside

/-- The state fits the block around a statement. -/
def At (w : World) (l : LogId) : Option ActId → Option Blk → Prop
  | none, none => w.active l = none
  | some a, some b => w.active l = some a ∧ ∃ x, InBlk w l a b x
  | _, _ => False

/-- The item changes no logger's sinks and makes none synchronous. -/
def Item.Kept (it : Item) : Prop := ∀ m, it.keepsSinks m ∧ it.keepsMode m

theorem kept_one {it : Item} (h : it.Kept) : ∀ j ∈ [it], j.Kept := by
  simpa using h

/-- From `w` to `w'` the calls of a script in the block of `c` have published these lines. -/
structure Ran (env : Env) (l : LogId) (c : Option ActId) (w w' : World) (ls : List Line) : Prop where
  its : ∃ its, w' = run env w its ∧ ∀ it ∈ its, it.Kept
  pub : ∃ new, w'.pub = w.pub ++ new ∧ new.map (viewEv w') = ls.map some ∧ ∀ p ∈ new, p.1 ≠ .exception ∧ p.2.logger = l
  frame : ∀ b, b < w.nextId → c ≠ some b → w'.acts b = w.acts b
  next : w.nextId ≤ w'.nextId
  log : (w'.logs l).isSome

theorem Ran.refl (env : Env) {l : LogId} (c : Option ActId) {w : World} (h : (w.logs l).isSome) : Ran env l c w w [] :=
  ⟨⟨[], rfl, by simp⟩, ⟨[], by simp, rfl, by simp⟩, fun _ _ _ => rfl, Nat.le_refl _, h⟩

theorem Ran.good {env : Env} {l : LogId} {c : Option ActId} {w w' : World} {ls : List Line} (h : Ran env l c w w' ls)
    (hg : Good env w) : Good env w' := by
  obtain ⟨its, rfl, -⟩ := h.its; exact hg.run its

theorem Ran.trans {env : Env} {l : LogId} {c : Option ActId} {w w' w'' : World} {ls ls' : List Line} (hg : Good env w)
    (h : Ran env l c w w' ls) (h' : Ran env l c w' w'' ls') : Ran env l c w w'' (ls ++ ls') := by
  have hg' := h.good hg
  obtain ⟨i, rfl, ki⟩ := h.its
  obtain ⟨j, rfl, kj⟩ := h'.its
  obtain ⟨n, n1, n2, n3⟩ := h.pub
  obtain ⟨m, m1, m2, m3⟩ := h'.pub
  refine ⟨⟨i ++ j, (run_append env w i j).symm, fun it h => (List.mem_append.1 h).elim (ki it) (kj it)⟩, ⟨n ++ m, by rw [m1, n1, List.append_assoc], ?_, ?_⟩, ?_, Nat.le_trans h.next h'.next, h'.log⟩
  · rw [List.map_append, List.map_append, m2]
    congr 1
    rw [← n2]
    apply List.map_congr_left
    intro p hp
    have hm : viewEv (run env w i) p ∈ ls.map some := by rw [← n2]; exact List.mem_map_of_mem hp
    obtain ⟨ln, -, e⟩ := List.mem_map.1 hm
    rw [← e]
    exact viewEv_run hg' j e.symm
  · intro p hp
    rcases List.mem_append.1 hp with hp | hp
    · exact n3 p hp
    · exact m3 p hp
  · intro b hb hc
    rw [h'.frame b (Nat.lt_of_lt_of_le hb h.next) hc, h.frame b hb hc]

section
variable {env : Env} (hq : env.Quiet) {w : World} (hg : Good env w) {l : LogId} (hl : (w.logs l).isSome)
include hq hg hl

omit hq hg hl in
theorem held_of {a : ActId} {b : Blk} {x : Act} (h : InBlk w l a b x) : w.held a = true := held_iff.2 ⟨x, h.here, h.handle⟩

/-- `act.warn(m)` -/
theorem warn_ran {a : ActId} {b : Blk} (h : At w l (some a) (some b)) (m : String) :
    (step env w (.warn a m [] [])).2 = .ok ∧ At (step env w (.warn a m [] [])).1 l (some a) (some b) ∧
    Ran env l (some a) w (step env w (.warn a m [] [])).1 [⟨.warn, .warning, b.name, b.inside, m⟩] := by
  obtain ⟨hact, x, hx⟩ := h
  have hrun : (step env w (.warn a m [] [])).1 = run env w [.op (.warn a m [] [])] := rfl
  have hins := hx.inside.run hg [.op (.warn a m [] [])]
  rw [← hrun] at hins
  generalize hw' : (step env w (.warn a m [] [])) = r at *
  simp only [step, guard, held_of hx, if_true, warn, hx.here, ret] at hw'
  obtain ⟨p1, p2, p3, p4, p5, p6⟩ := publish_same hq ((w.tick.bump).setAct a
    { x with data := x.data.update [], warnEvs := x.warnEvs ++ [mkEvent w a x.logger .warn .warning (w.now env) m [] none] })
    x.logger .warn (mkEvent w a x.logger .warn .warning (w.now env) m [] none)
  have e1 := (congrArg Prod.fst hw').symm
  have e2 := (congrArg Prod.snd hw').symm
  dsimp only at e1 e2
  rw [p1] at e2
  rw [← e1] at p2 p3 p4 p5 p6
  have hhere : r.1.acts a = some { x with
      data := x.data.update []
      warnEvs := x.warnEvs ++ [mkEvent w a x.logger .warn .warning (w.now env) m [] none] } := by
    rw [p2]; simp [World.setAct]
  refine ⟨e2, ⟨by rw [p3]; exact hact, _, ⟨hhere, hx.logger, hx.name, hx.handle, hx.trans, hx.defer, hx.begun, hx.said, hx.ev, hx.full,
    hins⟩⟩, ⟨⟨_, hrun, kept_one fun _ => ⟨trivial, trivial⟩⟩, ⟨[_], p5, ?_, ?_⟩, ?_, by rw [p4]; exact Nat.le_succ _, p6 l hl⟩⟩
  · simp only [List.map_cons, List.map_nil]
    rw [viewEv_of hhere hins rfl, hx.name]
    rfl
  · simp only [List.mem_singleton, forall_eq]
    exact ⟨by simp, hx.logger⟩
  · intro b _ hb
    rw [p2]
    exact if_neg fun e => hb (by rw [e])

omit hq hg hl in
theorem dict_set_ne (d : Dict) (k : String) (v : Val) : (Dict.set d k v).isEmpty = false := by
  cases d with
  | nil => rfl
  | cons p d => simp only [Dict.set]; split <;> rfl

omit hq in
/-- `act[k] = v` -/
theorem set_ran {a : ActId} {b : Blk} (h : At w l (some a) (some b)) (k : String) (v : Val) :
    (step env w (.setItem a k v)).2 = .ok ∧ At (step env w (.setItem a k v)).1 l (some a) (some { b with full := true }) ∧
    Ran env l (some a) w (step env w (.setItem a k v)).1 [] := by
  obtain ⟨hact, x, hx⟩ := h
  have hrun : (step env w (.setItem a k v)).1 = run env w [.op (.setItem a k v)] := rfl
  have hins := hx.inside.run hg [.op (.setItem a k v)]
  rw [← hrun] at hins
  generalize hw' : (step env w (.setItem a k v)) = r at *
  simp only [step, guard, held_of hx, if_true, setItem, hx.here, ret] at hw'
  subst hw'
  refine ⟨rfl, ⟨hact, { x with data := x.data.set k v }, ⟨by simp [World.setAct], hx.logger, hx.name, hx.handle, hx.trans, hx.defer,
    hx.begun, hx.said, hx.ev, dict_set_ne _ _ _, hins⟩⟩, ⟨⟨_, hrun, kept_one fun _ => ⟨trivial, trivial⟩⟩, ⟨[], by simp [World.setAct], rfl, by simp⟩, ?_, Nat.le_refl _, hl⟩⟩
  intro b _ hb
  exact if_neg fun e => hb (by rw [e])

/-- The default message. -/
def endText (b : Blk) (good : Bool) (m : Option String) : String :=
  match m with
  | some m => if m = "" then defaultEnd b good else m
  | none => defaultEnd b good

omit hq hg hl in
theorem endMsg_eq {a : ActId} {b : Blk} {x : Act} (hx : InBlk w l a b x) (good : Bool) (m : Option String) :
    endMsg x m (if good then " succeeded" else " failed") = endText b good m := by
  have hd : ∀ v : String, (if x.data.isEmpty then x.name ++ v else x.name ++ v ++ " - ({data_map_repr})") =
      b.name ++ v ++ (if b.full then " - ({data_map_repr})" else "") := by
    intro v
    rw [hx.full, hx.name]
    cases b.full <;> simp
  cases m with
  | none => simp only [endMsg, falsy, if_true, hd, endText, defaultEnd]
  | some m =>
    simp only [endMsg, falsy, endText, decide_eq_true_eq, hd, defaultEnd, Option.getD_some]

omit hq in
/-- `act.success(m)`, `act.failure(m)` -/
theorem finish_ran {a : ActId} {b : Blk} (h : At w l (some a) (some b)) (good : Bool) (m : Option String) :
    (step env w (if good then .success a m [] [] else .failure a m [] [])).2 = .ok ∧
    At (step env w (if good then .success a m [] [] else .failure a m [] [])).1 l (some a)
      (some { b with said := some (if good then .success else .failure, endText b good m) }) ∧
    Ran env l (some a) w (step env w (if good then .success a m [] [] else .failure a m [] [])).1 [] := by
  obtain ⟨hact, x, hx⟩ := h
  have hrun : (step env w (if good then .success a m [] [] else .failure a m [] [])).1 =
    run env w [.op (if good then .success a m [] [] else .failure a m [] [])] := rfl
  have hins := hx.inside.run hg [.op (if good then .success a m [] [] else .failure a m [] [])]
  rw [← hrun] at hins
  have key : ∃ e : Event, e.act = a ∧ e.logger = l ∧ e.status = (if good then .success else .failure) ∧ e.msg = endText b good m ∧
      (step env w (if good then .success a m [] [] else .failure a m [] [])) =
        (((w.setAct a { x with data := x.data.update [] }).tick.bump.setAct a { x with data := x.data.update [], endEv := some e }), .ok) := by
    have hm := endMsg_eq hx good m
    refine ⟨mkEvent w.tick a x.logger .end_ (if good then .success else .failure) (w.now env) (endText b good m) [] none, rfl, hx.logger,
      rfl, rfl, ?_⟩
    cases good
    all_goals
      simp only [Bool.false_eq_true, if_false, if_true] at hm ⊢
      simp only [step, guard, held_of hx, if_true, success, failure, hx.here, ret, end_, hx.trans, endWith, World.setAct, World.tick,
        hx.defer, hm, Res.ofExc, World.now, mkEvent]
  obtain ⟨e, e1, e2, e3, e4, e5⟩ := key
  rw [e5] at hrun hins ⊢
  refine ⟨rfl, ⟨hact, { x with data := x.data.update [], endEv := some e }, ⟨by simp [World.setAct], hx.logger, hx.name, hx.handle,
    hx.trans, hx.defer, hx.begun, by simp [e3, e4], ?_, hx.full, hins⟩⟩,
    ⟨⟨_, hrun, kept_one fun _ => by cases good <;> exact ⟨trivial, trivial⟩⟩, ⟨[], by simp [World.setAct, World.tick, World.bump], rfl, by simp⟩, ?_, Nat.le_succ _, hl⟩⟩
  · intro e' he
    cases he
    exact ⟨e1, e2⟩
  · intro c _ hc
    have : c ≠ a := fun e => hc (by rw [e])
    simp [World.setAct, World.tick, World.bump, this]

omit hq hg hl in
/-- The action around a statement, as the parent of another. -/
theorem At.parent {c : Option ActId} {b : Option Blk} (h : At w l c b) : w.active l = c ∧ Inside w c (b.map Blk.name) := by
  cases c <;> cases b
  · exact ⟨h, rfl⟩
  · exact h.elim
  · exact h.elim
  · obtain ⟨h1, x, hx⟩ := h
    exact ⟨h1, x, hx.here, by rw [hx.name]; rfl⟩

omit hq hl in
/-- What is kept when other actions change. -/
theorem At.keep {c : Option ActId} {b : Option Blk} (h : At w l c b) {w' : World} (its : List Item) (hw : w' = run env w its)
    (hact : w'.active l = c) (hc : ∀ a, c = some a → w'.acts a = w.acts a) : At w' l c b := by
  cases c <;> cases b
  · exact hact
  · exact h.elim
  · exact h.elim
  · obtain ⟨h1, x, hx⟩ := h
    refine ⟨hact, x, ⟨by rw [hc _ rfl]; exact hx.here, hx.logger, hx.name, hx.handle, hx.trans, hx.defer, hx.begun, hx.said, hx.ev, hx.full,
      ?_⟩⟩
    rw [hw]; exact hx.inside.run hg its

omit hq hl in
theorem At.lt {a : ActId} {b : Option Blk} (h : At w l (some a) b) : a < w.nextId := by
  cases b with
  | none => exact h.elim
  | some b => obtain ⟨h1, x, hx⟩ := h; exact hg.id.actLt a x hx.here

/-- `log.comment(m)` -/
theorem comment_ran {c : Option ActId} {b : Option Blk} (h : At w l c b) (m : String) :
    (step env w (.comment l m [] [])).2 = .ok ∧ At (step env w (.comment l m [] [])).1 l c b ∧
    Ran env l c w (step env w (.comment l m [] [])).1 [⟨.comment, .comment, "_comment", b.map Blk.name, m⟩] := by
  obtain ⟨L, hL⟩ := Option.isSome_iff_exists.1 hl
  have hrun : (step env w (.comment l m [] [])).1 = run env w [.op (.comment l m [] [])] := rfl
  obtain ⟨hact, hpar⟩ := h.parent
  have hins := hpar.run hg [.op (.comment l m [] [])]
  rw [← hrun] at hins
  generalize hw' : (step env w (.comment l m [] [])) = r at *
  simp only [step, comment, hL, ret] at hw'
  have e1 := (congrArg Prod.fst hw').symm
  have e2 := (congrArg Prod.snd hw').symm
  dsimp only at e1 e2
  generalize hce : mkEvent w.bump.tick.bump.bump w.nextId l .comment .comment (w.now env) m [] none = ce at e1 e2
  generalize hW : World.setAct _ w.nextId _ = W at e1 e2
  obtain ⟨p1, p2, p3, p4, p5, p6⟩ := publish_same hq W l .comment ce
  rw [p1] at e2
  rw [← e1] at p2 p3 p4 p5 p6
  have hother : ∀ a, a < w.nextId → r.1.acts a = w.acts a := by
    intro a ha
    rw [p2, ← hW]
    exact if_neg (Nat.ne_of_lt ha)
  have hactive : r.1.active l = c := by rw [p3, ← hW]; exact hact
  refine ⟨e2, h.keep hg _ hrun hactive fun a ha => hother a (by subst ha; exact h.lt hg),
    ⟨⟨_, hrun, kept_one fun _ => ⟨trivial, trivial⟩⟩, ⟨[(.comment, ce)], ?_, ?_, ?_⟩, fun a ha _ => hother a ha, ?_, ?_⟩⟩
  · rw [p5, ← hW]; rfl
  · have hx : ∃ x, r.1.acts w.nextId = some x ∧ x.name = "_comment" ∧ x.parent = c := by
      rw [p2, ← hW]
      refine ⟨_, if_pos rfl, rfl, ?_⟩
      simp only [initParent, asParent, Dict.get?]
      exact hact
    obtain ⟨x, hx1, hx2, hx3⟩ := hx
    simp only [List.map_cons, List.map_nil]
    rw [viewEv_of hx1 (hx3 ▸ hins) (by rw [← hce]; rfl), hx2, ← hce]
    rfl
  · simp only [List.mem_singleton, forall_eq]
    exact ⟨by simp, by rw [← hce]; rfl⟩
  · rw [p4, ← hW]; simp only [World.setAct, World.bump, World.tick]; omega
  · exact p6 l (by rw [← hW]; exact hl)

omit hq in
/-- Making the action of a block. -/
theorem make_ran {c : Option ActId} {b : Option Blk} (h : At w l c b) (level : Int) (name : String) (data : Dict) (swallow : Bool)
    (hok : ∀ kv ∈ data, kv.1 ≠ "reraise" ∧ kv.1 ≠ "parent_action") :
    let o := Op.newAction l level name (if swallow then ("reraise", .bool false) :: data else data)
    (step env w o).2 = .newAct w.nextId ∧ At (step env w o).1 l c b ∧ Ran env l c w (step env w o).1 [] ∧
    (step env w o).1.nextId = w.nextId + 1 ∧
    ∃ x, (step env w o).1.acts w.nextId = some x ∧ x.logger = l ∧ x.name = name ∧ x.handle = true ∧ x.isTrans = false ∧
      x.beginEv = none ∧ x.endEv = none ∧ x.data.isEmpty = data.isEmpty ∧ x.parent = c ∧
      (x.reraise = .bool false ↔ swallow = true) := by
  intro o
  obtain ⟨L, hL⟩ := Option.isSome_iff_exists.1 hl
  have hrun : (step env w o).1 = run env w [.op o] := rfl
  obtain ⟨hact, -⟩ := h.parent
  have hr : step env w o = ((newAction w l level name (if swallow then ("reraise", .bool false) :: data else data)).1, .newAct w.nextId) := by
    simp only [o, step, hL]; rfl
  rw [hr] at hrun ⊢
  have hother : ∀ a, a < w.nextId →
      (newAction w l level name (if swallow then ("reraise", .bool false) :: data else data)).1.acts a = w.acts a := by
    intro a ha
    exact if_neg (Nat.ne_of_lt ha)
  have herase : (Dict.erase (Dict.erase (if swallow then ("reraise", .bool false) :: data else data) "reraise") "parent_action") = data := by
    have h1 : ∀ d : Dict, (∀ kv ∈ d, kv.1 ≠ "reraise" ∧ kv.1 ≠ "parent_action") → Dict.erase (Dict.erase d "reraise") "parent_action" = d := by
      intro d hd
      simp only [Dict.erase, List.filter_filter]
      apply List.filter_eq_self.2
      intro kv hkv
      simp [hd kv hkv]
    cases swallow with
    | false => exact h1 data hok
    | true =>
      have : Dict.erase (("reraise", .bool false) :: data) "reraise" = Dict.erase data "reraise" := by simp [Dict.erase]
      simp only [if_true, this]
      exact h1 data hok
  have hget : ∀ (d : Dict) (k : String), (∀ kv ∈ d, kv.1 ≠ k) → d.get? k = none := by
    intro d k hd
    induction d with
    | nil => rfl
    | cons kv d ih =>
      obtain ⟨k', v⟩ := kv
      simp only [Dict.get?]
      rw [if_neg (hd (k', v) List.mem_cons_self)]
      exact ih fun kv hkv => hd kv (List.mem_cons_of_mem _ hkv)
  have hpar : Dict.get? (if swallow then ("reraise", .bool false) :: data else data) "parent_action" = none := by
    cases swallow with
    | false => exact hget _ _ fun kv hkv => (hok kv hkv).2
    | true =>
      refine hget _ _ fun kv hkv => ?_
      rcases List.mem_cons.1 hkv with rfl | hkv
      · simp
      · exact (hok kv hkv).2
  refine ⟨rfl, h.keep hg _ hrun hact fun a ha => hother a (by subst ha; exact h.lt hg),
    ⟨⟨_, hrun, kept_one fun _ => ⟨trivial, trivial⟩⟩, ⟨[], by simp [newAction, World.setAct], rfl, by simp⟩, fun a ha _ => hother a ha, Nat.le_succ _, hl⟩, rfl,
    _, if_pos rfl, rfl, rfl, rfl, rfl, rfl, rfl, by rw [herase], ?_, ?_⟩
  · simp only [initParent, hpar, asParent]; exact hact
  · cases swallow with
    | true => simp [Dict.get?]
    | false =>
      simp only [Bool.false_eq_true, if_false, iff_false]
      rw [hget _ _ fun kv hkv => (hok kv hkv).1]
      simp

/-- Entering a block. -/
theorem enter_ran {a : ActId} {x : Act} {i : Option String} (hx : w.acts a = some x) (h1 : x.logger = l) (h2 : x.handle = true)
    (h3 : x.beginEv = none) (h4 : x.endEv = none) (hi : Inside w x.parent i) :
    (enter env w a).2 = none ∧ At (enter env w a).1 l (some a) (some ⟨x.name, i, !x.data.isEmpty, none⟩) ∧
    Ran env l (some a) w (enter env w a).1 [⟨.begin, .begin, x.name, i, x.name ++ " beginning"⟩] := by
  have hheld : w.held a = true := held_iff.2 ⟨x, hx, h2⟩
  have hrun : (enter env w a).1 = run env w [.enter a] := by
    simp only [run, List.foldl_cons, List.foldl_nil, stepItem, guard, hheld, if_true, ret]
  have hins := hi.run hg [.enter a]
  rw [← hrun] at hins
  generalize hw' : enter env w a = r at *
  simp only [enter, hx, begin_, World.setActive, World.setAct, if_true, h3, falsy, Dict.update, List.foldl_nil] at hw'
  generalize hev : mkEvent _ a x.logger .begin .begin _ _ [] none = ev at hw'
  have ev1 : ev.act = a ∧ ev.logger = l ∧ ev.status = .begin ∧ ev.msg = x.name ++ " beginning" := by
    rw [← hev]; exact ⟨rfl, h1, rfl, rfl⟩
  generalize hW : World.mk _ _ _ _ _ _ _ _ _ _ = W at hw'
  obtain ⟨p1, p2, p3, p4, p5, p6⟩ := publish_same hq W x.logger .begin ev
  rw [hw'] at p1 p2 p3 p4 p5 p6
  have hhere : r.1.acts a = some { x with isTrans := true, defer := true, beginEv := some ev } := by
    rw [p2, ← hW]; simp
  refine ⟨p1, ⟨by rw [p3, ← hW]; simp [World.tick, World.bump, h1], _, ⟨hhere, h1, rfl, h2, rfl, rfl, rfl, by simp [h4], by simp [h4], by simp, hins⟩⟩,
    ⟨⟨_, hrun, kept_one fun _ => ⟨trivial, trivial⟩⟩, ⟨[(.begin, ev)], ?_, ?_, ?_⟩, ?_, ?_, ?_⟩⟩
  · rw [p5, ← hW]; rfl
  · simp only [List.map_cons, List.map_nil]
    rw [viewEv_of hhere hins ev1.1, ev1.2.2.1, ev1.2.2.2]
  · simp only [List.mem_singleton, forall_eq]
    exact ⟨by simp, ev1.2.1⟩
  · intro c _ hc
    have : c ≠ a := fun e => hc (by rw [e])
    rw [p2, ← hW]
    simp [World.tick, World.bump, this]
  · rw [p4, ← hW]; exact Nat.le_succ _
  · exact p6 l (by rw [← hW]; exact hl)

end

/-- An end event has been published and little else has changed. -/
structure EndPublished (l : LogId) (a : ActId) (st : Status) (m : String) (x : Act) (w w' : World) : Prop where
  ev : ∃ ev : Event, ev.act = a ∧ ev.logger = l ∧ ev.status = st ∧ ev.msg = m ∧ w'.pub = w.pub ++ [(.end_, ev)]
  here : ∃ y, w'.acts a = some y ∧ y.name = x.name ∧ y.parent = x.parent
  others : ∀ c, c ≠ a → w'.acts c = w.acts c
  active : w'.active = w.active
  next : w.nextId ≤ w'.nextId
  logs : ∀ m, (w.logs m).isSome → (w'.logs m).isSome

section
variable {env : Env} (hq : env.Quiet)
include hq

theorem endWith_line {w : World} {a : ActId} {x : Act} (hx : w.acts a = some x) (hd : x.defer = false) (st m f t e) :
    (endWith env w a st m f t e).2 = none ∧ EndPublished x.logger a st m x w (endWith env w a st m f t e).1 := by
  simp only [endWith, hx, hd, Bool.false_eq_true, if_false]
  generalize hev : mkEvent w a x.logger .end_ st t m f e = ev
  generalize hW : World.setAct _ a _ = W
  obtain ⟨p1, p2, p3, p4, p5, p6⟩ := publish_same hq W x.logger .end_ ev
  refine ⟨p1, ⟨ev, by rw [← hev]; rfl, by rw [← hev]; rfl, by rw [← hev]; rfl, by rw [← hev]; rfl, by rw [p5, ← hW]; rfl⟩, ?_, ?_,
    by rw [p3, ← hW]; rfl, by rw [p4, ← hW]; exact Nat.le_succ _, fun m h => p6 m (by rw [← hW]; exact h)⟩
  · rw [p2, ← hW]
    exact ⟨_, if_pos rfl, rfl, rfl⟩
  · intro c hc
    rw [p2, ← hW]
    exact if_neg hc

omit hq in
/-- Ending starts from a state with other records of the action. -/
theorem EndPublished.from {l : LogId} {a : ActId} {st : Status} {m : String} {x y : Act} {w v w' : World} (h : EndPublished l a st m y v w')
    (hn : y.name = x.name) (hp : y.parent = x.parent) (hpub : v.pub = w.pub) (ho : ∀ c, c ≠ a → v.acts c = w.acts c)
    (hact : v.active = w.active) (hnext : w.nextId ≤ v.nextId) (hlogs : ∀ m, (w.logs m).isSome → (v.logs m).isSome) :
    EndPublished l a st m x w w' := by
  obtain ⟨ev, e1, e2, e3, e4, e5⟩ := h.ev
  obtain ⟨z, z1, z2, z3⟩ := h.here
  exact ⟨⟨ev, e1, e2, e3, e4, by rw [e5, hpub]⟩, ⟨z, z1, z2.trans hn, z3.trans hp⟩, fun c hc => (h.others c hc).trans (ho c hc),
    h.active.trans hact, Nat.le_trans hnext h.next, fun m hm => h.logs m (hlogs m hm)⟩

theorem end_line {w : World} {a : ActId} {x : Act} (hx : w.acts a = some x) (hd : x.defer = false) (ht : x.isTrans = true)
    (st m f kw t e) :
    (end_ env w a st m f kw t e).2 = none ∧ EndPublished x.logger a st m x w (end_ env w a st m f kw t e).1 := by
  simp only [end_, hx]
  rw [if_pos ht]
  generalize hW : World.setAct w a _ = W
  have hW1 : W.acts a = some { x with data := x.data.update kw } := by rw [← hW]; exact if_pos rfl
  have hW2 : ∀ c, c ≠ a → W.acts c = w.acts c := by intro c hc; rw [← hW]; exact if_neg hc
  have key : ∀ V : World, V.acts = W.acts → V.pub = W.pub → V.active = W.active → V.nextId = W.nextId → V.logs = W.logs → ∀ t,
      (endWith env V a st m f t e).2 = none ∧ EndPublished x.logger a st m x w (endWith env V a st m f t e).1 := by
    intro V v1 v2 v3 v4 v5 t
    obtain ⟨k1, k2⟩ := endWith_line hq (w := V) (a := a) (x := { x with data := x.data.update kw }) (by rw [v1]; exact hW1) hd st m f t e
    refine ⟨k1, k2.from rfl rfl (by rw [v2, ← hW]; rfl) (fun c hc => by rw [v1, hW2 c hc]) (by rw [v3, ← hW]; rfl)
      (by rw [v4, ← hW]; exact Nat.le_refl _) fun m hm => by rw [v5, ← hW]; exact hm⟩
  split
  · split
    · exact key W.tick rfl rfl rfl rfl rfl _
    · exact key W rfl rfl rfl rfl rfl _
  · exact key W.tick rfl rfl rfl rfl rfl _

omit hq in
/-- How a block ends. -/
def blockEnd (env : Env) (b : Blk) (x : Option Exc) : Status × String :=
  match x, b.said with
  | some e, _ => (.exception, env.text e b.name b.full)
  | none, some s => s
  | none, none => (.success, defaultEnd b true)

omit hq in
theorem exitPublish_line (hc : env.Calm) {w : World} {l : LogId} {a : ActId} {b : Blk} {x : Act} (hx : InBlk w l a b x)
    (exc : Option Exc) :
    (exitPublish env w a exc).2 = none ∧
      EndPublished l a (blockEnd env b exc).1 (blockEnd env b exc).2 x w (exitPublish env w a exc).1 := by
  have hq := hc.quiet
  simp only [exitPublish, hx.here]
  generalize hW : World.setAct w a _ = W
  have hW1 : W.acts a = some { x with defer := false } := by rw [← hW]; exact if_pos rfl
  have hW2 : ∀ c, c ≠ a → W.acts c = w.acts c := by intro c hc; rw [← hW]; exact if_neg hc
  have hWs : W.pub = w.pub ∧ W.active = w.active ∧ W.nextId = w.nextId ∧ W.logs = w.logs := by rw [← hW]; exact ⟨rfl, rfl, rfl, rfl⟩
  obtain ⟨w1, w2, w3, w4⟩ := hWs
  cases exc with
  | none =>
    dsimp only
    cases he : x.endEv with
    | some ev =>
      dsimp only
      have hsaid : b.said = some (ev.status, ev.msg) := by rw [← hx.said, he]; rfl
      obtain ⟨p1, p2, p3, p4, p5, p6⟩ := publish_same hq W x.logger .end_ ev
      simp only [blockEnd, hsaid]
      refine ⟨p1, ⟨ev, (hx.ev ev he).1, (hx.ev ev he).2, rfl, rfl, by rw [p5, w1]⟩, ⟨{ x with defer := false }, by rw [p2]; exact hW1, rfl, rfl⟩,
        fun c hc => by rw [p2, hW2 c hc], by rw [p3, w2], by rw [p4, w3]; exact Nat.le_refl _, fun m hm => p6 m (by rw [w4]; exact hm)⟩
    | none =>
      dsimp only
      have hsaid : b.said = none := by rw [← hx.said, he]; rfl
      simp only [success, hW1, blockEnd, hsaid]
      have hm : endMsg { x with defer := false } none " succeeded" = defaultEnd b true := endMsg_eq hx true none
      rw [hm]
      obtain ⟨k1, k2⟩ := end_line hq hW1 rfl hx.trans .success (defaultEnd b true) [] [] none none
      refine ⟨k1, ?_⟩
      have := k2.from (x := x) (w := w) rfl rfl w1 hW2 w2 (by rw [w3]; exact Nat.le_refl _) fun m hm => by rw [w4]; exact hm
      rw [← hx.logger]; exact this
  | some e =>
    have key : (exception_ env W a (some e) none [] []).2 = none ∧
        EndPublished l a .exception (env.text e b.name b.full) x w (exception_ env W a (some e) none [] []).1 := by
      obtain ⟨s, hs⟩ := hc.text (some e) x.name (!x.data.isEmpty)
      have htext : env.text e b.name b.full = s := by
        have : (!x.data.isEmpty) = b.full := by rw [hx.full]; cases b.full <;> rfl
        rw [this, hx.name] at hs
        simp only [Env.text, hs]
      simp only [exception_, hW1, hc.info, falsy, if_true, hs]
      generalize hV : World.setAct _ a _ = V
      have hV1 : ∃ y, V.acts a = some y ∧ y.name = x.name ∧ y.parent = x.parent ∧ y.defer = false ∧ y.isTrans = true ∧ y.logger = l := by
        rw [← hV]; exact ⟨_, if_pos rfl, rfl, rfl, rfl, hx.trans, hx.logger⟩
      have hV2 : ∀ c, c ≠ a → V.acts c = w.acts c := by
        intro c hc; rw [← hV]; exact (if_neg hc).trans (hW2 c hc)
      have hVs : V.pub = w.pub ∧ V.active = w.active ∧ V.nextId = w.nextId + 1 ∧ V.logs = w.logs := by
        rw [← hV]; exact ⟨w1, w2, congrArg (· + 1) w3, w4⟩
      obtain ⟨v1, v2, v3, v4⟩ := hVs
      generalize mkEvent _ a x.logger .exception .exception _ s [] (some e) = ev
      obtain ⟨q1, q2, q3, q4, q5, q6⟩ := publishExc_same hq V x.logger ev
      rcases hU : publishExc env V x.logger ev with ⟨U, z⟩
      rw [hU] at q1 q2 q3 q4 q5 q6
      dsimp only at q1 q2 q3 q4 q5 q6
      subst q1
      obtain ⟨y, y1, y2, y3, y4, y5, y6⟩ := hV1
      simp only [andThen]
      obtain ⟨k1, k2⟩ := end_line hq (w := U) (a := a) (x := y) (by rw [q2]; exact y1) y4 y5 .exception s [] [] (some (W.now env)) (some e)
      refine ⟨k1, ?_⟩
      rw [htext, ← y6]
      exact k2.from y2 y3 (by rw [q5, v1]) (fun c hc => by rw [q2, hV2 c hc]) (by rw [q3, v2]) (by rw [q4, v3]; exact Nat.le_succ _)
        fun m hm => by rw [q6, v4]; exact hm
    dsimp only
    rcases hU : exception_ env W a (some e) none [] [] with ⟨U, z⟩
    rw [hU] at key
    obtain ⟨k1, k2⟩ := key
    dsimp only at k1 k2
    subst k1
    exact ⟨rfl, k2⟩

omit hq in
/-- Leaving a block. -/
theorem exit_ran (hc : env.Calm) {w : World} (hg : Good env w) {l : LogId} (hl : (w.logs l).isSome) {a : ActId} {b : Blk} {x : Act}
    (hx : InBlk w l a b x) (exc : Option Exc) :
    (exit env w a exc).2 = .ok (decide (x.reraise = .bool false)) ∧ (exit env w a exc).1.active l = x.parent ∧
    Ran env l (some a) w (exit env w a exc).1
      [⟨.end_, (blockEnd env b exc).1, b.name, b.inside, (blockEnd env b exc).2⟩] := by
  have hheld : w.held a = true := held_of hx
  have hrun : (exit env w a exc).1 = run env w [.exit a exc] := by
    simp only [run, List.foldl_cons, List.foldl_nil, stepItem, hheld, if_true]
  have hins := hx.inside.run hg [.exit a exc]
  rw [← hrun] at hins
  obtain ⟨h1, h2⟩ := exitPublish_line hc hx exc
  generalize hr : exit env w a exc = r at *
  simp only [exit, hx.here] at hr
  rcases hU : exitPublish env w a exc with ⟨U, z⟩
  rw [hU] at h1 h2 hr
  dsimp only at h1 h2
  subst h1
  dsimp only at hr
  subst hr
  obtain ⟨ev, e1, e2, e3, e4, e5⟩ := h2.ev
  obtain ⟨y, y1, y2, y3⟩ := h2.here
  refine ⟨rfl, if_pos hx.logger.symm, ⟨⟨_, hrun, kept_one fun _ => ⟨trivial, trivial⟩⟩, ⟨[(.end_, ev)], e5, ?_, ?_⟩, ?_, h2.next, h2.logs l hl⟩⟩
  · simp only [List.map_cons, List.map_nil]
    rw [viewEv_of (w := U.setActive x.logger x.parent) (a := a) (x := y) y1 (y3 ▸ hins) e1, e3, e4, y2, hx.name]
  · simp only [List.mem_singleton, forall_eq]
    exact ⟨by simp, e2⟩
  · intro c _ hc
    exact h2.others c fun e => hc (by rw [e])

end

/-- What is done in a block counts for the block around it. -/
theorem Ran.inner {env : Env} {l : LogId} {c : Option ActId} {a : ActId} {w w' w'' : World} {ls ls' : List Line} (hg : Good env w)
    (h : Ran env l c w w' ls) (h' : Ran env l (some a) w' w'' ls') (ha : w.nextId ≤ a) : Ran env l c w w'' (ls ++ ls') := by
  have hf : ∀ b, b < w.nextId → w''.acts b = w'.acts b := fun b hb =>
    h'.frame b (Nat.lt_of_lt_of_le hb h.next) fun e => by cases e; exact absurd ha (Nat.not_le.2 hb)
  have hg' := h.good hg
  obtain ⟨i, rfl, ki⟩ := h.its
  obtain ⟨j, rfl, kj⟩ := h'.its
  obtain ⟨n, n1, n2, n3⟩ := h.pub
  obtain ⟨m, m1, m2, m3⟩ := h'.pub
  refine ⟨⟨i ++ j, (run_append env w i j).symm, fun it h => (List.mem_append.1 h).elim (ki it) (kj it)⟩,
    ⟨n ++ m, by rw [m1, n1, List.append_assoc], ?_, ?_⟩, ?_, Nat.le_trans h.next h'.next, h'.log⟩
  · rw [List.map_append, List.map_append, m2]
    congr 1
    rw [← n2]
    apply List.map_congr_left
    intro p hp
    have hm : viewEv (run env w i) p ∈ ls.map some := by rw [← n2]; exact List.mem_map_of_mem hp
    obtain ⟨ln, -, e⟩ := List.mem_map.1 hm
    rw [← e]
    exact viewEv_run hg' j e.symm
  · intro p hp
    rcases List.mem_append.1 hp with hp | hp
    · exact n3 p hp
    · exact m3 p hp
  · intro b hb hc
    rw [hf b hb, h.frame b hb hc]

theorem exec_leave (env : Env) (x : Option Exc) (w : World) : exec env (Prog.leave x) w = (w, x) := by
  cases x <;> rfl

/-- A script does what its transcript says. -/
theorem script_ran {env : Env} (hc : env.Calm) {l : LogId} (p : Script) : ∀ {w : World} (_ : Good env w) (_ : (w.logs l).isSome)
    {c : Option ActId} {b : Option Blk} (_ : p.Ok) (_ : At w l c b) (k : Option Exc → Prog),
    ∃ w', exec env (p.compile l c k) w = exec env (k (p.lines env.text b).2.2) w' ∧ At w' l c (p.lines env.text b).2.1 ∧
      Ran env l c w w' (p.lines env.text b).1 := by
  induction p with
  | skip => intro w hg hl c b _ h k; exact ⟨w, rfl, h, Ran.refl env c hl⟩
  | raise e => intro w hg hl c b _ h k; exact ⟨w, rfl, h, Ran.refl env c hl⟩
  | seq p q ihp ihq =>
    intro w hg hl c b hok h k
    obtain ⟨w1, e1, a1, r1⟩ := ihp hg hl hok.1 h fun x => match x with | some e => k (some e) | none => q.compile l c k
    simp only [Script.compile, Script.lines]
    rcases hp : p.lines env.text b with ⟨ls, b', x⟩
    rw [hp] at e1 a1 r1
    cases x with
    | some e => exact ⟨w1, e1, a1, r1⟩
    | none =>
      obtain ⟨w2, e2, a2, r2⟩ := ihq (r1.good hg) r1.log hok.2 a1 k
      exact ⟨w2, e1.trans e2, a2, r1.trans hg r2⟩
  | «catch» p q ihp ihq =>
    intro w hg hl c b hok h k
    obtain ⟨w1, e1, a1, r1⟩ := ihp hg hl hok.1 h fun x => match x with | some _ => q.compile l c k | none => k none
    simp only [Script.compile, Script.lines]
    rcases hp : p.lines env.text b with ⟨ls, b', x⟩
    rw [hp] at e1 a1 r1
    cases x with
    | none => exact ⟨w1, e1, a1, r1⟩
    | some e =>
      obtain ⟨w2, e2, a2, r2⟩ := ihq (r1.good hg) r1.log hok.2 a1 k
      exact ⟨w2, e1.trans e2, a2, r1.trans hg r2⟩
  | warn m =>
    intro w hg hl c b _ h k
    cases c <;> cases b
    · exact ⟨w, rfl, h, Ran.refl env _ hl⟩
    · exact h.elim
    · exact h.elim
    · obtain ⟨h1, h2, h3⟩ := warn_ran hc.quiet hg hl h m
      exact ⟨_, by simp only [Script.compile, exec, h1]; rfl, h2, h3⟩
  | set key v =>
    intro w hg hl c b _ h k
    cases c <;> cases b
    · exact ⟨w, rfl, h, Ran.refl env _ hl⟩
    · exact h.elim
    · exact h.elim
    · obtain ⟨h1, h2, h3⟩ := set_ran hg hl h key v
      exact ⟨_, by simp only [Script.compile, exec, h1]; rfl, h2, h3⟩
  | finish good m =>
    intro w hg hl c b _ h k
    cases c <;> cases b
    · exact ⟨w, rfl, h, Ran.refl env _ hl⟩
    · exact h.elim
    · exact h.elim
    · obtain ⟨h1, h2, h3⟩ := finish_ran hg hl h good m
      exact ⟨_, by simp only [Script.compile, exec, h1]; rfl, h2, h3⟩
  | comment m =>
    intro w hg hl c b _ h k
    obtain ⟨h1, h2, h3⟩ := comment_ran hc.quiet hg hl h m
    exact ⟨_, by simp only [Script.compile, exec, h1]; rfl, h2, h3⟩
  | block level name data swallow p ih =>
    intro w hg hl c b hok h k
    obtain ⟨m1, m2, m3, m4, x, x1, x2, x3, x4, x5, x6, x7, x8, x9, x10⟩ := make_ran (env := env) hg hl h level name data swallow hok.1
    simp only [Script.compile, exec, m1]
    generalize hw1 : (step env w (.newAction l level name (if swallow then ("reraise", .bool false) :: data else data))).1 = w1 at *
    have hg1 := m3.good hg
    have hins : Inside w1 x.parent (b.map Blk.name) := by rw [x9]; exact m2.parent.2
    obtain ⟨n1, n2, n3⟩ := enter_ran hc.quiet hg1 m3.log x1 x2 x4 x6 x7 hins
    have hheld : w1.held w.nextId = true := held_iff.2 ⟨x, x1, x4⟩
    simp only [hheld, if_true, n1]
    generalize hw2 : (enter env w1 w.nextId).1 = w2 at *
    have hg2 := n3.good hg1
    obtain ⟨w3, e3, a3, r3⟩ := ih hg2 n3.log hok.2 n2 Prog.leave
    rw [exec_leave] at e3
    rw [e3]
    simp only [Script.lines]
    rw [x3, x8] at a3 r3
    rw [x3] at n3
    rw [x3, x8]
    rcases hp : p.lines env.text (some ⟨name, b.map Blk.name, !data.isEmpty, none⟩) with ⟨ls, b', o⟩
    rw [hp] at a3 r3
    dsimp only at a3 r3 ⊢
    cases b' with
    | none => exact a3.elim
    | some b' =>
      obtain ⟨act3, y, hy⟩ := a3
      have r13 := n3.trans hg1 r3
      obtain ⟨its, hits, -⟩ := r13.its
      obtain ⟨z, hz, hf⟩ := hg1.fixed_run its x1
      rw [← hits, hy.here] at hz
      cases hz
      simp only [Act.fixed, Prod.mk.injEq] at hf
      obtain ⟨o1, o2, o3⟩ := exit_ran hc (r3.good hg2) r3.log hy o
      have r14 := r13.trans hg1 o3
      have hname : b'.name = name := by rw [← hy.name, hf.2.2.1, x3]
      have hins3 := hins.run hg1 its
      rw [← hits, ← hf.2.2.2.2.1] at hins3
      have hinside : b'.inside = b.map Blk.name := hy.inside.unique hins3
      have hout : withOutcome o (exit env w3 w.nextId o).2 = if swallow then none else o := by
        rw [o1, hf.2.2.2.1]
        cases o with
        | none => cases swallow <;> rfl
        | some e =>
          cases swallow with
          | true => simp [withOutcome, x10.2 rfl]
          | false => simp [withOutcome, show ¬ x.reraise = .bool false from fun h => by simpa using x10.1 h]
      rw [hout]
      have hact4 : (exit env w3 w.nextId o).1.active l = c := by rw [o2, hf.2.2.2.2.1, x9]
      rw [hname, hinside] at r14
      obtain ⟨its4, hits4, -⟩ := r14.its
      refine ⟨(exit env w3 w.nextId o).1, rfl, ?_, ?_⟩
      · exact m2.keep hg1 its4 hits4 hact4 fun a ha => r14.frame a (by subst ha; exact m2.lt hg1) fun e => by
          cases e
          subst ha
          exact absurd (h.lt hg) (Nat.lt_irrefl _)
      · have := m3.inner hg r14 (Nat.le_refl _)
        simp only [blockEnd, hname] at this
        simp only [Option.getD_some]
        cases o with
        | some e => simpa using this
        | none => cases hs : b'.said <;> simpa [hs] using this

end Verif
