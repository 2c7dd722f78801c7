import Verif.Props.Interrupt
import Verif.Props.SharedSeq
import Verif.Model.Prog
/-!
# The programs of `Model/Interrupt.lean` are programs of the world model
-/
namespace Verif.Interrupt

/-- The keywords of an action that keeps exceptions back or not. -/
def kwOf (swallow : Bool) : Dict := if swallow then [("reraise", .bool false)] else []

/-- The program for the world model: `l` is the logger, `exc` the exception that is raised, `c` the action of the innermost
block, `kn` and `ke` what comes afterwards. -/
def translate (l : LogId) (exc : Exc) : Prog → Option ActId → Verif.Prog → (Exc → Verif.Prog) → Verif.Prog
  | .skip, _, kn, _ => kn
  | .seq p q, c, kn, ke => translate l exc p c (translate l exc q c kn ke) ke
  | .mark st, c, kn, _ =>
    match c with
    | none => kn
    | some a => .call (if st = .failure then .failure a none [] [] else .success a none [] []) fun _ _ => kn
  | .raise, _, _, ke => ke exc
  | .try_ p q, c, kn, ke => translate l exc p c kn fun _ => translate l exc q c kn ke
  | .block swallow p, _, kn, ke =>
    .call (.newAction l 20 "block" (kwOf swallow)) fun _ r =>
      match r with
      | .newAct a => .block a (fun _ => translate l exc p (some a) .done .raise) fun _ r =>
          match r with
          | none => kn
          | some e => ke e
      | _ => .done

/-- The program marks actions as ended in success or failure only. -/
def Prog.marksOk : Prog → Prop
  | .mark st => st = .success ∨ st = .failure
  | .seq p q => p.marksOk ∧ q.marksOk
  | .try_ p q => p.marksOk ∧ q.marksOk
  | .block _ p => p.marksOk
  | _ => True

/-- What is published, with the world's name for the action. -/
def Out.seen (f : Nat → ActId) : Out → Kind × ActId × Status
  | .begin a => (.begin, f a, .begin)
  | .fin a st => (.end_, f a, st)

/-- The action an output is about. -/
def Out.whose : Out → ActId
  | .begin a => a
  | .fin a _ => a

/-- The world looks like the state, whose `i`-th action is called `f i` there. -/
structure Sim (l : LogId) (pub0 : List (Kind × Event)) (f : Nat → ActId) (s : S) (w : World) : Prop where
  lt : ∀ i < s.next, f i < w.nextId
  active : w.active l = s.active.map f
  activeLt : ∀ a, s.active = some a → a < s.next
  log : (w.logs l).isSome = true
  pub : ∃ new, w.pub = pub0 ++ new ∧ new.map (fun p => (p.1, p.2.act, p.2.status)) = s.out.map (Out.seen f)
  outLt : ∀ o ∈ s.out, o.whose < s.next

/-- The action of the innermost block, whose recorded end is `en`. -/
structure Inner (l : LogId) (x : Verif.Act) (a : ActId) (en : Option Status) : Prop where
  logger : x.logger = l
  handle : x.handle = true
  trans : x.isTrans = true
  defer : x.defer = true
  begun : x.beginEv.isSome = true
  ended : x.endEv.map (·.status) = en
  own : ∀ ev, x.endEv = some ev → ev.act = a

/-- Only action `a` changes. -/
structure Only (a : ActId) (w w' : World) : Prop where
  active : w'.active = w.active
  next : w.nextId ≤ w'.nextId
  acts : ∀ b, b ≠ a → w'.acts b = w.acts b
  logs : ∀ l, (w.logs l).isSome = true → (w'.logs l).isSome = true

theorem Only.trans {a : ActId} {w w' w'' : World} (h : Only a w w') (h' : Only a w' w'') : Only a w w'' :=
  ⟨h'.active.trans h.active, Nat.le_trans h.next h'.next, fun b hb => (h'.acts b hb).trans (h.acts b hb),
    fun l hl => h'.logs l (h.logs l hl)⟩

theorem Only.setAct (w : World) (a : ActId) (x : Verif.Act) : Only a w (w.setAct a x) :=
  ⟨rfl, Nat.le_refl _, fun b hb => by simp [World.setAct, hb], fun _ h => h⟩

theorem Only.tick (w : World) (a : ActId) : Only a w w.tick := ⟨rfl, Nat.le_refl _, fun _ _ => rfl, fun _ h => h⟩

theorem Only.bump (w : World) (a : ActId) : Only a w w.bump := ⟨rfl, Nat.le_succ _, fun _ _ => rfl, fun _ h => h⟩

theorem callAll_quiet {env : Env} (hq : env.Quiet) (os : List Obs) (v : World) :
    callAll env os v = ({ v with trace := v.trace ++ os }, none) := by
  induction os generalizing v with
  | nil => simp [callAll]
  | cons o os ih => simp [callAll, callback, hq v.trace o, ih]

/-- Publishing to sinks that do not raise. -/
theorem publish_only {env : Env} (hq : env.Quiet) (w : World) (a : ActId) (l : LogId) (k : Kind) (e : Event) :
    ∃ w', publish env w l k e = (w', none) ∧ Only a w w' ∧ w'.acts = w.acts ∧ w'.pub = w.pub ++ [(k, e)] := by
  simp only [publish]
  split
  · exact ⟨_, rfl, ⟨rfl, Nat.le_refl _, fun _ _ => rfl, fun _ h => h⟩, rfl, rfl⟩
  · split
    · refine ⟨_, rfl, ⟨rfl, Nat.le_refl _, fun _ _ => rfl, fun m h => ?_⟩, rfl, rfl⟩
      simp only [World.setLog]
      split <;> simp_all
    · rw [callAll_quiet hq]
      exact ⟨_, rfl, ⟨rfl, Nat.le_refl _, fun _ _ => rfl, fun _ h => h⟩, rfl, rfl⟩

theorem publishExc_only {env : Env} (hq : env.Quiet) (w : World) (a : ActId) (l : LogId) (e : Event) :
    ∃ w', publishExc env w l e = (w', none) ∧ Only a w w' ∧ w'.acts = w.acts ∧ w'.pub = w.pub := by
  simp only [publishExc]
  split
  · exact ⟨_, rfl, ⟨rfl, Nat.le_refl _, fun _ _ => rfl, fun _ h => h⟩, rfl, rfl⟩
  · rw [callAll_quiet hq]
    exact ⟨_, rfl, ⟨rfl, Nat.le_refl _, fun _ _ => rfl, fun _ h => h⟩, rfl, rfl⟩

/-- `_end` in a block. -/
theorem end_only {env : Env} (hq : env.Quiet) (w : World) (a : ActId) {x : Verif.Act} (hx : w.acts a = some x)
    (ht : x.isTrans = true) (st : Status) (m : String) (fs : List Val) (kw : Dict) (t : Option Int) (exc : Option Exc) :
    ∃ w' ev d, end_ env w a st m fs kw t exc = (w', none) ∧ Only a w w' ∧ ev.act = a ∧ ev.status = st ∧
      w'.acts a = some { x with data := d, endEv := some ev } ∧
      w'.pub = w.pub ++ (if x.defer then [] else [(.end_, ev)]) := by
  have key : ∀ (v : World) (tm : Int), Only a w v → v.acts a = some { x with data := x.data.update kw } → v.pub = w.pub →
      ∃ w' ev d, endWith env v a st m fs tm exc = (w', none) ∧ Only a w w' ∧ ev.act = a ∧ ev.status = st ∧
        w'.acts a = some { x with data := d, endEv := some ev } ∧
        w'.pub = w.pub ++ (if x.defer then [] else [(.end_, ev)]) := by
    intro v tm ho hv hp
    simp only [endWith, hv]
    by_cases hd : x.defer = true
    · rw [if_pos hd]
      refine ⟨_, mkEvent v a x.logger .end_ st tm m fs exc, x.data.update kw, rfl,
        (ho.trans (Only.bump v a)).trans (Only.setAct ..), rfl, rfl, ?_, ?_⟩
      · simp [World.setAct]
      · rw [if_pos hd, List.append_nil]; exact hp
    · rw [if_neg hd]
      obtain ⟨w', h1, h2, h3, h4⟩ := publish_only hq
        (v.bump.setAct a { x with data := x.data.update kw, endEv := some (mkEvent v a x.logger .end_ st tm m fs exc) }) a
        x.logger .end_ (mkEvent v a x.logger .end_ st tm m fs exc)
      refine ⟨w', mkEvent v a x.logger .end_ st tm m fs exc, x.data.update kw, h1,
        ((ho.trans (Only.bump v a)).trans (Only.setAct ..)).trans h2, rfl, rfl, ?_, ?_⟩
      · rw [h3]; simp [World.setAct]
      · rw [h4, if_neg hd]
        show v.pub ++ _ = _
        rw [hp]
  have hs := Only.setAct w a { x with data := x.data.update kw }
  have ha : (w.setAct a { x with data := x.data.update kw }).acts a = some { x with data := x.data.update kw } := by
    simp [World.setAct]
  simp only [end_, hx]
  rw [if_pos ht]
  cases t with
  | none => exact key _ _ (hs.trans (Only.tick _ a)) ha rfl
  | some t =>
    dsimp only
    split
    · exact key _ _ (hs.trans (Only.tick _ a)) ha rfl
    · exact key _ _ hs ha rfl

/-- `__enter__`. -/
theorem enter_only {env : Env} (hq : env.Quiet) (w : World) (a : ActId) {x : Verif.Act} (hx : w.acts a = some x)
    (hb : x.beginEv = none) :
    ∃ w' ev, enter env w a = (w', none) ∧ w'.active = (w.setActive x.logger (some a)).active ∧ w.nextId ≤ w'.nextId ∧
      (∀ b, b ≠ a → w'.acts b = w.acts b) ∧ (∀ l, (w.logs l).isSome = true → (w'.logs l).isSome = true) ∧
      ev.act = a ∧ ev.status = .begin ∧
      (∃ d, w'.acts a = some { x with data := d, isTrans := true, defer := true, beginEv := some ev }) ∧
      w'.pub = w.pub ++ [(.begin, ev)] := by
  simp only [enter, hx, begin_]
  have ha : ((w.setAct a { x with isTrans := true, defer := true }).setActive x.logger (some a)).acts a =
      some { x with isTrans := true, defer := true } := by simp [World.setAct, World.setActive]
  rw [ha]
  dsimp only
  split
  · rename_i h; rw [hb] at h; cases h
  generalize he : mkEvent ((w.setAct a { x with isTrans := true, defer := true }).setActive x.logger (some a)) a x.logger .begin
    .begin _ _ _ none = e
  have h1 : e.act = a := by rw [← he]; rfl
  have h2 : e.status = .begin := by rw [← he]; rfl
  obtain ⟨w', p1, p2, p3, p4⟩ := publish_only hq (World.setAct
    ((w.setAct a { x with isTrans := true, defer := true }).setActive x.logger (some a)).tick.bump a
    { x with data := x.data.update [], isTrans := true, defer := true, beginEv := some e }) a x.logger .begin e
  refine ⟨w', e, p1, ?_, ?_, ?_, ?_, h1, h2, ⟨x.data.update [], ?_⟩, ?_⟩
  · rw [p2.active]; rfl
  · exact Nat.le_trans (Nat.le_succ _) p2.next
  · intro b hb'
    rw [p2.acts b hb']
    simp [World.setAct, World.setActive, World.tick, World.bump, hb']
  · intro l hl; exact p2.logs l hl
  · rw [p3]; simp [World.setAct]
  · rw [p4]; rfl

/-- `__exit__`. -/
theorem exit_only {env : Env} (hc : env.Calm) (w : World) (a : ActId) {x : Verif.Act} (hx : w.acts a = some x) {l : LogId}
    {en : Option Status} (hi : Inner l x a en) (exc : Option Exc) :
    ∃ w' ev, exit env w a exc = (w', .ok (x.reraise = .bool false)) ∧
      w'.active = (w.setActive l x.parent).active ∧ w.nextId ≤ w'.nextId ∧
      (∀ b, b ≠ a → w'.acts b = w.acts b) ∧ (∀ l, (w.logs l).isSome = true → (w'.logs l).isSome = true) ∧
      ev.act = a ∧ ev.status = (if exc.isSome then .exception else en.getD .success) ∧
      w'.pub = w.pub ++ [(.end_, ev)] := by
  have key : ∃ w' ev, exitPublish env w a exc = (w', none) ∧ Only a w w' ∧ ev.act = a ∧
      ev.status = (if exc.isSome then .exception else en.getD .success) ∧ w'.pub = w.pub ++ [(.end_, ev)] := by
    have ha : (w.setAct a { x with defer := false }).acts a = some { x with defer := false } := by simp [World.setAct]
    simp only [exitPublish, hx]
    cases exc with
    | some e =>
      simp only [exception_, ha]
      rw [hc.info]
      obtain ⟨txt, ht⟩ := hc.text (some e) x.name (!x.data.isEmpty)
      simp only [falsy, if_true, ht]
      generalize he : mkEvent (w.setAct a { x with defer := false }).tick a x.logger .exception .exception _ txt [] (some e) = ev
      obtain ⟨w1, q1, q2, q3, q4⟩ := publishExc_only hc.quiet
        (World.setAct (World.bump (w.setAct a { x with defer := false }).tick) a
          { x with defer := false, excEvs := x.excEvs ++ [ev] }) a x.logger ev
      rw [q1]
      simp only [andThen]
      have h1 : w1.acts a = some { x with defer := false, excEvs := x.excEvs ++ [ev] } := by
        rw [q3]; simp [World.setAct]
      obtain ⟨w', fin, d, e1, e2, e3, e4, e5, e6⟩ := end_only hc.quiet w1 a h1 hi.trans .exception txt [] []
        (some ((w.setAct a { x with defer := false }).now env)) (some e)
      rw [e1]
      refine ⟨w', fin, rfl, ?_, e3, by simpa using e4, ?_⟩
      · exact ((((Only.setAct w a _).trans (Only.tick _ a)).trans (Only.bump _ a)).trans (Only.setAct ..)).trans (q2.trans e2)
      · rw [e6, q4]
        simp [World.setAct, World.bump, World.tick]
    | none =>
      dsimp only
      split
      · rename_i ev hend
        obtain ⟨w', p1, p2, p3, p4⟩ := publish_only hc.quiet (w.setAct a { x with defer := false }) a x.logger .end_ ev
        refine ⟨w', ev, p1, (Only.setAct ..).trans p2, hi.own ev hend, ?_, p4⟩
        · have := hi.ended
          rw [hend] at this
          simp only [Option.map_some] at this
          simp [← this]
      · rename_i hend
        simp only [success]
        rw [ha]
        dsimp only
        obtain ⟨w', fin, d, e1, e2, e3, e4, e5, e6⟩ := end_only hc.quiet (w.setAct a { x with defer := false }) a ha hi.trans .success
          (endMsg { x with defer := false } none " succeeded") [] [] none none
        rw [e1]
        refine ⟨w', fin, rfl, (Only.setAct ..).trans e2, e3, ?_, ?_⟩
        · have := hi.ended
          rw [hend] at this
          simp only [Option.map_none] at this
          simpa [← this] using e4
        · rw [e6]; simp [World.setAct]
  obtain ⟨w', ev, k1, k2, k3, k4, k5⟩ := key
  simp only [exit, hx, k1]
  refine ⟨_, ev, rfl, ?_, k2.next, k2.acts, k2.logs, k3, k4, k5⟩
  simp only [World.setActive, k2.active, hi.logger]

/-- What running a program does to the world, `r` being what it does in the small model. -/
structure After (l : LogId) (pub0 : List (Kind × Event)) (f : Nat → ActId) (s : S) (w : World) (c : Option ActId) (r : Res)
    (f' : Nat → ActId) (w' : World) : Prop where
  sim : Sim l pub0 f' r.s w'
  names : ∀ i < s.next, f' i = f i
  more : s.next ≤ r.s.next
  next : w.nextId ≤ w'.nextId
  others : ∀ b < w.nextId, c ≠ some b → w'.acts b = w.acts b
  inner : ∀ a x, c = some a → w.acts a = some x →
    ∃ y, w'.acts a = some y ∧ Inner l y a r.ended ∧ y.parent = x.parent ∧ y.reraise = x.reraise

theorem After.of_ended {l : LogId} {pub0 : List (Kind × Event)} {f f' : Nat → ActId} {s : S} {w w' : World} {c : Option ActId}
    {r r' : Res} (h : After l pub0 f s w c r f' w') (hs : r'.s = r.s) (he : r'.ended = r.ended) :
    After l pub0 f s w c r' f' w' :=
  ⟨hs ▸ h.sim, h.names, hs ▸ h.more, h.next, h.others, he ▸ h.inner⟩

theorem After.comp {l : LogId} {pub0 : List (Kind × Event)} {f f1 f2 : Nat → ActId} {s : S} {w w1 w2 : World}
    {c : Option ActId} {r1 r2 : Res} (h1 : After l pub0 f s w c r1 f1 w1) (h2 : After l pub0 f1 r1.s w1 c r2 f2 w2) :
    After l pub0 f s w c r2 f2 w2 where
  sim := h2.sim
  names i hi := (h2.names i (Nat.lt_of_lt_of_le hi h1.more)).trans (h1.names i hi)
  more := Nat.le_trans h1.more h2.more
  next := Nat.le_trans h1.next h2.next
  others b hb hc := (h2.others b (Nat.lt_of_lt_of_le hb h1.next) hc).trans (h1.others b hb hc)
  inner a x hc hx := by
    obtain ⟨y, y1, _, y3, y4⟩ := h1.inner a x hc hx
    obtain ⟨z, z1, z2, z3, z4⟩ := h2.inner a y hc y1
    exact ⟨z, z1, z2, z3.trans y3, z4.trans y4⟩

theorem exec_sim {env : Env} (hc : env.Calm) (l : LogId) (exc : Exc) (pub0 : List (Kind × Event)) (p : Prog) (hm : p.marksOk) :
    ∀ {s : S} {en : Option Status} {w : World} {f : Nat → ActId} {c : Option ActId}, Sim l pub0 f s w →
      (∀ a, c = some a → ∃ x, w.acts a = some x ∧ Inner l x a en ∧ a < w.nextId) →
      ∃ w' f', (∀ kn ke, Verif.exec env (translate l exc p c kn ke) w =
          Verif.exec env (if (exec p s en none).raised then ke exc else kn) w') ∧
        After l pub0 f s w c (exec p s en none) f' w' := by
  induction p with
  | skip =>
    intro s en w f c h hi
    refine ⟨w, f, fun kn ke => rfl, h, fun _ _ => rfl, Nat.le_refl _, Nat.le_refl _, fun _ _ _ => rfl, ?_⟩
    intro a x ha hx
    obtain ⟨y, y1, y2, -⟩ := hi a ha
    exact ⟨y, y1, y2, by rw [hx] at y1; cases y1; rfl, by rw [hx] at y1; cases y1; rfl⟩
  | raise =>
    intro s en w f c h hi
    refine ⟨w, f, fun kn ke => rfl, h, fun _ _ => rfl, Nat.le_refl _, Nat.le_refl _, fun _ _ _ => rfl, ?_⟩
    intro a x ha hx
    obtain ⟨y, y1, y2, -⟩ := hi a ha
    exact ⟨y, y1, y2, by rw [hx] at y1; cases y1; rfl, by rw [hx] at y1; cases y1; rfl⟩
  | mark st =>
    intro s en w f c h hi
    have hr : exec (.mark st) s en none = { s, ended := some st, fuel := none } := by simp [exec, steps]
    rw [hr]
    cases c with
    | none =>
      exact ⟨w, f, fun kn ke => rfl, h, fun _ _ => rfl, Nat.le_refl _, Nat.le_refl _, fun _ _ _ => rfl, by simp⟩
    | some a =>
      obtain ⟨x, hx, hin, hlt⟩ := hi a rfl
      have hheld : w.held a = true := by simp [World.held, hx, hin.handle]
      have key : ∃ w' ev d, (if st = .failure then failure env w a none [] [] else success env w a none [] []) = (w', none) ∧
          Only a w w' ∧ ev.act = a ∧ ev.status = st ∧ w'.acts a = some { x with data := d, endEv := some ev } ∧
          w'.pub = w.pub := by
        rcases hm with rfl | rfl
        · simp only [success, hx]
          obtain ⟨w', ev, d, e1, e2, e3, e4, e5, e6⟩ := end_only hc.quiet w a hx hin.trans .success
            (endMsg x none " succeeded") [] [] none none
          exact ⟨w', ev, d, by simpa using e1, e2, e3, e4, e5, by simpa [hin.defer] using e6⟩
        · simp only [failure, hx]
          obtain ⟨w', ev, d, e1, e2, e3, e4, e5, e6⟩ := end_only hc.quiet w a hx hin.trans .failure
            (endMsg x none " failed") [] [] none none
          exact ⟨w', ev, d, by simpa using e1, e2, e3, e4, e5, by simpa [hin.defer] using e6⟩
      obtain ⟨w', ev, d, k1, k2, k3, k4, k5, k6⟩ := key
      refine ⟨w', f, ?_, ⟨fun i hi => Nat.lt_of_lt_of_le (h.lt i hi) k2.next, by rw [k2.active]; exact h.active, h.activeLt,
        k2.logs l h.log, by rw [k6]; exact h.pub, h.outLt⟩, fun _ _ => rfl, Nat.le_refl _, k2.next, ?_, ?_⟩
      · intro kn ke
        simp only [translate, Verif.exec]
        by_cases hs : st = .failure
        · rw [if_pos hs] at k1 ⊢
          simp [Verif.step, guard, hheld, ret, k1]
        · rw [if_neg hs] at k1 ⊢
          simp [Verif.step, guard, hheld, ret, k1]
      · intro b _ hb
        exact k2.acts b (fun e => hb (by rw [e]))
      · intro a' x' ha' hx'
        simp only [Option.some.injEq] at ha'
        subst ha'
        rw [hx] at hx'
        simp only [Option.some.injEq] at hx'
        subst hx'
        refine ⟨_, k5, ⟨hin.logger, hin.handle, hin.trans, hin.defer, hin.begun, by simp [k4], ?_⟩, rfl, rfl⟩
        intro ev' he'
        simp only [Option.some.injEq] at he'
        rw [← he']; exact k3
  | seq p q ihp ihq =>
    intro s en w f c h hi
    obtain ⟨w1, f1, e1, a1⟩ := ihp hm.1 h hi
    by_cases hr : (exec p s en none).raised = true
    · refine ⟨w1, f1, ?_, ?_⟩
      · intro kn ke
        simp only [translate, e1, exec, hr, if_true]
      · simpa only [exec, hr, if_true] using a1
    · have hi1 : ∀ a, c = some a → ∃ x, w1.acts a = some x ∧ Inner l x a (exec p s en none).ended ∧ a < w1.nextId := by
        intro a ha
        obtain ⟨x, x1, x2, x3⟩ := hi a ha
        obtain ⟨y, y1, y2, -⟩ := a1.inner a x ha x1
        exact ⟨y, y1, y2, Nat.lt_of_lt_of_le x3 a1.next⟩
      obtain ⟨w2, f2, e2, a2⟩ := ihq hm.2 a1.sim hi1
      have hfuel : (exec p s en none).fuel = none := by rw [C106_uninterrupted]
      refine ⟨w2, f2, ?_, ?_⟩
      · intro kn ke
        simp only [translate, e1, exec, hr, hfuel]
        exact e2 kn ke
      · refine (a1.comp a2).of_ended ?_ ?_ <;> simp [exec, hr, hfuel]
  | try_ p q ihp ihq =>
    intro s en w f c h hi
    obtain ⟨w1, f1, e1, a1⟩ := ihp hm.1 h hi
    by_cases hr : (exec p s en none).raised = true
    · have hi1 : ∀ a, c = some a → ∃ x, w1.acts a = some x ∧ Inner l x a (exec p s en none).ended ∧ a < w1.nextId := by
        intro a ha
        obtain ⟨x, x1, x2, x3⟩ := hi a ha
        obtain ⟨y, y1, y2, -⟩ := a1.inner a x ha x1
        exact ⟨y, y1, y2, Nat.lt_of_lt_of_le x3 a1.next⟩
      obtain ⟨w2, f2, e2, a2⟩ := ihq hm.2 a1.sim hi1
      have hfuel : (exec p s en none).fuel = none := by rw [C106_uninterrupted]
      refine ⟨w2, f2, ?_, ?_⟩
      · intro kn ke
        simp only [translate, e1, exec, hr, hfuel, if_true]
        exact e2 kn ke
      · refine (a1.comp a2).of_ended ?_ ?_ <;> simp [exec, hr, hfuel]
    · refine ⟨w1, f1, ?_, ?_⟩
      · intro kn ke
        simp only [translate, e1, exec, hr, Bool.false_eq_true, if_false]
      · simpa only [exec, hr, Bool.false_eq_true, if_false] using a1
  | block sw p ih =>
    intro s en w f c h hi
    obtain ⟨L, hL⟩ := Option.isSome_iff_exists.1 h.log
    -- making the action
    let a := w.nextId
    let x : Verif.Act :=
      { logger := l, level := 20, name := "block", data := ((kwOf sw).erase "reraise").erase "parent_action"
        reraise := ((kwOf sw).get? "reraise").getD .none
        parent := w.active l
        beginEv := none, endEv := none, warnEvs := [], excEvs := []
        isTrans := false, defer := false, handle := true }
    let w1 : World := { w with nextId := w.nextId + 1 }.setAct a x
    have hnew : Verif.step env w (.newAction l 20 "block" (kwOf sw)) = (w1, .newAct a) := by
      simp only [Verif.step, hL]
      have hpar : initParent w l (kwOf sw) = w.active l := by cases sw <;> simp [kwOf, initParent, Dict.get?, asParent]
      simp only [newAction, hpar]
      rfl
    have hx1 : w1.acts a = some x := by simp [w1, World.setAct]
    have hheld : w1.held a = true := by simp [World.held, hx1, x]
    -- entering
    obtain ⟨w2, bev, b1, b2, b3, b4, b5, b6, b7, ⟨d, b8⟩, b9⟩ := enter_only hc.quiet w1 a hx1 rfl
    let f2 : Nat → ActId := fun i => if i = s.next then a else f i
    let s2 : S := ⟨s.next + 1, some s.next, s.out ++ [Out.begin s.next]⟩
    have hf2 : ∀ i < s.next, f2 i = f i := by
      intro i hi; simp [f2, Nat.ne_of_lt hi]
    have seen2 : s.out.map (Out.seen f2) = s.out.map (Out.seen f) := by
      apply List.map_congr_left
      intro o ho
      have := h.outLt o ho
      cases o <;> simp only [Out.whose] at this <;> simp [Out.seen, hf2 _ this]
    have hn2 : w.nextId < w2.nextId := Nat.lt_of_lt_of_le (Nat.lt_succ_self _) b3
    have sim2 : Sim l pub0 f2 s2 w2 := by
      refine ⟨?_, ?_, ?_, b5 l ?_, ?_, ?_⟩
      · intro i hi
        rcases Nat.lt_succ_iff_lt_or_eq.1 hi with h' | h'
        · rw [hf2 i h']; exact Nat.lt_trans (h.lt i h') hn2
        · subst h'; simpa [f2] using hn2
      · rw [b2]; simp [World.setActive, s2, f2, x]
      · intro b hb; simp only [s2, Option.some.injEq] at hb ⊢; subst hb; exact Nat.lt_succ_self _
      · exact h.log
      · obtain ⟨new, n1, n2⟩ := h.pub
        refine ⟨new ++ [(.begin, bev)], ?_, ?_⟩
        · rw [b9]
          show w.pub ++ _ = _
          rw [n1, List.append_assoc]
        · simp [n2, s2, seen2, Out.seen, b6, b7, f2]
      · intro o ho
        simp only [s2, List.mem_append, List.mem_singleton] at ho ⊢
        rcases ho with ho | rfl
        · exact Nat.lt_succ_of_lt (h.outLt o ho)
        · exact Nat.lt_succ_self _
    have inner2 : Inner l { x with data := d, isTrans := true, defer := true, beginEv := some bev } a none :=
      ⟨rfl, rfl, rfl, rfl, rfl, rfl, by intro ev hev; simp [x] at hev⟩
    -- the body
    obtain ⟨w3, f3, e3, a3⟩ := ih hm sim2 (c := some a) (en := none) (by
      intro a' ha'
      simp only [Option.some.injEq] at ha'
      subst ha'
      exact ⟨_, b8, inner2, hn2⟩)
    obtain ⟨y, y1, y2, y3, y4⟩ := a3.inner a _ rfl b8
    -- leaving
    let r := exec p s2 none none
    let eo : Option Exc := if r.raised then some exc else none
    obtain ⟨w4, eev, c1, c2, c3, c4, c5, c6, c7, c8⟩ := exit_only hc w3 a y1 y2 eo
    have hbody : Verif.exec env (translate l exc p (some a) .done .raise) w2 = (w3, eo) := by
      rw [e3]
      by_cases hr : (exec p s2 none none).raised = true
      · simp only [hr, if_true, Verif.exec, eo, r]
      · simp [hr, Verif.exec, eo, r]
    have hfuel : (exec p s2 none none).fuel = none := by rw [C106_uninterrupted]
    have hexec : exec (.block sw p) s en none =
        { s := ⟨r.s.next, s.active, r.s.out ++ [Out.fin s.next (if r.raised then .exception else r.ended.getD .success)]⟩
          ended := en, fuel := none, raised := r.raised && !sw, hit := r.hit.or none } := by
      simp only [exec, steps, enterSteps, exitSteps, Option.map_none, id]
      simp only [Bool.false_eq_true, if_false]
      show _ = _
      simp only [r, s2, hfuel, steps, Option.map_none, id, Bool.false_or]
    have hre : y.reraise = ((kwOf sw).get? "reraise").getD .none := y4
    have hpar : y.parent = w.active l := y3
    rw [hexec]
    refine ⟨w4, f3, ?_, ⟨?_, ?_, ?_, c5 l a3.sim.log, ?_, ?_⟩, ?_, ?_, ?_, ?_, ?_⟩
    · intro kn ke
      simp only [translate, Verif.exec, hnew, hheld, if_true, b1, hbody, c1]
      by_cases hr : r.raised = true
      · cases sw with
        | true =>
          have : y.reraise = .bool false := by rw [hre]; rfl
          simp [eo, hr, withOutcome, this]
        | false =>
          have : ¬ y.reraise = .bool false := by rw [hre]; simp [kwOf, Dict.get?]
          simp [eo, hr, withOutcome, this]
      · simp [eo, hr, withOutcome]
    · intro i hi; exact Nat.lt_of_lt_of_le (a3.sim.lt i hi) c3
    · rw [c2]
      simp only [World.setActive, if_true, hpar, h.active]
      cases hs : s.active with
      | none => rfl
      | some b =>
        have hb := h.activeLt b hs
        simp [a3.names b (Nat.lt_succ_of_lt hb), hf2 b hb]
    · intro b hb
      exact Nat.lt_of_lt_of_le (Nat.lt_succ_of_lt (h.activeLt b hb)) a3.more
    · obtain ⟨new, n1, n2⟩ := a3.sim.pub
      refine ⟨new ++ [(.end_, eev)], ?_, ?_⟩
      · rw [c8, n1, List.append_assoc]
      · have hfa : f3 s.next = a := by
          rw [a3.names s.next (Nat.lt_succ_self _)]; simp [f2]
        simp only [List.map_append, n2, List.map_cons, List.map_nil, Out.seen, hfa, c6, c7]
        by_cases hr : r.raised = true <;> simp [eo, hr, r]
    · intro o ho
      simp only [List.mem_append, List.mem_singleton] at ho
      rcases ho with ho | rfl
      · exact a3.sim.outLt o ho
      · exact Nat.lt_of_lt_of_le (Nat.lt_succ_self _) a3.more
    · intro i hi
      rw [a3.names i (Nat.lt_succ_of_lt hi), hf2 i hi]
    · exact Nat.le_trans (Nat.le_succ _) a3.more
    · exact Nat.le_trans (Nat.le_of_lt hn2) (Nat.le_trans a3.next c3)
    · intro b hb _
      have hne : b ≠ a := Nat.ne_of_lt hb
      rw [c4 b hne, a3.others b (Nat.lt_trans hb hn2) (by simpa using fun e : a = b => hne e.symm), b4 b hne]
      simp [w1, World.setAct, hne]
    · intro b z hcb hz
      obtain ⟨z', z1, z2, z3⟩ := hi b hcb
      have hne : b ≠ a := Nat.ne_of_lt z3
      have : w4.acts b = some z := by
        rw [c4 b hne, a3.others b (Nat.lt_trans z3 hn2) (by simpa using fun e : a = b => hne e.symm), b4 b hne]
        simp only [w1, World.setAct, hne, if_false]
        exact hz
      rw [hz] at z1
      simp only [Option.some.injEq] at z1
      subst z1
      exact ⟨z, this, z2, rfl, rfl⟩

/-- **C106**: a program of with blocks that is not interrupted does in the small-step model what it does in the world model if
the sinks do not raise: the same actions begin and end in the same order with the same status, the active action is the same at
the end, and the same exception comes out or none. -/
theorem C106_sequential {env : Env} (hc : env.Calm) (w : World) (l : LogId) (hl : (w.logs l).isSome = true)
    (ha : w.active l = none) (exc : Exc) (p : Prog) (hm : p.marksOk) :
    ∃ f : Nat → ActId,
      let r := exec p {} none none
      let r' := Verif.exec env (translate l exc p none .done .raise) w
      (∃ new, r'.1.pub = w.pub ++ new ∧ new.map (fun q => (q.1, q.2.act, q.2.status)) = r.s.out.map (Out.seen f)) ∧
      r'.1.active l = r.s.active.map f ∧
      r'.2 = if r.raised then some exc else none := by
  have h0 : Sim l w.pub (fun _ => 0) {} w :=
    ⟨by intro i hi; exact absurd hi (Nat.not_lt_zero _), by simpa using ha, (by intro a ha; cases ha), hl, ⟨[], by simp, rfl⟩,
      (by intro o ho; cases ho)⟩
  obtain ⟨w', f, e, a⟩ := exec_sim hc l exc w.pub p hm h0 (c := none) (en := none) (by intro a ha; cases ha)
  refine ⟨f, ?_⟩
  have he := e .done .raise
  dsimp only
  rw [he]
  by_cases hr : (exec p {} none none).raised = true
  · rw [if_pos hr, if_pos hr]
    exact ⟨a.sim.pub, a.sim.active, rfl⟩
  · rw [if_neg hr, if_neg hr]
    exact ⟨a.sim.pub, a.sim.active, rfl⟩

open Verif.Sample in
/-- An inner block that fails inside one that keeps the exception. -/
example : ∃ f : Nat → ActId,
    (Verif.exec quiet (translate 0 boom (.block true (.seq (.mark .success) (.block false .raise))) none .done .raise)
      (Verif.run quiet World.init setup)).1.pub.map (fun q => (q.1, q.2.act, q.2.status)) =
    [(.begin, f 0, .begin), (.begin, f 1, .begin), (.end_, f 1, .exception), (.end_, f 0, .exception)] ∧
    (Verif.exec quiet (translate 0 boom (.block true (.seq (.mark .success) (.block false .raise))) none .done .raise)
      (Verif.run quiet World.init setup)).2 = none := by
  obtain ⟨f, ⟨new, h1, h2⟩, -, h3⟩ := C106_sequential quiet_calm (Verif.run quiet World.init setup) 0 (by decide +kernel)
    (by decide +kernel) boom (.block true (.seq (.mark .success) (.block false .raise))) ⟨.inl rfl, trivial⟩
  have hp : (Verif.run quiet World.init setup).pub = [] := by decide +kernel
  refine ⟨f, ?_, ?_⟩
  · rw [h1, hp, List.nil_append, h2]; rfl
  · rw [h3]; rfl

end Verif.Interrupt
