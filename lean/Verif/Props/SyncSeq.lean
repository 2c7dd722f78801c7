import Verif.Props.SyncConc
import Verif.Props.Reentrant
import Verif.Props.ConcSeq
/-!
# The publishing of `Model/Logger.lean` is one of the schedules of `Model/SyncConc.lean`

and so are its `add_sink` and `set_sinks`; and its flush is the one of `Model/Reentrant.lean` with sinks that leave the logger
alone.  What is proved of all schedules, or all reactions, is therefore also true of the sequential model.
-/
namespace Verif.SyncConc

/-- Thread `t` goes on any number of times. -/
def Goes (has : SinkId → Kind → Bool) (t : Tid) (s s' : Sys) : Prop := ∃ n, run has s (List.replicate n (t, .go)) = s'

variable {has : SinkId → Kind → Bool} {t : Tid}

theorem run_append' (s : Sys) (a b : List (Tid × Act)) : run has s (a ++ b) = run has (run has s a) b :=
  List.foldl_append ..

theorem Goes.refl (s : Sys) : Goes has t s s := ⟨0, rfl⟩

theorem Goes.one {s s' : Sys} (h : step has s t .go = s') : Goes has t s s' := ⟨1, h⟩

theorem Goes.trans {s s' s'' : Sys} (h : Goes has t s s') (h' : Goes has t s' s'') : Goes has t s s'' := by
  obtain ⟨n, rfl⟩ := h
  obtain ⟨m, rfl⟩ := h'
  exact ⟨n + m, by rw [List.replicate_add, run_append']⟩

/-! ## Publishing -/

/-- What a system of threads records of a call of a hook. -/
def heard (t : Tid) : Obs → Option (Tid × SinkId × Kind × Event)
  | .hook i k e => some (t, i, k, e)
  | _ => none

theorem stack_at (s : Sys) (fs : List Frame) : (s.at t fs).stack t = fs := by simp [Sys.at]

theorem at_twice (s : Sys) (fs gs : List Frame) : (s.at t fs).at t gs = s.at t gs := by
  simp only [Sys.at, Sys.mk.injEq, true_and, and_true]
  funext t'; split <;> rfl

theorem at_self {s : Sys} {fs : List Frame} (h : s.stack t = fs) : s.at t fs = s := by
  cases s
  simp only [Sys.at, Sys.mk.injEq, true_and, and_true]
  funext t'
  dsimp only at h
  split <;> simp_all

/-- The loop over the hooks. -/
theorem iter_sim (env : Env) (k : Kind) (e : Event) (l : Nat) (fs : List Frame) :
    ∀ (is : List SinkId) (i : Nat) (s : Sys) (w : World), (s.heap l).drop i = is → s.stack t = .iter k e l i :: fs →
      ∃ new, (callAll env (is.map fun x => Obs.hook x k e) w).1 = { w with trace := w.trace ++ new } ∧
        match (callAll env (is.map fun x => Obs.hook x k e) w).2 with
        | none => Goes has t s ({ s with trace := s.trace ++ new.filterMap (heard t) }.at t fs)
        | some _ => ∃ s', Goes has t s s' ∧
            step has s' t .raise = { s with trace := s.trace ++ new.filterMap (heard t) }.at t fs
  | [], i, s, w, hd, hs => by
    refine ⟨[], by simp [callAll], ?_⟩
    simp only [List.map_nil, callAll, List.filterMap_nil, List.append_nil]
    apply Goes.one
    simp only [step, hs]
    rw [List.drop_eq_nil_iff] at hd
    rw [List.getElem?_eq_none hd]
  | x :: is, i, s, w, hd, hs => by
    have hx : (s.heap l)[i]? = some x := by
      have := congrArg List.head? hd
      simpa [List.head?_drop] using this
    have hd' : (s.heap l).drop (i + 1) = is := by
      rw [← List.drop_drop, hd]; rfl
    have h1 : Goes has t s ({ s with trace := s.trace ++ [(t, x, k, e)] }.at t (.inHook k e l (i + 1) :: fs)) := by
      apply Goes.one
      simp only [step, hs, hx]
    simp only [List.map_cons, callAll, callback]
    cases hr : env.raises w.trace (Obs.hook x k e) with
    | some y =>
      refine ⟨[Obs.hook x k e], rfl, _, h1, ?_⟩
      simp only [step, stack_at, at_twice]
      rfl
    | none =>
      dsimp only
      have h2 : Goes has t ({ s with trace := s.trace ++ [(t, x, k, e)] }.at t (.inHook k e l (i + 1) :: fs))
          ({ s with trace := s.trace ++ [(t, x, k, e)] }.at t (.iter k e l (i + 1) :: fs)) := by
        apply Goes.one
        simp only [step, stack_at, at_twice]
      obtain ⟨new, n1, n2⟩ := iter_sim env k e l fs is (i + 1)
        ({ s with trace := s.trace ++ [(t, x, k, e)] }.at t (.iter k e l (i + 1) :: fs))
        { w with trace := w.trace ++ [Obs.hook x k e] } hd' (stack_at ..)
      refine ⟨Obs.hook x k e :: new, by rw [n1]; simp, ?_⟩
      have he : { ({ s with trace := s.trace ++ [(t, x, k, e)] }.at t (.iter k e l (i + 1) :: fs)) with
            trace := ({ s with trace := s.trace ++ [(t, x, k, e)] }.at t (.iter k e l (i + 1) :: fs)).trace ++
              new.filterMap (heard t) }.at t fs =
          { s with trace := s.trace ++ (Obs.hook x k e :: new).filterMap (heard t) }.at t fs := by
        simp only [Sys.at, heard, List.filterMap_cons, List.append_assoc, List.singleton_append, Sys.mk.injEq, true_and,
          and_true]
        funext t'; split <;> rfl
      rw [he] at n2
      cases hc : (callAll env (is.map fun x => Obs.hook x k e) { w with trace := w.trace ++ [Obs.hook x k e] }).2 with
      | none => rw [hc] at n2; exact (h1.trans h2).trans n2
      | some y =>
        rw [hc] at n2
        obtain ⟨s', g, r⟩ := n2
        exact ⟨s', (h1.trans h2).trans g, r⟩

/-- The system has the sinks of the logger. -/
structure Has (s : Sys) (L : Log) : Prop where
  all : s.heap (s.ptr .all) = L.sinks
  hooks : ∀ k, s.heap (s.ptr (.hook k)) = L.hooks k
  inj : ∀ a b, s.ptr a = s.ptr b → a = b
  lt : ∀ a, s.ptr a < s.next

theorem Has.of_at {s : Sys} {L : Log} (h : Has s L) (fs : List Frame) : Has (s.at t fs) L :=
  ⟨h.all, h.hooks, h.inj, h.lt⟩

theorem init_has (L : Log) : Has (init L.sinks L.hooks) L := by
  refine ⟨rfl, ?_, ?_, ?_⟩
  · intro k; cases k <;> rfl
  · intro a b
    rcases a with _ | (_ | _ | _ | _ | _) <;> rcases b with _ | (_ | _ | _ | _ | _) <;> simp [init]
  · intro a
    rcases a with _ | (_ | _ | _ | _ | _) <;> simp [init]

/-- **C78**: publishing in the sequential model, whatever the sinks do, is what a thread of the concurrent model does that
publishes and is left alone: it makes the same calls in the same order, changes nothing else, and gets out by an exception if
the sequential one does. -/
theorem C78_sequential (env : Env) (w : World) (l : LogId) (L : Log) (hL : w.logs l = some L) (ha : L.async = false)
    (k : Kind) (e : Event) (s : Sys) (hs : Has s L) (hi : s.stack t = []) :
    ∃ new n, (publish env w l k e).1.trace = w.trace ++ new ∧
      run has s ((t, .publish k e) :: List.replicate n (t, .go) ++
          if (publish env w l k e).2.isSome then [(t, .raise)] else []) =
        { s with trace := s.trace ++ new.filterMap (heard t), pub := s.pub ++ [(t, k, e, L.hooks k)] } := by
  obtain ⟨new, n1, n2⟩ := iter_sim (has := has) (t := t) env k e (s.ptr (.hook k)) [] (L.hooks k) 0
    ({ s with pub := s.pub ++ [(t, k, e, L.hooks k)] }.at t [.iter k e (s.ptr (.hook k)) 0])
    { w with pub := w.pub ++ [(k, e)] } (by simpa [Sys.at] using hs.hooks k) (stack_at ..)
  have hp : publish env w l k e =
      callAll env ((L.hooks k).map fun x => Obs.hook x k e) { w with pub := w.pub ++ [(k, e)] } := by
    simp [publish, hL, ha, hookCalls]
  have h0 : step has s t (.publish k e) =
      { s with pub := s.pub ++ [(t, k, e, L.hooks k)] }.at t [.iter k e (s.ptr (.hook k)) 0] := by
    simp [step, hi, free, hs.hooks k]
  have hf : { ({ s with pub := s.pub ++ [(t, k, e, L.hooks k)] }.at t [.iter k e (s.ptr (.hook k)) 0]) with
        trace := ({ s with pub := s.pub ++ [(t, k, e, L.hooks k)] }.at t [.iter k e (s.ptr (.hook k)) 0]).trace ++
          new.filterMap (heard t) }.at t [] =
      { s with trace := s.trace ++ new.filterMap (heard t), pub := s.pub ++ [(t, k, e, L.hooks k)] } := by
    simp only [Sys.at, Sys.mk.injEq, true_and, and_true]
    funext t'; split <;> simp_all
  rw [hf] at n2
  rw [hp]
  simp only [List.cons_append]
  cases hc : (callAll env ((L.hooks k).map fun x => Obs.hook x k e) { w with pub := w.pub ++ [(k, e)] }).2 with
  | none =>
    rw [hc] at n2
    obtain ⟨n, hn⟩ := n2
    refine ⟨new, n, by rw [n1], ?_⟩
    show run has (step has s t (.publish k e)) _ = _
    rw [h0]
    simpa using hn
  | some y =>
    rw [hc] at n2
    obtain ⟨s', ⟨n, hn⟩, hr⟩ := n2
    refine ⟨new, n, by rw [n1], ?_⟩
    show run has (step has s t (.publish k e)) _ = _
    rw [h0, Option.isSome_some, if_pos rfl, run_append', hn]
    exact hr

/-! ## Changing the sinks -/

/-- Appending to the lists of the logger. -/
def Log.appended (L : Log) (x : SinkId) (ss : List Slot) : Log :=
  { L with
    sinks := if Slot.all ∈ ss then L.sinks ++ [x] else L.sinks
    hooks := fun k => if Slot.hook k ∈ ss then L.hooks k ++ [x] else L.hooks k }

theorem Has.append {s : Sys} {L : Log} (h : Has s L) (sl : Slot) (x : SinkId) : Has (s.append sl x) (Log.appended L x [sl]) := by
  refine ⟨?_, ?_, h.inj, h.lt⟩
  · by_cases hx : Slot.all = sl
    · subst hx; simp [Sys.append, Log.appended, h.all]
    · have : s.ptr .all ≠ s.ptr sl := fun e => hx (h.inj _ _ e)
      simp [Sys.append, Log.appended, this, hx, h.all]
  · intro k
    by_cases hx : Slot.hook k = sl
    · subst hx; simp [Sys.append, Log.appended, h.hooks]
    · have : s.ptr (.hook k) ≠ s.ptr sl := fun e => hx (h.inj _ _ e)
      simp [Sys.append, Log.appended, this, hx, h.hooks]

theorem append_at (s : Sys) (sl : Slot) (x : SinkId) (fs : List Frame) : (s.at t fs).append sl x = (s.append sl x).at t fs := rfl

/-- The part of `add_sink` that appends. -/
theorem adding_sim (x : SinkId) (fs : List Frame) : ∀ (ss : List Slot) (s : Sys) (L : Log), ss.Nodup → Has s L →
    s.stack t = .adding x ss :: fs →
    ∃ s', Goes has t s s' ∧ Has s' (Log.appended L x ss) ∧ s'.stack t = fs ∧ (∀ u ≠ t, s'.stack u = s.stack u) ∧
      s'.trace = s.trace ∧ s'.pub = s.pub
  | [], s, L, _, h, hs => by
    refine ⟨s.at t fs, Goes.one (by simp only [step, hs]), ?_, stack_at .., ?_, rfl, rfl⟩
    · have : Log.appended L x [] = L := by simp [Log.appended]
      rw [this]
      exact h.of_at fs
    · intro u hu; simp [Sys.at, hu]
  | sl :: ss, s, L, hn, h, hs => by
    obtain ⟨h1, h2⟩ := List.nodup_cons.1 hn
    obtain ⟨s', g, i1, i2, i3, i4, i5⟩ := adding_sim x fs ss ((s.append sl x).at t (.adding x ss :: fs))
      (Log.appended L x [sl]) h2 ((h.append sl x).of_at _) (stack_at ..)
    refine ⟨s', (Goes.one (by simp only [step, hs])).trans g, ?_, i2, ?_, i4, i5⟩
    · have : Log.appended (Log.appended L x [sl]) x ss = Log.appended L x (sl :: ss) := by
        simp only [Log.appended, Log.mk.injEq, List.mem_cons, List.not_mem_nil, or_false]
        refine ⟨?_, ?_, trivial, trivial, trivial, trivial⟩
        · by_cases ha : Slot.all = sl
          · subst ha; simp [h1]
          · simp [ha]
        · funext k
          by_cases ha : Slot.hook k = sl
          · subst ha; simp [h1]
          · simp [ha]
      rw [this] at i1
      exact i1
    · intro u hu
      rw [i3 u hu]
      simp [Sys.at, hu, Sys.append]

/-- `add_sink` from its test on. -/
theorem addStart_sim (env : Env) (x : SinkId) (fs : List Frame) (s : Sys) (L : Log) (h : Has s L)
    (hs : s.stack t = .addStart x :: fs) :
    ∃ s', Goes env.hasHook t s s' ∧ Has s' (addSink env L x) ∧ s'.stack t = fs ∧ (∀ u ≠ t, s'.stack u = s.stack u) ∧
      s'.trace = s.trace ∧ s'.pub = s.pub := by
  by_cases hx : x ∈ L.sinks
  · refine ⟨s.at t fs, Goes.one (by simp only [step, hs, h.all, hx, if_true]), ?_, stack_at .., ?_, rfl, rfl⟩
    · rw [addSink, if_pos hx]; exact h.of_at fs
    · intro u hu; simp [Sys.at, hu]
  · have h1 : step env.hasHook s t .go =
        s.at t (.adding x ((kinds.filter (env.hasHook x)).map .hook ++ [.all]) :: fs) := by
      simp only [step, hs, h.all, hx, if_false]
    have hinj : Function.Injective Slot.hook := fun a b e => by cases e; rfl
    have hn : ((kinds.filter (env.hasHook x)).map Slot.hook ++ [Slot.all]).Nodup := by
      rw [List.nodup_append]
      refine ⟨(List.nodup_map_iff hinj).2 (List.Nodup.filter _ (by decide)), by simp, ?_⟩
      intro a ha b hb
      simp only [List.mem_map] at ha
      simp only [List.mem_singleton] at hb
      obtain ⟨k, _, rfl⟩ := ha
      subst hb
      simp
    obtain ⟨s', g, i1, i2, i3, i4, i5⟩ := adding_sim (has := env.hasHook) (t := t) x fs _ _ L hn (h.of_at _)
      (stack_at s (.adding x ((kinds.filter (env.hasHook x)).map .hook ++ [.all]) :: fs))
    refine ⟨s', (Goes.one h1).trans g, ?_, i2, ?_, i4, i5⟩
    · have : Log.appended L x ((kinds.filter (env.hasHook x)).map Slot.hook ++ [Slot.all]) = addSink env L x := by
        rw [addSink, if_neg hx]
        simp only [Log.appended, Log.mk.injEq]
        refine ⟨by simp, ?_, trivial, trivial, trivial, trivial⟩
        funext k
        have : k ∈ kinds := by cases k <;> decide
        simp [this]
      rw [← this]
      exact i1
    · intro u hu
      rw [i3 u hu]
      simp [Sys.at, hu]

/-- **C80**: `add_sink` in the sequential model is what a thread of the concurrent model does that calls it and is left
alone. -/
theorem C80_add_sequential (env : Env) (L : Log) (x : SinkId) (s : Sys) (h : Has s L) (hi : s.stack t = []) :
    ∃ n, let s' := run env.hasHook s ((t, .addSink x) :: List.replicate n (t, .go))
      Has s' (addSink env L x) ∧ s'.stack = s.stack ∧ s'.trace = s.trace ∧ s'.pub = s.pub := by
  obtain ⟨s', ⟨n, hn⟩, i1, i2, i3, i4, i5⟩ := addStart_sim (t := t) env x [] _ L (h.of_at _)
    (stack_at s [.addStart x])
  refine ⟨n, ?_⟩
  have h0 : step env.hasHook s t (.addSink x) = s.at t [.addStart x] := by simp [step, hi, free]
  show Has (run env.hasHook (step env.hasHook s t (.addSink x)) _) _ ∧
    (run env.hasHook (step env.hasHook s t (.addSink x)) _).stack = _ ∧
    (run env.hasHook (step env.hasHook s t (.addSink x)) _).trace = _ ∧
    (run env.hasHook (step env.hasHook s t (.addSink x)) _).pub = _
  rw [h0, hn]
  refine ⟨i1, ?_, i4, i5⟩
  funext u
  by_cases hu : u = t
  · subst hu; rw [i2, hi]
  · rw [i3 u hu]; simp [Sys.at, hu]

/-- Emptying some of the lists of the logger. -/
def Log.emptied (L : Log) (ss : List Slot) : Log :=
  { L with
    sinks := if Slot.all ∈ ss then [] else L.sinks
    hooks := fun k => if Slot.hook k ∈ ss then [] else L.hooks k }

theorem Has.replace {s : Sys} {L : Log} (h : Has s L) (sl : Slot) : Has (s.replace sl) (Log.emptied L [sl]) := by
  have old : ∀ a, s.ptr a ≠ s.next := fun a => Nat.ne_of_lt (h.lt a)
  refine ⟨?_, ?_, ?_, ?_⟩
  · by_cases hx : Slot.all = sl
    · subst hx; simp [Sys.replace, Log.emptied]
    · simp [Sys.replace, Log.emptied, hx, old, h.all]
  · intro k
    by_cases hx : Slot.hook k = sl
    · subst hx; simp [Sys.replace, Log.emptied]
    · simp [Sys.replace, Log.emptied, hx, old, h.hooks]
  · intro a b
    simp only [Sys.replace]
    by_cases ha : a = sl <;> by_cases hb : b = sl <;> simp only [ha, hb, if_true, if_false]
    · simp
    · intro e; exact absurd e.symm (old b)
    · intro e; exact absurd e (old a)
    · exact h.inj a b
  · intro a
    simp only [Sys.replace]
    split
    · exact Nat.lt_succ_self _
    · exact Nat.lt_succ_of_lt (h.lt a)

/-- The part of `set_sinks` that makes new lists. -/
theorem emptying_sim (xs : List SinkId) (fs : List Frame) : ∀ (ss : List Slot) (s : Sys) (L : Log), Has s L →
    s.stack t = .setting ss xs :: fs →
    ∃ s', Goes has t s s' ∧ Has s' (Log.emptied L ss) ∧ s'.stack t = .setting [] xs :: fs ∧
      (∀ u ≠ t, s'.stack u = s.stack u) ∧ s'.trace = s.trace ∧ s'.pub = s.pub
  | [], s, L, h, hs => by
    refine ⟨s, Goes.refl s, ?_, hs, fun _ _ => rfl, rfl, rfl⟩
    have : Log.emptied L [] = L := by simp [Log.emptied]
    rw [this]; exact h
  | sl :: ss, s, L, h, hs => by
    obtain ⟨s', g, i1, i2, i3, i4, i5⟩ := emptying_sim xs fs ss ((s.replace sl).at t (.setting ss xs :: fs))
      (Log.emptied L [sl]) ((h.replace sl).of_at _) (stack_at ..)
    refine ⟨s', (Goes.one (by simp only [step, hs])).trans g, ?_, i2, ?_, i4, i5⟩
    · have : Log.emptied (Log.emptied L [sl]) ss = Log.emptied L (sl :: ss) := by
        simp only [Log.emptied, Log.mk.injEq, List.mem_cons, List.not_mem_nil, or_false]
        refine ⟨?_, ?_, trivial, trivial, trivial, trivial⟩
        · by_cases ha : Slot.all = sl <;> by_cases hb : Slot.all ∈ ss <;> simp [ha, hb]
        · funext k
          by_cases ha : Slot.hook k = sl <;> by_cases hb : Slot.hook k ∈ ss <;> simp [ha, hb]
      rw [this] at i1
      exact i1
    · intro u hu
      rw [i3 u hu]
      simp [Sys.at, hu, Sys.replace]

/-- The part of `set_sinks` that adds. -/
theorem refill_sim (env : Env) (fs : List Frame) : ∀ (xs : List SinkId) (s : Sys) (L : Log), Has s L →
    s.stack t = .setting [] xs :: fs →
    ∃ s', Goes env.hasHook t s s' ∧ Has s' (xs.foldl (addSink env) L) ∧ s'.stack t = fs ∧
      (∀ u ≠ t, s'.stack u = s.stack u) ∧ s'.trace = s.trace ∧ s'.pub = s.pub
  | [], s, L, h, hs => by
    refine ⟨s.at t fs, Goes.one (by simp only [step, hs]), h.of_at fs, stack_at .., ?_, rfl, rfl⟩
    intro u hu; simp [Sys.at, hu]
  | x :: xs, s, L, h, hs => by
    have h1 : step env.hasHook s t .go = s.at t (.addStart x :: .setting [] xs :: fs) := by simp only [step, hs]
    obtain ⟨s1, g1, i1, i2, i3, i4, i5⟩ := addStart_sim (t := t) env x (.setting [] xs :: fs) _ L (h.of_at _)
      (stack_at s (.addStart x :: .setting [] xs :: fs))
    obtain ⟨s2, g2, j1, j2, j3, j4, j5⟩ := refill_sim env fs xs s1 (addSink env L x) i1 i2
    refine ⟨s2, ((Goes.one h1).trans g1).trans g2, j1, j2, ?_, j4.trans i4, j5.trans i5⟩
    intro u hu
    rw [j3 u hu, i3 u hu]
    simp [Sys.at, hu]

/-- **C80**: `set_sinks` in the sequential model is what a thread of the concurrent model does that calls it and is left
alone. -/
theorem C80_set_sequential (env : Env) (L : Log) (xs : List SinkId) (s : Sys) (h : Has s L) (hi : s.stack t = []) :
    ∃ n, let s' := run env.hasHook s ((t, .setSinks xs) :: List.replicate n (t, .go))
      Has s' (setSinks env L xs) ∧ s'.stack = s.stack ∧ s'.trace = s.trace ∧ s'.pub = s.pub := by
  obtain ⟨s1, g1, i1, i2, i3, i4, i5⟩ := emptying_sim (has := env.hasHook) (t := t) xs [] slots _ L (h.of_at _)
    (stack_at s [.setting slots xs])
  have he : Log.emptied L slots = { L with sinks := [], hooks := fun _ => [] } := by
    simp only [Log.emptied, Log.mk.injEq]
    refine ⟨rfl, ?_, trivial, trivial, trivial, trivial⟩
    funext k
    have : Slot.hook k ∈ slots := by cases k <;> decide
    simp [this]
  rw [he] at i1
  obtain ⟨s2, g2, j1, j2, j3, j4, j5⟩ := refill_sim (t := t) env [] xs s1 _ i1 i2
  obtain ⟨n, hn⟩ := g1.trans g2
  refine ⟨n, ?_⟩
  have h0 : step env.hasHook s t (.setSinks xs) = s.at t [.setting slots xs] := by simp [step, hi, free]
  show Has (run env.hasHook (step env.hasHook s t (.setSinks xs)) _) _ ∧
    (run env.hasHook (step env.hasHook s t (.setSinks xs)) _).stack = _ ∧
    (run env.hasHook (step env.hasHook s t (.setSinks xs)) _).trace = _ ∧
    (run env.hasHook (step env.hasHook s t (.setSinks xs)) _).pub = _
  rw [h0, hn]
  refine ⟨j1, ?_, j4.trans i4, j5.trans i5⟩
  funext u
  by_cases hu : u = t
  · subst hu; rw [j2, hi]
  · rw [j3 u hu, i3 u hu]; simp [Sys.at, hu]

end Verif.SyncConc

namespace Verif.Reentrant

/-- Sinks that leave the logger alone. -/
def alone (n : Nat) (hooks : Kind → List SinkId) : Conf := ⟨n, hooks, fun _ _ _ _ => []⟩

theorem callHooks_alone (n : Nat) (hooks : Kind → List SinkId) (fl : St → Option St) (k : Kind) (e : Event) :
    ∀ (is : List SinkId) (s : St),
      callHooks (alone n hooks) fl k e is s = some { s with trace := s.trace ++ is.map fun i => Obs.hook i k e }
  | [], s => by simp [callHooks]
  | i :: is, s => by
    simp only [callHooks, alone, runCmds]
    have := callHooks_alone n hooks fl k e is { s with trace := s.trace ++ [Obs.hook i k e] }
    simp only [alone] at this
    rw [this]
    simp

theorem flush_alone (env : Env) (hq : env.Quiet) (l : LogId) (L : Log) (n : Nat) :
    ∀ (q : List (Kind × Event)) (w : World) (pub : List (Kind × Event)), (∀ p ∈ q, p.1 ≠ .exception) →
      flush (alone n L.hooks) (q.length + 1) ⟨q, w.trace, pub⟩ = some ⟨[], (drain env l L q w).1.trace, pub⟩ ∧
        (drain env l L q w).2 = none
  | [], w, pub, _ => by simp [flush, drain, World.setLog]
  | (k, e) :: q, w, pub, hk => by
    have hd : deliver env L k e (w.setLog l { L with queue := q }) =
        callAll env ((L.hooks k).map fun i => Obs.hook i k e) (w.setLog l { L with queue := q }) := by
      have := hk (k, e) (by simp)
      cases k <;> first | rfl | exact absurd rfl this
    have hc : ∀ (os : List Obs) (v : World), callAll env os v = ({ v with trace := v.trace ++ os }, none) := by
      intro os
      induction os with
      | nil => intro v; simp [callAll]
      | cons o os ih => intro v; simp [callAll, callback, hq v.trace o, ih]
    simp only [drain, hd, hc, List.length_cons]
    rw [flush]
    dsimp only
    rw [callHooks_alone]
    dsimp only
    exact flush_alone env hq l L n q
      { (w.setLog l { L with queue := q }) with trace := w.trace ++ (L.hooks k).map fun i => Obs.hook i k e } pub
      (fun p hp => hk p (by simp [hp]))

/-- **C24**: a flush of the sequential model, if nothing raises and there are no preflush hooks, is the flush of sinks that do
not use the logger. -/
theorem C24_sequential (env : Env) (hq : env.Quiet) (w : World) (hr : Reachable env w) (l : LogId) (L : Log)
    (hL : w.logs l = some L) (hp : L.preflush = []) (n : Nat) :
    flush (alone n L.hooks) (L.queue.length + 1) ⟨L.queue, w.trace, w.pub⟩ =
        some ⟨[], (Verif.flush env w l).1.trace, (Verif.flush env w l).1.pub⟩ ∧
      Conc.queueOf (Verif.flush env w l).1 l = [] ∧ (Verif.flush env w l).2 = none := by
  have hk : ∀ p ∈ L.queue, p.1 ≠ .exception := fun p hp => hr.qInv.kinds hL p.1 p.2 hp
  obtain ⟨h1, h2⟩ := flush_alone env hq l L n L.queue w w.pub hk
  have hpub : ∀ (q : List (Kind × Event)) (v : World), (drain env l L q v).1.pub = v.pub := by
    intro q
    have hc : ∀ (os : List Obs) (v : World), callAll env os v = ({ v with trace := v.trace ++ os }, none) := by
      intro os
      induction os with
      | nil => intro v; simp [callAll]
      | cons o os ih => intro v; simp [callAll, callback, hq v.trace o, ih]
    induction q with
    | nil => intro v; rfl
    | cons a q ih =>
      intro v
      obtain ⟨k, e⟩ := a
      cases k <;> simp only [drain, deliver, noteAll, hc] <;> exact ih _
  simp only [Verif.flush, hL, hp, runPreflush]
  cases hd : drain env l L L.queue w with
  | mk w2 r =>
    have h3 := hpub L.queue w
    rw [hd] at h1 h2 h3
    dsimp only at h1 h2 h3
    subst h2
    dsimp only
    refine ⟨?_, by simp [Conc.queueOf, World.setLog], rfl⟩
    rw [h1, ← h3]
    rfl

end Verif.Reentrant

namespace Verif.SyncConc

/-! ### Cases -/

open Verif.Sample in
/-- An asynchronous logger with two events queued. -/
def queuedWorld : World :=
  Verif.run quiet World.init (setupAsync ++ [mk "a", .op (.begin 0 none [] []), .op (.success 0 none [] [])])

open Verif.Sample in
example : ∃ L : Log, L.queue.length = 2 ∧
    Reentrant.flush (Reentrant.alone 5 L.hooks) 3 ⟨L.queue, queuedWorld.trace, queuedWorld.pub⟩ =
      some ⟨[], (Verif.flush quiet queuedWorld 0).1.trace, (Verif.flush quiet queuedWorld 0).1.pub⟩ ∧
    (Verif.flush quiet queuedWorld 0).1.trace.length = 4 := by
  obtain ⟨L, hL⟩ : ∃ L, queuedWorld.logs 0 = some L := Option.isSome_iff_exists.1 (by decide +kernel)
  have h2 : (queuedWorld.logs 0).map (fun L => (L.queue.length, L.preflush)) = some (2, []) := by decide +kernel
  rw [hL] at h2
  simp only [Option.map_some, Option.some.injEq, Prod.mk.injEq] at h2
  have h := (Reentrant.C24_sequential quiet (fun _ _ => rfl) queuedWorld (Reachable.run (Reachable.init _) _) 0 L hL h2.2 5).1
  rw [h2.1] at h
  exact ⟨L, h2.1, h, by decide +kernel⟩

open Verif.Sample in
/-- A synchronous logger with two sinks. -/
def seqWorld : World := Verif.run (badSink 1 .end_) World.init setup

open Verif.Sample in
/-- The second sink raises: both have been called, and the thread is out. -/
example : ∃ (L : Log) (new : List Obs) (n : Nat) (e : Event),
    run (badSink 1 .end_).hasHook (init L.sinks L.hooks)
        ((7, .publish .end_ e) :: List.replicate n (7, .go) ++ [(7, .raise)]) =
      { init L.sinks L.hooks with trace := new.filterMap (heard 7), pub := [(7, .end_, e, L.hooks .end_)] } ∧
    new.length = 2 := by
  obtain ⟨L, hL⟩ : ∃ L, seqWorld.logs 0 = some L := Option.isSome_iff_exists.1 (by decide +kernel)
  have ha : L.async = false := by
    have : (seqWorld.logs 0).map (·.async) = some false := by decide +kernel
    rw [hL] at this; simpa using this
  let e : Event := mkEvent World.init.tick 0 0 .end_ .success 5 "" [] none
  obtain ⟨new, n, h1, h2⟩ := C78_sequential (has := (badSink 1 .end_).hasHook) (t := 7) (badSink 1 .end_) seqWorld 0 L hL ha
    .end_ e (init L.sinks L.hooks) (init_has L) rfl
  have hx : (publish (badSink 1 .end_) seqWorld 0 .end_ e).2.isSome = true := by decide +kernel
  have ht : (publish (badSink 1 .end_) seqWorld 0 .end_ e).1.trace.length = seqWorld.trace.length + 2 := by decide +kernel
  rw [hx] at h2
  refine ⟨L, new, n, e, h2, ?_⟩
  rw [h1, List.length_append] at ht
  omega

/-- A logger with one sink. -/
def oneSink : Log := { sinks := [3], hooks := fun _ => [3], async := false, queue := [], preflush := [], lastFlush := 0 }

open Verif.Sample in
example : ∃ n, let s := run quiet.hasHook (init [3] fun _ => [3]) ((0, .setSinks [1, 2, 1]) :: List.replicate n (0, .go))
    s.heap (s.ptr .all) = [1, 2] := by
  obtain ⟨n, h, -⟩ := C80_set_sequential (t := 0) quiet oneSink [1, 2, 1] (init [3] fun _ => [3]) (init_has oneSink) rfl
  exact ⟨n, h.all⟩

open Verif.Sample in
example := C80_add_sequential (t := 0) quiet oneSink 5 (init [3] fun _ => [3]) (init_has oneSink) rfl

end Verif.SyncConc
