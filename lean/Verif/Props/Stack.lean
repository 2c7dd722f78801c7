import Verif.Lemmas.StackSim
import Verif.Spec.Samples
import Mathlib.Data.List.Count
import Mathlib.Data.List.Induction
/-!
# C148: sinks, hooks and handlers may use lithoxyl themselves

One thread; whatever lithoxyl calls may in turn make any call the application may make, to any depth, on the same loggers and actions,
and may return or raise.  `Reachable env s`: the process can get to `s`.
-/
namespace Verif.Stack
open scoped List
attribute [local irreducible] QUEUE_LIMIT
variable {env : Env} {s : St}

theorem run_append (s : St) (g h : List Act) : run env s (g ++ h) = run env (run env s g) h := by simp [run]
theorem run_nil (s : St) : run env s [] = s := rfl

theorem Reachable.run (h : Reachable env s) (xs : List Act) : Reachable env (run env s xs) := by
  obtain ⟨ys, rfl⟩ := h
  exact ⟨ys ++ xs, by rw [run_append]⟩
theorem Reachable.step (h : Reachable env s) (x : Act) : Reachable env (step env s x) := h.run [x]

/-! ## Examples

Logger 0 has the sinks 0 and 1.  Action 0 is begun; sink 0, told so, ends it. -/
namespace Example

def setup (async : Bool) : List Act := [.call (.op (.newLogger 0 [0, 1] (some async))), .call (.op (.newAction 0 10 "a" []))]
/-- The application begins the action, sink 0 is called and ends it; both sinks hear of the end; then sink 1 hears of the begin. -/
def swap : List Act := setup false ++
  [.call (.op (.begin 0 none [] [])), .go, .call (.op (.success 0 none [] [])), .go, .go, .ret, .go, .ret, .go, .ret, .go]
/-- The same with a queue: sink 0, told of the begin, flushes. -/
def swapFlush : List Act := setup true ++
  [.call (.op (.begin 0 none [] [])), .call (.op (.success 0 none [] [])), .go, .call (.op (.flush 0)), .go, .go, .go,
    .call (.op (.flush 0)), .go, .go, .go, .ret, .go, .ret, .go, .go, .ret, .go]
/-- Sink 0, told of the warning, makes and begins an action of its own and raises. -/
def nested : List Act := setup false ++
  [.call (.op (.warn 0 "w" [] [])), .go, .call (.op (.newAction 0 20 "b" [])), .call (.op (.begin 2 none [] [])), .go, .ret, .go, .ret, .go,
    .raise Sample.boom, .go]
/-- The action is told of an exception; sink 0 hears of it. -/
def fails : List Act := setup false ++ [.call (.op (.exception 0 (some Sample.boom) (some "m") [] [])), .go]
end Example

/-! ## The world model is a part of this one -/

/-- Whatever `Model/Step.lean` says a history of calls does, is done here too, if what lithoxyl calls returns or raises at once. -/
theorem C148_covers (env : Env) (its : List Item) : ∃ (xs : List Act) (gen : LogId → Nat) (old : LogId → Nat → Kind → List SinkId),
    run env St.init xs = ⟨Verif.run env World.init its, gen, old, [.code], none⟩ := by
  obtain ⟨g, o, xs, h⟩ := sim_run (env := env) its (s := St.init) ⟨[], rfl⟩ rfl rfl
  exact ⟨xs, g, o, h⟩

example : (Verif.run Sample.quiet World.init
    [.op (.newLogger 0 [0, 1] (some false)), .op (.newAction 0 10 "a" []), .op (.begin 0 none [] [])]).trace.length = 2 := by decide +kernel

/-! ## Ids -/

/-- No two events have the same `event_id`, and none has the id of an action. -/
theorem C148_ids (h : Reachable env s) :
    (∀ e f, s.w.HasEvent e → s.w.HasEvent f → e.id = f.id → e = f) ∧ (∀ e, s.w.HasEvent e → s.w.acts e.id = none) :=
  ⟨h.inv.core.id.uniq, h.inv.core.id.evAct⟩

example : (run Sample.quiet St.init Example.nested).w.pub.map (·.2.id) = [1, 3] ∧
    (run Sample.quiet St.init Example.nested).stack = [.code] := by decide +kernel

/-! ## What is published -/

/-- Of an action at most one begin is published, the one it has; the warnings published are those it has, in order; an end is only
published after the begin. -/
theorem C148_published (h : Reachable env s) {a : ActId} {x : Verif.Act} (hx : s.w.acts a = some x) :
    (x.handle = true → pubsOf s.w.pub .begin a = x.beginEv.toList) ∧ pubsOf s.w.pub .warn a = x.warnEvs ∧
    (∀ pre e post, s.w.pub = pre ++ (Kind.end_, e) :: post → ∃ b, (Kind.begin, b) ∈ pre ∧ b.act = e.act) :=
  ⟨h.inv.core.pub.begin a x hx, h.inv.core.pub.warn a x hx, h.inv.core.ord⟩

example : (run Sample.quiet St.init Example.swap).w.pub.map (·.1) = [.begin, .end_] := by decide +kernel

/-! ## What sinks get -/

/-- No sink gets an event more often than it was published (an end can be published more than once); in particular none that was
not. -/
theorem C148_received (h : Reachable env s) (sk : SinkId) {p : Kind × Event} (hp : p.1 ≠ .exception) :
    (received sk s.w.trace).count p ≤ s.w.pub.count p := by
  have := h.inv.count sk p hp
  omega

/-- What is still queued, or still to be handed out, counts as well: nothing is in two places. -/
theorem C148_places (h : Reachable env s) (sk : SinkId) {p : Kind × Event} (hp : p.1 ≠ .exception) :
    (received sk s.w.trace).count p + (queued s.w p.2.logger).count p ≤ s.w.pub.count p := by
  have := h.inv.count sk p hp
  have : (received sk s.w.trace).count p + (queued s.w p.2.logger).count p + due s sk p s.stack ≤ s.w.pub.count p := this
  omega

/-- The exceptions sinks get are those recorded on their actions. -/
theorem C148_exceptions (h : Reachable env s) {sk : SinkId} {e : Event} (he : (Kind.exception, e) ∈ received sk s.w.trace) :
    ∃ x, s.w.acts e.act = some x ∧ e ∈ x.excEvs := h.inv.exc sk e he

theorem filter_subperm (h : Reachable env s) (sk : SinkId) (a : ActId) {k : Kind} (hk : k ≠ .exception) :
    (received sk s.w.trace).filter (fun p => p.1 = k ∧ p.2.act = a) <+~ s.w.pub.filter (fun p => p.1 = k ∧ p.2.act = a) := by
  rw [List.subperm_ext_iff]
  intro p hp
  have hq := (List.mem_filter.1 hp).2
  rw [List.count_filter (p := fun p : Kind × Event => decide (p.1 = k ∧ p.2.act = a)) hq,
    List.count_filter (p := fun p : Kind × Event => decide (p.1 = k ∧ p.2.act = a)) hq]
  refine C148_received h sk ?_
  simp only [decide_eq_true_eq] at hq
  rw [hq.1]; exact hk

/-- A sink hears of the begin of an action at most once. -/
theorem C148_begin_once (h : Reachable env s) (sk : SinkId) (a : ActId) : (got sk .begin a s.w.trace).length ≤ 1 := by
  have h1 := (filter_subperm h sk a (k := .begin) (by decide)).length_le
  have h2 : (s.w.pub.filter (fun p => p.1 = .begin ∧ p.2.act = a)).length = (pubsOf s.w.pub .begin a).length := by simp [pubsOf]
  have h3 : (pubsOf s.w.pub .begin a).length ≤ 1 := by
    have hc := h.inv.core.pub
    cases hx : s.w.acts a with
    | none => rw [show pubsOf s.w.pub .begin a = _ from hc.none a .begin hx]; simp
    | some x =>
      cases hh : x.handle with
      | true => rw [show pubsOf s.w.pub .begin a = _ from hc.begin a x hx hh]; cases x.beginEv <;> simp
      | false => rw [show pubsOf s.w.pub .begin a = _ from hc.noBegin a x hx hh .begin (by decide)]; simp
  have h4 : (got sk .begin a s.w.trace).length = ((received sk s.w.trace).filter (fun p => p.1 = .begin ∧ p.2.act = a)).length := by
    rw [got_eq]; simp [pubsOf]
  omega

example : (got 1 .begin 0 (run Sample.quiet St.init Example.swap).w.trace).length = 1 := by decide +kernel

example : (received 0 (run Sample.quiet St.init Example.fails).w.trace).map (·.1) = [.exception] := by decide +kernel

/-- The queue of a logger never has more than its maximum. -/
theorem C148_bound (h : Reachable env s) {l : LogId} {L : Log} (hL : s.w.logs l = some L) : L.queue.length ≤ QUEUE_LIMIT :=
  h.inv.bound l L hL

example : ((run Sample.quiet St.init (Example.swapFlush.take 5)).w.logs 0).map (·.queue.length) = some 2 := by decide +kernel

/-! ## A publication that comes back -/

theorem step_idle {u : St} {f : Frame} {fs : List Frame} {x : Act} (hs : u.stack = f :: fs) (hf : f ≠ .code) (hx : x ≠ .go) :
    step env u x = u := by
  simp only [Stack.step, hs]
  split <;> simp_all

theorem step_up {u : St} {f : Frame} {fs : List Frame} {err : Exc} (hs : u.stack = f :: fs) (hu : u.up = some err) :
    step env u .go = unwind { u with stack := fs } err f := by
  simp only [Stack.step, hs, hu]

theorem step_go {u : St} {f : Frame} {fs : List Frame} (hs : u.stack = f :: fs) (hf : f ≠ .code) (hu : u.up = none) :
    step env u .go = resume env { u with stack := fs } f := by
  simp only [Stack.step, hs, hu]

theorem drop_prefix {α : Type} {x y : List α} (h : x <+: y) (n : Nat) : x.drop n <+: y.drop n := by
  obtain ⟨t, rfl⟩ := h
  by_cases hn : n ≤ x.length
  · rw [List.drop_append_of_le_length hn]; exact List.prefix_append ..
  · rw [List.drop_of_length_le (by omega)]; exact List.nil_prefix

/-- The loop over the hooks, under whatever is on top of it. -/
def Looping (n : Nat) (l : LogId) (g : Nat) (k : Kind) (e : Event) (hs : List SinkId) (fs : List Frame) (u : St) : Prop :=
  ∃ top i, u.stack = top ++ Frame.hooks l g k e i :: fs ∧ hs <+: u.list l g k ∧ g ≤ u.gen l ∧ (u.w.logs l).isSome ∧
    n ≤ u.w.trace.length ∧ (((u.list l g k).take i).map fun sk => Obs.hook sk k e) <+ u.w.trace.drop n

theorem looping_step {n : Nat} {l : LogId} {g : Nat} {k : Kind} {e : Event} {hs : List SinkId} {fs : List Frame} {u : St} (hi : Inv env u)
    (h : Looping n l g k e hs fs u) (y : Act) : Looping n l g k e hs fs (step env u y) ∨
      (step env u y).stack = fs ∧ ((step env u y).up = none → (hs.map fun sk => Obs.hook sk k e) <+ (step env u y).w.trace.drop n) := by
  obtain ⟨top, i, hst, hp, hg, hl, hn, hc⟩ := h
  have hsh := shape_step hi y
  cases top with
  | cons f top =>
    left
    have hst' : u.stack = f :: (top ++ Frame.hooks l g k e i :: fs) := hst
    obtain ⟨t, ht⟩ := st_step (env := env) hst' y
    have hfr := hi.frames (.hooks l g k e i) (by rw [hst]; simp)
    have hgr := hsh.grows
    refine ⟨t ++ top, i, by rw [← ht, List.append_assoc], hp.trans (hgr.list l g k hl hg), Nat.le_trans hg (hgr.gen l), hgr.logs l hl,
      Nat.le_trans hn hsh.trace.length_le, ?_⟩
    rw [take_prefix (hgr.list l g k hl hg) hfr.2.2.1]
    exact hc.trans (drop_prefix hsh.trace n).sublist
  | nil =>
    simp only [List.nil_append] at hst
    cases y with
    | go =>
      cases hu : u.up with
      | some err =>
        right
        rw [step_up hst hu]
        exact ⟨rfl, fun h => by simp [unwind, hu] at h⟩
      | none =>
        rw [step_go hst nofun hu]
        have hfr := (hi.frames (.hooks l g k e i) (by rw [hst]; simp)).2.2.1
        simp only [resume]
        split
        · rename_i hi
          right
          refine ⟨rfl, fun _ => List.Sublist.trans ?_ hc⟩
          have : (u.list l g k).length ≤ i := List.getElem?_eq_none_iff.1 hi
          rw [List.take_of_length_le this]
          exact hp.sublist.map _
        · rename_i sk hi
          left
          refine ⟨[.code], i + 1, rfl, hp, hg, hl, Nat.le_trans hn (List.prefix_append u.w.trace [Obs.hook sk k e]).length_le, ?_⟩
          show ((u.list l g k).take (i + 1)).map _ <+ (u.w.trace ++ [Obs.hook sk k e]).drop n
          rw [getElem?_take (x := u.list l g k) hi, List.map_append, List.drop_append_of_le_length hn]
          exact hc.append (List.Sublist.refl _)
    | call it => left; rw [step_idle (x := .call it) hst nofun nofun]; exact ⟨[], i, hst, hp, hg, hl, hn, hc⟩
    | ret => left; rw [step_idle (x := .ret) hst nofun nofun]; exact ⟨[], i, hst, hp, hg, hl, hn, hc⟩
    | raise x => left; rw [step_idle (x := .raise x) hst nofun nofun]; exact ⟨[], i, hst, hp, hg, hl, hn, hc⟩

/-- While what is on top of `fs` goes on, `P` holds; when it is over, `Q`. -/
theorem returns_induct {P Q : St → Prop} {fs : List Frame} (hP : ∀ u, Reachable env u → P u → fs.length < u.stack.length →
    ∀ y, P (step env u y) ∨ Q (step env u y) ∧ (step env u y).stack = fs)
    (hlen : ∀ u, P u → fs.length < u.stack.length) {t : St} (ht : Reachable env t) (h0 : P t) {h : List Act} (hr : Returns env t fs h) :
    Q (run env t h) := by
  have key : ∀ g, g <+: h → (g ≠ h → P (run env t g)) ∧ (g = h → P (run env t g) ∨ Q (run env t g)) := by
    intro g
    induction g using List.reverseRecOn with
    | nil => exact fun _ => ⟨fun _ => h0, fun _ => .inl h0⟩
    | append_singleton g y ih =>
      intro hg
      have hg' : g <+: h := (List.prefix_append g [y]).trans hg
      have hne : g ≠ h := by
        rintro rfl
        have := hg.length_le
        rw [List.length_append, List.length_singleton] at this
        omega
      have h1 := (ih hg').1 hne
      rw [run_append]
      rcases hP _ (ht.run g) h1 (hlen _ h1) y with h2 | ⟨h2, h3⟩
      · exact ⟨fun _ => h2, fun _ => .inl h2⟩
      · refine ⟨fun hne' => ?_, fun _ => .inr h2⟩
        have := hr.first _ hg hne'
        rw [run_append] at this
        have h4 : (run env (run env t g) [y]).stack = fs := h3
        rw [h4] at this
        exact absurd this (Nat.lt_irrefl _)
  rcases (key h List.prefix_rfl).2 rfl with h1 | h1
  · have := hlen _ h1
    rw [hr.back] at this
    exact absurd this (Nat.lt_irrefl _)
  · exact h1

/-- On a synchronous logger: when the handing out of an event comes to its normal end, every sink the logger had when the event was
published, and that has a hook for it, has been called with it, in the order of the sinks, whatever was done meanwhile. -/
theorem C148_delivered (hs : Reachable env s) {x : Act} {k : Kind} {e : Event} {L : Log}
    (hp : (step env s x).w.pub = s.w.pub ++ [(k, e)]) (hL : s.w.logs e.logger = some L) (ha : L.async = false) {h : List Act}
    (hr : Returns env (step env s x) (step env s x).stack.tail h) :
    callsFor env L.sinks [(k, e)] <+ (run env (step env s x) h).w.trace.drop s.w.trace.length := by
  have ht := hs.step x
  have hsh := shape_step hs.inv x
  cases hsh with
  | quiet hp' => rw [hp'] at hp; simp at hp
  | code o hp' => rw [hp'] at hp; simp at hp
  | emit k' e' L' hL' hk' hp' htr hl hstk hg =>
    rw [hp'] at hp
    have hke := List.append_cancel_left hp
    simp only [List.cons.injEq, Prod.mk.injEq, and_true] at hke
    obtain ⟨rfl, rfl⟩ := hke
    rw [hL] at hL'
    cases hL'
    obtain ⟨⟨fs, hfs⟩, hgen, hlogs⟩ := hstk ha
    rw [hfs, List.tail_cons] at hr
    have hreg := (hs.inv.q.reg _ L hL).hooks
    have hlist : (step env s x).list e'.logger (s.gen e'.logger) k' = L.hooks k' := by
      simp only [St.list, hgen, hlogs, hL, if_true]
    have := returns_induct (P := Looping s.w.trace.length e'.logger (s.gen e'.logger) k' e' (L.hooks k') fs)
      (Q := fun u => u.up = none → ((L.hooks k').map fun sk => Obs.hook sk k' e') <+ u.w.trace.drop s.w.trace.length) ?_ ?_ ht ?_ hr
    · have := this hr.fine
      rw [hreg] at this
      simpa [callsFor] using this
    · intro u hu hP _ y
      rcases looping_step hu.inv hP y with h1 | ⟨h1, h2⟩
      · exact .inl h1
      · exact .inr ⟨h2, h1⟩
    · rintro u ⟨top, i, hst, _⟩
      rw [hst]; simp; omega
    · exact ⟨[], 0, hfs, by rw [hlist]; exact List.prefix_rfl, Nat.le_of_eq (by rw [hgen]), by rw [hlogs, hL]; rfl, Nat.le_of_eq (by rw [htr]), by simp⟩

/-- A check that a call returns, for the examples. -/
theorem returns_of {fs : List Frame} {h : List Act} (h1 : (run env s h).stack = fs) (h2 : (run env s h).up = none)
    (h3 : ∀ n < h.length, fs.length < (run env s (h.take n)).stack.length) : Returns env s fs h := by
  refine ⟨h1, h2, ?_⟩
  intro g hg hne
  rw [List.prefix_iff_eq_take] at hg
  have hlt : g.length < h.length := by
    by_contra hge
    rw [List.take_of_length_le (by omega)] at hg
    exact hne hg
  rw [hg]
  exact h3 _ hlt

example : Returns Sample.quiet (run Sample.quiet St.init (Example.swap.take 3)) [.code] ((Example.swap.drop 3) ++ [.ret, .go]) :=
  returns_of (by decide +kernel) (by decide +kernel) (by decide +kernel)

/-! ## A flush that comes back -/

/-- `flush` of logger `l`, under whatever is on top of it. -/
def Flushing (l : LogId) (fs : List Frame) (u : St) : Prop :=
  (u.w.logs l).isSome ∧ ∃ top f, u.stack = top ++ f :: fs ∧ ((∃ i, f = .preflush l i ∨ f = .preNote l i) ∨ f = .drain l)

theorem flushing_step {l : LogId} {fs : List Frame} {u : St} (hi : Inv env u) (h : Flushing l fs u) (y : Act) :
    Flushing l fs (step env u y) ∨ (step env u y).stack = fs ∧ ((step env u y).up = none → queued (step env u y).w l = []) := by
  obtain ⟨hl, top, f, hst, hf⟩ := h
  have hlog := (shape_step hi y).grows.logs l hl
  obtain ⟨L, hL⟩ := Option.isSome_iff_exists.1 hl
  cases top with
  | cons f' top =>
    left
    have hst' : u.stack = f' :: (top ++ f :: fs) := hst
    obtain ⟨t, ht⟩ := st_step (env := env) hst' y
    exact ⟨hlog, t ++ top, f, by rw [← ht, List.append_assoc], hf⟩
  | nil =>
    simp only [List.nil_append] at hst
    have hcode : f ≠ .code := by rcases hf with ⟨i, rfl | rfl⟩ | rfl <;> nofun
    by_cases hy : y = .go
    · subst hy
      cases hu : u.up with
      | some err =>
        rw [step_up hst hu] at hlog ⊢
        rcases hf with ⟨i, rfl | rfl⟩ | rfl
        · simp only [unwind] at hlog ⊢
          split
          · exact .inl ⟨hl, [.notes "preflush" 0], .preNote l i, rfl, .inl ⟨i, .inr rfl⟩⟩
          · exact .inr ⟨rfl, fun h => by rw [show u.up = none from h] at hu; cases hu⟩
        · exact .inr ⟨rfl, fun h => by rw [show u.up = none from h] at hu; cases hu⟩
        · exact .inr ⟨rfl, fun h => by rw [show u.up = none from h] at hu; cases hu⟩
      | none =>
        rw [step_go hst hcode hu] at hlog ⊢
        rcases hf with ⟨i, rfl | rfl⟩ | rfl
        · left
          refine ⟨hlog, ?_⟩
          simp only [resume, hL]
          split
          · exact ⟨[], .drain l, rfl, .inr rfl⟩
          · exact ⟨[.code], .preflush l (i + 1), rfl, .inl ⟨i + 1, .inl rfl⟩⟩
        · exact .inl ⟨hlog, [], .preflush l i, rfl, .inl ⟨i, .inl rfl⟩⟩
        · cases hq : L.queue with
          | nil =>
            right
            simp only [resume, hL, hq]
            exact ⟨rfl, fun _ => by simp [queued, St.world]⟩
          | cons p q =>
            left
            refine ⟨hlog, ?_⟩
            obtain ⟨k, e⟩ := p
            simp only [resume, hL, hq]
            split
            · exact ⟨[.notes "flush" 0], .drain l, rfl, .inr rfl⟩
            · exact ⟨[.hooks l (u.gen l) k e 0], .drain l, rfl, .inr rfl⟩
    · left
      rw [step_idle hst hcode hy]
      exact ⟨hl, [], f, hst, hf⟩

/-- When a `flush` comes back normally, the logger's queue is empty: whatever the sinks and hooks published meanwhile is flushed too. -/
theorem C148_flush (hs : Reachable env s) {fs : List Frame} (hst : s.stack = .code :: fs) (hu : s.up = none) {l : LogId}
    (hl : (s.w.logs l).isSome) {h : List Act} (hr : Returns env (step env s (.call (.op (.flush l)))) s.stack h) :
    queued (run env (step env s (.call (.op (.flush l)))) h).w l = [] := by
  obtain ⟨L, hL⟩ := Option.isSome_iff_exists.1 hl
  have h0 : step env s (.call (.op (.flush l))) = s.push (.preflush l 0) := by
    simp only [Stack.step, hst, hu, call, flush, hL]
  refine returns_induct (P := Flushing l s.stack) (Q := fun u => u.up = none → queued u.w l = []) ?_ ?_ (hs.step _) ?_ hr hr.fine
  · intro u hu' hP _ y
    rcases flushing_step hu'.inv hP y with h1 | ⟨h1, h2⟩
    · exact .inl h1
    · exact .inr ⟨h2, h1⟩
  · rintro u ⟨_, top, f, hst', _⟩
    rw [hst']; simp; omega
  · rw [h0]
    exact ⟨hl, [], .preflush l 0, rfl, .inl ⟨0, .inl rfl⟩⟩

/-! ## The order a sink sees -/

example : Returns Sample.quiet (run Sample.quiet St.init (Example.swapFlush.take 6)) [.code] (Example.swapFlush.drop 6 ++ [.ret, .go, .go]) :=
  returns_of (by decide +kernel) (by decide +kernel) (by decide +kernel)

/-- Sink `sk` has heard of the end of action `a` before it heard of its begin. -/
def EndFirst (sk : SinkId) (a : ActId) (tr : List Obs) : Prop :=
  Before (fun o => ∃ e, o = .hook sk .end_ e ∧ e.act = a) (fun o => ∃ e, o = .hook sk .begin e ∧ e.act = a) tr

theorem before_snoc {α : Type} {p q : α → Prop} {xs : List α} {y : α} (h : Before p q (xs ++ [y])) : Before p q xs ∨ q y ∧ ∃ x ∈ xs, p x := by
  obtain ⟨pre, x, mid, z, post, he, hp, hq⟩ := h
  rcases List.eq_nil_or_concat post with rfl | ⟨post', v, rfl⟩
  · right
    have : xs ++ [y] = (pre ++ x :: mid) ++ [z] := by simpa using he
    have h2 := List.append_inj' this rfl
    have hz : y = z := by simpa using h2.2
    exact ⟨hz ▸ hq, x, by rw [h2.1]; simp, hp⟩
  · left
    have : xs ++ [y] = (pre ++ x :: (mid ++ z :: post')) ++ [v] := by simpa [List.concat_eq_append] using he
    have h2 := List.append_inj' this rfl
    exact ⟨pre, x, mid, z, post', h2.1, hp, hq⟩

theorem order_run (h : List Act) (hset : Settled env St.init h) (sk : SinkId) (a : ActId) :
    ¬EndFirst sk a (run env St.init h).w.trace ∧
    ((∃ e, (Kind.end_, e) ∈ (run env St.init h).w.pub ∧ e.act = a) → ∀ b, b.act = a → ¬Pending (run env St.init h) (Kind.begin, b)) := by
  induction h using List.reverseRecOn with
  | nil =>
    refine ⟨?_, ?_⟩
    · rintro ⟨pre, x, mid, y, post, he, _⟩
      simp [run_nil, St.init, World.init] at he
    · rintro ⟨e, he, _⟩
      simp [run_nil, St.init, World.init] at he
  | append_singleton h x ih =>
    have hset' : Settled env St.init h := fun g y e hg => hset g y e (hg.trans (List.prefix_append ..))
    obtain ⟨ih1, ih2⟩ := ih hset'
    have hre : Reachable env (run env St.init h) := ⟨h, rfl⟩
    have hre' := hre.step x
    have hsh := shape_step hre.inv x
    rw [run_append, show run env (run env St.init h) [x] = step env (run env St.init h) x from rfl]
    have hpend := hset h x
    generalize run env St.init h = u at *
    cases hsh with
    | quiet hp ht hl hg =>
      rw [ht, hp]
      exact ⟨ih1, fun he b hb hP => ih2 he b hb (hl _ nofun hP)⟩
    | code o hp ht hl hg ho =>
      rw [ht, hp]
      refine ⟨?_, fun he b hb hP => ih2 he b hb (hl _ nofun hP)⟩
      intro hB
      rcases before_snoc hB with hB | ⟨⟨e, rfl, hea⟩, y, hy, f, rfl, hfa⟩
      · exact ih1 hB
      · obtain ⟨l, g, i, fs, hst⟩ := ho _ _ _ rfl
        have hf : (Kind.end_, f) ∈ u.w.pub := by
          have h1 := C148_received hre sk (p := (Kind.end_, f)) nofun
          have h2 : (Kind.end_, f) ∈ received sk u.w.trace := by
            simp only [received, List.mem_filterMap]
            exact ⟨_, hy, by simp⟩
          have h3 := List.count_pos_iff.2 h2
          exact List.count_pos_iff.1 (by omega)
        exact ih2 ⟨f, hf, hfa⟩ e hea (.inr ⟨l, g, i, by rw [hst]; exact List.mem_cons_self⟩)
    | emit k e L hL hk hp ht hl hs hg =>
      rw [ht]
      refine ⟨ih1, ?_⟩
      rintro ⟨f, hf, hfa⟩ b hb hP
      rw [hp] at hf
      rcases hl _ (by simp) hP with hP | hP
      · rcases List.mem_append.1 hf with hf | hf
        · exact ih2 ⟨f, hf, hfa⟩ b hb hP
        · simp only [List.mem_singleton, Prod.mk.injEq] at hf
          obtain ⟨rfl, rfl⟩ := hf
          exact hpend f List.prefix_rfl hp b (hb.trans hfa.symm) hP
      · cases hP
        rcases List.mem_append.1 hf with hf | hf
        · obtain ⟨pre, post, hpp⟩ := List.append_of_mem hf
          obtain ⟨b', hb', hba'⟩ := hre.inv.core.ord pre f post hpp
          have hmem : (Kind.begin, b') ∈ u.w.pub := by rw [hpp]; exact List.mem_append_left _ hb'
          have hlen : (pubsOf (step env u x).w.pub .begin a).length ≤ 1 := by
            have hc := hre'.inv.core.pub
            cases hx : (step env u x).w.acts a with
            | none => rw [show pubsOf (step env u x).w.pub .begin a = _ from hc.none a .begin hx]; simp
            | some y =>
              cases hh : y.handle with
              | true => rw [show pubsOf (step env u x).w.pub .begin a = _ from hc.begin a y hx hh]; cases y.beginEv <;> simp
              | false => rw [show pubsOf (step env u x).w.pub .begin a = _ from hc.noBegin a y hx hh .begin (by decide)]; simp
          rw [hp, pubsOf_append, List.length_append, pubsOf_single, if_pos ⟨rfl, hb⟩] at hlen
          have : b' ∈ pubsOf u.w.pub .begin a := mem_pubsOf.2 ⟨hmem, hba'.trans hfa⟩
          have := List.length_pos_of_mem this
          simp at hlen
          rw [hlen] at this
          simp at this
        · simp at hf

/-- Partial: if no end is published while the begin of its action is queued or being handed out, then no sink hears of an end before
the begin.  Missing: the hypothesis, see `C148_violated`. -/
theorem C148_order_partial (h : List Act) (hset : Settled env St.init h) (sk : SinkId) (a : ActId) :
    ¬EndFirst sk a (run env St.init h).w.trace := (order_run h hset sk a).1

/-- A check that a history is settled, for the example: when an end is published, sink `sk` has got the begin. -/
def settledAt (env : Env) (sk : SinkId) (u v : St) : Bool :=
  (v.w.pub.drop u.w.pub.length).all fun q => q.1 ≠ .end_ ||
    (u.stack.all (fun | .hooks _ _ k e _ => k ≠ .begin || e.act ≠ q.2.act | _ => true) &&
      u.w.pub.all (fun p => p.1 ≠ .begin || p.2.act ≠ q.2.act || (received sk u.w.trace).count p = u.w.pub.count p))

theorem settled_of {h : List Act} (sk : SinkId)
    (hc : ∀ n < h.length, settledAt env sk (run env St.init (h.take n)) (run env St.init (h.take (n + 1))) = true) :
    Settled env St.init h := by
  intro g x e hg hp b hb hP
  obtain ⟨t, rfl⟩ := hg
  have h0 := hc g.length (by simp)
  rw [show (g ++ [x] ++ t).take g.length = g by simp, show (g ++ [x] ++ t).take (g.length + 1) = g ++ [x] by
    rw [List.take_append_of_le_length (by simp), List.take_of_length_le (by simp)], run_append] at h0
  rw [show run env (run env St.init g) [x] = step env (run env St.init g) x from rfl] at h0
  have hre : Reachable env (run env St.init g) := ⟨g, rfl⟩
  generalize run env St.init g = u at *
  simp only [settledAt, hp, List.drop_left, List.all_cons, List.all_nil, Bool.or_eq_true, Bool.and_eq_true, decide_eq_true_eq, ne_eq,
    not_true_eq_false, Bool.false_and, Bool.false_eq_true, false_or, List.all_eq_true, and_true] at h0
  rcases hP with ⟨l, hl⟩ | ⟨l, n, i, hf⟩
  · have hq : (Kind.begin, b) ∈ u.w.del.queue l := hl
    have hlg := (hre.inv.q.q l .begin b hq)
    have hc1 := C148_places hre sk (p := (Kind.begin, b)) nofun
    have hbl : b.logger = l := hlg.1
    have hpos : 0 < (queued u.w b.logger).count (Kind.begin, b) := List.count_pos_iff.2 (by rw [hbl]; exact hl)
    have hmem : (Kind.begin, b) ∈ u.w.pub := List.count_pos_iff.1 (by simp only at hc1; omega)
    have := h0.2 _ hmem
    simp [hb] at this hc1
    omega
  · have := h0.1 _ hf
    simp [hb] at this

namespace Example
/-- The application begins the action; sink 0, told so, begins and ends an action of its own; then the application ends its. -/
def nice : List Act := setup false ++
  [.call (.op (.begin 0 none [] [])), .go, .call (.op (.newAction 0 20 "b" [])), .call (.op (.begin 2 none [] [])), .go, .ret, .go, .ret, .go,
    .call (.op (.success 2 none [] [])), .go, .go, .ret, .go, .ret, .go, .ret, .go, .ret, .go,
    .call (.op (.success 0 none [] [])), .go, .go, .ret, .go, .ret, .go]
end Example

example : Settled Sample.quiet St.init Example.nice := settled_of 0 (by decide +kernel)
example : (run Sample.quiet St.init Example.nice).stack = [.code] ∧
    (received 1 (run Sample.quiet St.init Example.nice).w.trace).map (fun p => (p.1, p.2.act)) =
      [(.begin, 2), (.end_, 2), (.begin, 0), (.end_, 0)] := by decide +kernel

theorem before_at {α : Type} {p q : α → Prop} {xs : List α} {i j : Nat} {x y : α} (hx : xs[i]? = some x) (hy : xs[i + 1 + j]? = some y)
    (hp : p x) (hq : q y) : Before p q xs := by
  obtain ⟨h1, rfl⟩ := List.getElem?_eq_some_iff.1 hx
  have hd : xs.drop i = xs[i] :: xs.drop (i + 1) := (List.getElem_cons_drop ..).symm
  have hy' : (xs.drop (i + 1))[j]? = some y := by rw [List.getElem?_drop]; exact hy
  obtain ⟨h2, rfl⟩ := List.getElem?_eq_some_iff.1 hy'
  refine ⟨xs.take i, xs[i], (xs.drop (i + 1)).take j, (xs.drop (i + 1))[j], (xs.drop (i + 1)).drop (j + 1), ?_, hp, hq⟩
  rw [List.getElem_cons_drop, List.take_append_drop, List.getElem_cons_drop, List.take_append_drop]

/-- The property without the hypothesis. -/
def Ordered : Prop := ∀ (env : Env) (h : List Act) (sk : SinkId) (a : ActId), ¬EndFirst sk a (run env St.init h).w.trace

/-- Sink 0, told that the action begins, ends it: sink 1 hears of the end first. -/
theorem C148_violated : ¬Ordered := fun h =>
  h Sample.quiet Example.swap 1 0 (before_at (i := 2) (j := 0) rfl rfl ⟨_, rfl, rfl⟩ ⟨_, rfl, rfl⟩)

/-- With a queue it is enough that sink 0 flushes: nothing is published from inside a sink, and nothing else is out of order. -/
theorem C148_flush_violated : ∃ h : List Act, (∀ it, Act.call it ∈ h.drop 5 → it = .op (.flush 0)) ∧
    (run Sample.quiet St.init (h.take 5)).stack = [.code] ∧ (run Sample.quiet St.init (h.take 5)).w.trace = [] ∧
    EndFirst 1 0 (run Sample.quiet St.init h).w.trace := by
  refine ⟨Example.swapFlush, ?_, by decide +kernel, by decide +kernel,
    before_at (i := 2) (j := 0) (x := .hook 1 .end_ ⟨2, 0, 0, .end_, .success, 20, "a succeeded", [], none⟩)
      (y := .hook 1 .begin ⟨1, 0, 0, .begin, .begin, 20, "a beginning", [], none⟩) (by decide +kernel) (by decide +kernel)
      ⟨_, rfl, rfl⟩ ⟨_, rfl, rfl⟩⟩
  intro it hit
  simp [Example.swapFlush, Example.setup] at hit
  exact hit

end Verif.Stack
