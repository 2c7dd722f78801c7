import Verif.Model.Global
/-!
# C110: one global context
-/
namespace Verif.Global

/-! ### The specification -/

/-- Nobody calls `set_context`. -/
def NoSet (sched : List (Tid × Act)) : Prop := ∀ x ∈ sched, ∀ c, x.2 ≠ .set c

/-- No thread is in a call. -/
def Quiescent (s : Sys) : Prop := ∀ p ∈ s.pcs, p = .idle

/-- The full claim: unless someone calls `set_context`, all calls of `get_context`, by the application or for a new logger,
return the same context. -/
def OneContext : Prop :=
  ∀ (n : Nat) (sched : List (Tid × Act)), NoSet sched →
    ∀ x ∈ (run (init n) sched).res, ∀ y ∈ (run (init n) sched).res, x.2.2 = y.2.2

/-- It follows that events of loggers made without `context=` are delivered by `get_context().flush()`. -/
def FlushReaches : Prop :=
  ∀ (n : Nat) (sched after : List (Tid × Act)) (t : Tid) (l : LogId) (e : Ev), NoSet (sched ++ (t, .flush) :: after) →
    (∀ x ∈ sched, ∀ m c, x.2 ≠ .new m (some c)) →
    (run (init n) sched).pcs[t]? = some .idle → e ∈ (run (init n) sched).queue l → (∀ x ∈ after, x.1 = t → x.2 = .go) →
    (run (init n) (sched ++ (t, .flush) :: after)).pcs[t]? = some .idle →
    e ∈ (run (init n) (sched ++ (t, .flush) :: after)).got l

/-! ### It is false -/

/-- Two threads make the first two loggers at the same time. -/
def race : List (Tid × Act) :=
  [(0, .new 0 none), (0, .go), (1, .new 1 none), (1, .go), (0, .go), (0, .go), (0, .go), (1, .go), (1, .go), (1, .go)]

/-- **C110** is false of the code: both threads find no context, both make one, and their loggers are registered with
different ones. -/
theorem C110_violated : ¬ OneContext := by
  intro h
  have := h 2 race (by unfold NoSet race; simp) (0, .log 0, some 0) (by decide) (1, .log 1, some 1) (by decide)
  simp at this

theorem race_res : (run (init 2) race).res = [(0, .log 0, some 0), (1, .log 1, some 1)] := by decide

theorem run_append (s : Sys) (a b : List (Tid × Act)) : run s (a ++ b) = run (run s a) b := by
  simp [run, List.foldl_append]

theorem run_cons (s : Sys) (x : Tid × Act) (b : List (Tid × Act)) : run s (x :: b) = run (step s x.1 x.2) b := rfl

theorem NoSet.tail {x : Tid × Act} {b : List (Tid × Act)} (h : NoSet (x :: b)) : NoSet b :=
  fun y hy => h y (List.mem_cons_of_mem _ hy)

/-- The global context exists, and no thread is about to replace it. -/
structure Settled (c : Ctx) (s : Sys) : Prop where
  glob : s.glob = some c
  pcs : ∀ (t : Tid) p, s.pcs[t]? = some p → p = .idle ∨ (∃ k, p = .test k) ∨ ∃ k, p = .read k

theorem register_fields (s : Sys) (l : LogId) (c : Ctx) :
    (register s l c).glob = s.glob ∧ (register s l c).pcs = s.pcs ∧ (register s l c).res = s.res ∧
    (register s l c).got = s.got ∧ (register s l c).next = s.next := by
  unfold register; split <;> exact ⟨rfl, rfl, rfl, rfl, rfl⟩

theorem finish_fields (s : Sys) (t : Tid) (k : Cont) :
    (finish s t k).glob = s.glob ∧ (finish s t k).pcs = s.pcs.set t .idle ∧ (finish s t k).res = s.res ++ [(t, k, s.glob)] ∧
    (finish s t k).next = s.next := by
  unfold finish
  dsimp only
  split
  · next h =>
    obtain ⟨h1, h2, h3, _, h5⟩ := register_fields { s.to t .idle with res := s.res ++ [(t, Cont.log _, s.glob)] } _ _
    rw [h1, h2, h3, h5]
    exact ⟨rfl, rfl, rfl, rfl⟩
  · exact ⟨rfl, rfl, rfl, rfl⟩
  · exact ⟨rfl, rfl, rfl, rfl⟩

theorem settled_step {c : Ctx} {s : Sys} (h : Settled c s) (t : Tid) (a : Act) (ha : ∀ c, a ≠ .set c) :
    Settled c (step s t a) := by
  unfold step
  cases hp : s.pcs[t]? with
  | none => exact h
  | some p =>
    dsimp only
    have move : ∀ (s' : Sys) (q : PC), s'.glob = s.glob → s'.pcs = s.pcs.set t q →
        (q = .idle ∨ (∃ k, q = .test k) ∨ ∃ k, q = .read k) → Settled c s' := by
      intro s' q h1 h2 h3
      refine ⟨h1.trans h.glob, fun u r hr => ?_⟩
      rw [h2, List.getElem?_set] at hr
      split at hr
      · split at hr
        · cases hr; exact h3
        · cases hr
      · exact h.pcs u r hr
    have keep : ∀ (s' : Sys), s'.glob = s.glob → s'.pcs = s.pcs → Settled c s' := by
      intro s' h1 h2
      exact ⟨h1.trans h.glob, fun u r hr => h.pcs u r (h2 ▸ hr)⟩
    split
    · rcases h.pcs t p hp with rfl | ⟨k, rfl⟩ | ⟨k, rfl⟩
      · exact h
      · simp only [go, h.glob]
        exact move _ (.read k) rfl rfl (.inr (.inr ⟨k, rfl⟩))
      · obtain ⟨h1, h2, _, _⟩ := finish_fields s t k
        exact move _ .idle h1 h2 (.inl rfl)
    · split
      · cases a with
        | get => exact move _ _ rfl rfl (.inr (.inl ⟨_, rfl⟩))
        | new l x =>
          cases x with
          | none => exact move _ _ rfl rfl (.inr (.inl ⟨_, rfl⟩))
          | some d =>
            simp only [call]
            split
            · obtain ⟨h1, h2, _⟩ := register_fields s l d
              exact keep _ h1 h2
            · exact h
        | flush => exact move _ _ rfl rfl (.inr (.inl ⟨_, rfl⟩))
        | set d => exact absurd rfl (ha d)
        | mkctx => exact keep _ rfl rfl
        | publish l e =>
          simp only [call]
          split
          · exact h
          · exact keep _ rfl rfl
        | go => exact h
      · exact h

theorem settled_run {c : Ctx} (sched : List (Tid × Act)) : ∀ {s : Sys}, Settled c s → NoSet sched → Settled c (run s sched) := by
  induction sched with
  | nil => exact fun h _ => h
  | cons x sched ih => exact fun h hn => ih (settled_step h x.1 x.2 (hn x List.mem_cons_self)) hn.tail

theorem settled_of {c : Ctx} {s : Sys} (h : s.glob = some c) (hq : Quiescent s) : Settled c s :=
  ⟨h, fun _ _ hp => .inl (hq _ (List.mem_of_getElem? hp))⟩

/-- How one step changes a logger's context, whatever the state. -/
theorem ctx_step (s : Sys) (t : Tid) (a : Act) (l : LogId) :
    (step s t a).ctx l = s.ctx l ∨ s.ctx l = none ∧
      ((∃ c, a = .new l (some c) ∧ (step s t a).ctx l = some c) ∨ s.glob ≠ none ∧ (step s t a).ctx l = s.glob) := by
  have reg : ∀ (s' : Sys) (m : LogId) (d : Ctx), s'.ctx = s.ctx → (register s' m d).ctx l = s.ctx l ∨
      s.ctx l = none ∧ m = l ∧ (register s' m d).ctx l = some d := by
    intro s' m d hs
    unfold register
    split
    · next hn =>
      by_cases hm : l = m
      · subst hm
        right
        exact ⟨hs ▸ hn, rfl, by simp [upd]⟩
      · left; simp only [upd, if_neg hm, hs]
    · left; rw [hs]
  unfold step
  cases hp : s.pcs[t]? with
  | none => exact .inl rfl
  | some p =>
    dsimp only
    split
    · cases p with
      | idle => exact .inl rfl
      | test k => exact .inl rfl
      | make k => exact .inl rfl
      | store k d => exact .inl rfl
      | read k =>
        simp only [go, finish]
        split
        · next m d hg =>
          rcases reg { s.to t .idle with res := s.res ++ [(t, Cont.log m, s.glob)] } m d rfl with h | ⟨h1, h2, h3⟩
          · exact .inl h
          · refine .inr ⟨h1, .inr ⟨by rw [hg]; simp, ?_⟩⟩
            rw [h3, hg]
        · exact .inl rfl
        · exact .inl rfl
    · split
      · cases a with
        | get => exact .inl rfl
        | new m x =>
          cases x with
          | none => exact .inl rfl
          | some d =>
            simp only [call]
            split
            · rcases reg s m d rfl with h | ⟨h1, h2, h3⟩
              · exact .inl h
              · subst h2
                exact .inr ⟨h1, .inl ⟨d, rfl, h3⟩⟩
            · exact .inl rfl
        | flush => exact .inl rfl
        | set d =>
          cases d with
          | none => exact .inl rfl
          | some d =>
            simp only [call]
            split <;> exact .inl rfl
        | mkctx => exact .inl rfl
        | publish m e =>
          simp only [call]
          split <;> exact .inl rfl
        | go => exact .inl rfl
      · exact .inl rfl

/-- **C110**, for good: a logger stays with the context it was registered with, whatever happens to the global one. -/
theorem C110_stays (s : Sys) (sched : List (Tid × Act)) (l : LogId) (c : Ctx) (h : s.ctx l = some c) :
    (run s sched).ctx l = some c := by
  induction sched generalizing s with
  | nil => exact h
  | cons x sched ih =>
    refine ih _ ?_
    rcases ctx_step s x.1 x.2 l with h1 | ⟨h1, _⟩
    · exact h1.trans h
    · rw [h] at h1; cases h1

/-- How one step changes what is delivered of a logger: only `get_context().flush()` does. -/
theorem got_step (s : Sys) (t : Tid) (a : Act) (l : LogId) :
    (step s t a).got l = s.got l ∧ ((step s t a).queue l = s.queue l ∨ (∃ e, (step s t a).queue l = s.queue l ++ [e]) ∨
      s.ctx l = none ∧ (step s t a).queue l = []) ∨
    s.pcs[t]? = some (.read .flush) ∧ a = .go ∧ s.glob ≠ none ∧ s.ctx l = s.glob ∧
      (step s t a).got l = s.got l ++ s.queue l ∧ (step s t a).queue l = [] := by
  have reg : ∀ (s' : Sys) (m : LogId) (d : Ctx), s'.ctx = s.ctx → s'.queue = s.queue → s'.got = s.got →
      (register s' m d).got l = s.got l ∧ ((register s' m d).queue l = s.queue l ∨
        (∃ e, (register s' m d).queue l = s.queue l ++ [e]) ∨ s.ctx l = none ∧ (register s' m d).queue l = []) := by
    intro s' m d h1 h2 h3
    unfold register
    split
    · next hn =>
      refine ⟨by rw [← h3], ?_⟩
      by_cases hm : l = m
      · subst hm
        exact .inr (.inr ⟨h1 ▸ hn, by simp [upd]⟩)
      · left; simp only [upd, if_neg hm, h2]
    · exact ⟨by rw [h3], .inl (by rw [h2])⟩
  unfold step
  cases hp : s.pcs[t]? with
  | none => exact .inl ⟨rfl, .inl rfl⟩
  | some p =>
    dsimp only
    split
    · next hgo =>
      cases p with
      | idle => exact .inl ⟨rfl, .inl rfl⟩
      | test k => exact .inl ⟨rfl, .inl rfl⟩
      | make k => exact .inl ⟨rfl, .inl rfl⟩
      | store k d => exact .inl ⟨rfl, .inl rfl⟩
      | read k =>
        simp only [go, finish]
        split
        · next m d hg =>
          exact .inl (reg { s.to t .idle with res := s.res ++ [(t, Cont.log m, s.glob)] } m d rfl rfl rfl)
        · next d hg =>
          by_cases hl : s.ctx l = some d
          · refine .inr ⟨rfl, hgo, by rw [hg]; simp, by rw [hl, hg], ?_, ?_⟩
            · exact if_pos hl
            · exact if_pos hl
          · refine .inl ⟨?_, .inl ?_⟩
            · exact if_neg hl
            · exact if_neg hl
        · exact .inl ⟨rfl, .inl rfl⟩
    · split
      · cases a with
        | get => exact .inl ⟨rfl, .inl rfl⟩
        | new m x =>
          cases x with
          | none => exact .inl ⟨rfl, .inl rfl⟩
          | some d =>
            simp only [call]
            split
            · exact .inl (reg s m d rfl rfl rfl)
            · exact .inl ⟨rfl, .inl rfl⟩
        | flush => exact .inl ⟨rfl, .inl rfl⟩
        | set d =>
          cases d with
          | none => exact .inl ⟨rfl, .inl rfl⟩
          | some d =>
            simp only [call]
            split <;> exact .inl ⟨rfl, .inl rfl⟩
        | mkctx => exact .inl ⟨rfl, .inl rfl⟩
        | publish m e =>
          simp only [call]
          split
          · exact .inl ⟨rfl, .inl rfl⟩
          · refine .inl ⟨rfl, ?_⟩
            by_cases hm : l = m
            · subst hm; exact .inr (.inl ⟨e, by simp [upd]⟩)
            · exact .inl (by simp only [upd, if_neg hm])
        | go => exact .inl ⟨rfl, .inl rfl⟩
      · exact .inl ⟨rfl, .inl rfl⟩

/-- A logger of another context is not flushed through the global one. -/
theorem lost_run {c d : Ctx} (hcd : d ≠ c) {l : LogId} (sched : List (Tid × Act)) :
    ∀ {s : Sys}, Settled c s → s.ctx l = some d → NoSet sched → (run s sched).got l = s.got l := by
  induction sched with
  | nil => exact fun _ _ _ => rfl
  | cons x sched ih =>
    intro s h hl hn
    have h2 := C110_stays s [x] l d hl
    rw [run_cons, ih (settled_step h x.1 x.2 (hn x List.mem_cons_self)) h2 hn.tail]
    rcases got_step s x.1 x.2 l with h1 | ⟨_, _, _, h1, _⟩
    · exact h1.1
    · rw [hl, h.glob] at h1
      exact absurd (Option.some.inj h1) hcd

/-- **C110**, what it leads to: after the race no call of `get_context().flush()` by anyone ever delivers an event of the first
logger. -/
theorem C110_lost_violated (after : List (Tid × Act)) (hn : NoSet after) :
    (run (init 2) race).ctx 0 ≠ none ∧ (run (init 2) (race ++ after)).got 0 = [] := by
  refine ⟨by decide, ?_⟩
  rw [run_append, lost_run (c := 1) (d := 0) (by decide) after (settled_of (by decide) (by unfold Quiescent; decide)) (by decide) hn]
  decide

theorem C110_flush_violated : ¬ FlushReaches := by
  intro h
  have h1 := h 2 (race ++ [(0, .publish 0 7)]) [(0, .go), (0, .go)] 0 0 7 (by unfold NoSet race; simp) (by unfold race; simp)
    (by decide) (by decide) (by simp) (by decide)
  exact absurd h1 (by decide)

/-! ### What holds -/

/-- How one step changes the list of results. -/
theorem res_step (s : Sys) (t : Tid) (a : Act) :
    (step s t a).res = s.res ∨ ∃ k, s.pcs[t]? = some (.read k) ∧ (step s t a).res = s.res ++ [(t, k, s.glob)] := by
  unfold step
  cases hp : s.pcs[t]? with
  | none => exact .inl rfl
  | some p =>
    dsimp only
    split
    · cases p with
      | idle => exact .inl rfl
      | test k => exact .inl rfl
      | make k => exact .inl rfl
      | store k d => exact .inl rfl
      | read k => exact .inr ⟨k, rfl, (finish_fields s t k).2.2.1⟩
    · split
      · cases a with
        | get => exact .inl rfl
        | new m x =>
          cases x with
          | none => exact .inl rfl
          | some d =>
            simp only [call]
            split
            · exact .inl (register_fields s m d).2.2.1
            · exact .inl rfl
        | flush => exact .inl rfl
        | set d =>
          cases d with
          | none => exact .inl rfl
          | some d => simp only [call]; split <;> exact .inl rfl
        | mkctx => exact .inl rfl
        | publish m e => simp only [call]; split <;> exact .inl rfl
        | go => exact .inl rfl
      · exact .inl rfl

theorem settled_res {c : Ctx} (sched : List (Tid × Act)) : ∀ {s : Sys}, Settled c s → NoSet sched →
    ∃ r, (run s sched).res = s.res ++ r ∧ ∀ x ∈ r, x.2.2 = some c := by
  induction sched with
  | nil => exact fun _ _ => ⟨[], by simp [run], by simp⟩
  | cons x sched ih =>
    intro s h hn
    obtain ⟨r, h1, h2⟩ := ih (settled_step h x.1 x.2 (hn x List.mem_cons_self)) hn.tail
    rcases res_step s x.1 x.2 with h3 | ⟨k, _, h3⟩
    · exact ⟨r, by rw [run_cons, h1, h3], h2⟩
    · refine ⟨(x.1, k, s.glob) :: r, by rw [run_cons, h1, h3]; simp, fun y hy => ?_⟩
      rcases List.mem_cons.1 hy with rfl | hy
      · exact h.glob
      · exact h2 y hy

/-- **C110**, part: once the global context exists and no thread is in the middle of asking for it, every later call of
`get_context` by any thread returns it until someone calls `set_context`, and every logger made from then on without
`context=` is registered with it.  What the full claim adds is the first calls. -/
theorem C110_settled_partial (n : Nat) (before after : List (Tid × Act)) (c : Ctx)
    (hq : Quiescent (run (init n) before)) (hg : (run (init n) before).glob = some c) (hn : NoSet after) :
    (∃ r, (run (init n) (before ++ after)).res = (run (init n) before).res ++ r ∧ ∀ x ∈ r, x.2.2 = some c) ∧
    ∀ l, (run (init n) before).ctx l = none → (∀ x ∈ after, ∀ d, x.2 ≠ .new l (some d)) →
      (run (init n) (before ++ after)).ctx l = none ∨ (run (init n) (before ++ after)).ctx l = some c := by
  have hs := settled_of hg hq
  rw [run_append]
  refine ⟨settled_res after hs hn, fun l hl hx => ?_⟩
  generalize run (init n) before = s at hs hl
  clear hq hg
  induction after generalizing s with
  | nil => exact .inl hl
  | cons x after ih =>
    rw [run_cons]
    rcases ctx_step s x.1 x.2 l with h1 | ⟨_, ⟨d, h1, _⟩ | ⟨_, h1⟩⟩
    · exact ih hn.tail (fun y hy => hx y (List.mem_cons_of_mem _ hy)) _
        (settled_step hs x.1 x.2 (hn x List.mem_cons_self)) (h1.trans hl)
    · exact absurd h1 (hx x List.mem_cons_self d)
    · right
      exact C110_stays _ after l c (h1.trans hs.glob)

/-- The state of one thread on its own. -/
structure Lone (s : Sys) : Prop where
  res : ∀ x ∈ s.res, x.2.2 = s.glob
  pcs : ∀ p, s.pcs[0]? = some p → (∃ k, p = .make k) ∨ (∃ k c, p = .store k c) → s.res = [] ∧ s.glob = none
  read : ∀ k, s.pcs[0]? = some (.read k) → s.glob ≠ none
  len : s.pcs.length ≤ 1

theorem lone_step {s : Sys} (h : Lone s) (hres : s.glob = none → s.res = []) (t : Tid) (a : Act) (ha : ∀ c, a ≠ .set c) :
    Lone (step s t a) ∧ ((step s t a).glob = none → (step s t a).res = []) := by
  unfold step
  cases hp : s.pcs[t]? with
  | none => exact ⟨h, hres⟩
  | some p =>
    have ht : t = 0 := by
      have h1 := (List.getElem?_eq_some_iff.mp hp).1
      have h2 := h.len
      exact Nat.lt_one_iff.1 (Nat.lt_of_lt_of_le h1 h2)
    subst ht
    have hlt := (List.getElem?_eq_some_iff.mp hp).1
    dsimp only
    have keep : ∀ (s' : Sys), s'.glob = s.glob → s'.pcs = s.pcs → s'.res = s.res → Lone s' ∧ (s'.glob = none → s'.res = []) := by
      intro s' h1 h2 h3
      refine ⟨⟨?_, ?_, ?_, ?_⟩, ?_⟩
      · rw [h3, h1]; exact h.res
      · rw [h3, h1, h2]; exact h.pcs
      · rw [h1, h2]; exact h.read
      · rw [h2]; exact h.len
      · rw [h1, h3]; exact hres
    have move : ∀ (s' : Sys) (q : PC), s'.pcs = s.pcs.set 0 q → (∀ x ∈ s'.res, x.2.2 = s'.glob) →
        ((∃ k, q = .make k) ∨ (∃ k c, q = .store k c) → s'.res = [] ∧ s'.glob = none) → ((∃ k, q = .read k) → s'.glob ≠ none) →
        (s'.glob = none → s'.res = []) → Lone s' ∧ (s'.glob = none → s'.res = []) := by
      intro s' q h1 h2 h3 h4 h5
      have h0 : s'.pcs[0]? = some q := by rw [h1]; exact List.getElem?_set_self hlt
      refine ⟨⟨h2, fun p' hp' => ?_, fun k hk => ?_, by rw [h1, List.length_set]; exact h.len⟩, h5⟩
      · rw [h0] at hp'; cases hp'; exact h3
      · rw [h0] at hk; cases hk; exact h4 ⟨k, rfl⟩
    split
    · cases p with
      | idle => exact ⟨h, hres⟩
      | test k =>
        simp only [go]
        by_cases hg : s.glob = none
        · rw [if_pos hg]
          exact move _ _ rfl h.res (fun _ => ⟨hres hg, hg⟩) (by simp) hres
        · rw [if_neg hg]
          exact move _ _ rfl h.res (by simp) (fun _ => hg) hres
      | make k =>
        have := h.pcs _ hp (.inl ⟨k, rfl⟩)
        exact move _ _ rfl h.res (fun _ => this) (by simp) hres
      | store k c =>
        have := h.pcs _ hp (.inr ⟨k, c, rfl⟩)
        exact move _ (.read k) rfl (by simp [go, Sys.to, this.1]) (by simp) (by simp [go]) (by simp [go])
      | read k =>
        obtain ⟨h1, h2, h3, _⟩ := finish_fields s 0 k
        have hg := h.read k hp
        refine move _ .idle h2 ?_ (by simp) (by simp) ?_
        · simp only [go, h3, h1]
          intro x hx
          rcases List.mem_append.1 hx with hx | hx
          · exact h.res x hx
          · simp at hx; subst hx; rfl
        · simp only [go, h1]
          exact fun hn => absurd hn hg
    · split
      · cases a with
        | get => exact move _ (.test .get) rfl h.res (by simp) (by simp) hres
        | new m x =>
          cases x with
          | none => exact move _ (.test (.log m)) rfl h.res (by simp) (by simp) hres
          | some d =>
            simp only [call]
            split
            · obtain ⟨h1, h2, h3, _⟩ := register_fields s m d
              exact keep _ h1 h2 h3
            · exact ⟨h, hres⟩
        | flush => exact move _ (.test .flush) rfl h.res (by simp) (by simp) hres
        | set d => exact absurd rfl (ha d)
        | mkctx => exact keep _ rfl rfl rfl
        | publish m e =>
          simp only [call]
          split
          · exact ⟨h, hres⟩
          · exact keep _ rfl rfl rfl
        | go => exact ⟨h, hres⟩
      · exact ⟨h, hres⟩

/-- **C110**, part: in a program with one thread the claim holds. -/
theorem C110_alone_partial (sched : List (Tid × Act)) (hn : NoSet sched) :
    ∀ x ∈ (run (init 1) sched).res, ∀ y ∈ (run (init 1) sched).res, x.2.2 = y.2.2 := by
  have main : ∀ s, Lone s → (s.glob = none → s.res = []) → NoSet sched → Lone (run s sched) := by
    clear hn
    induction sched with
    | nil => exact fun s h _ _ => h
    | cons x sched ih =>
      intro s h hr hn
      obtain ⟨h1, h2⟩ := lone_step h hr x.1 x.2 (hn x List.mem_cons_self)
      exact ih _ h1 h2 hn.tail
  have h0 : Lone (init 1) := by
    refine ⟨by simp [init], ?_, ?_, by simp [init]⟩
    · intro p hp h
      simp only [init, List.replicate_one, List.getElem?_cons_zero, Option.some.injEq] at hp
      subst hp; simp at h
    · intro k hk
      simp [init] at hk
  have h := main _ h0 (fun _ => rfl) hn
  intro x hx y hy
  rw [h.res x hx, h.res y hy]

/-- No thread reads None where it should read a context. -/
structure Sound (s : Sys) : Prop where
  res : ∀ x ∈ s.res, x.2.2 ≠ none
  read : ∀ (t : Tid) k, s.pcs[t]? = some (.read k) → s.glob ≠ none

theorem sound_step {s : Sys} (h : Sound s) (t : Tid) (a : Act) (ha : a ≠ .set none) : Sound (step s t a) := by
  refine ⟨?_, ?_⟩
  · rcases res_step s t a with h1 | ⟨k, h1, h2⟩
    · rw [h1]; exact h.res
    · rw [h2]
      intro x hx
      rcases List.mem_append.1 hx with hx | hx
      · exact h.res x hx
      · simp at hx; subst hx; exact h.read t k h1
  · have hglob : s.glob ≠ none → (step s t a).glob ≠ none := by
      intro hg
      unfold step
      cases hp : s.pcs[t]? with
      | none => exact hg
      | some p =>
        dsimp only
        split
        · cases p with
          | idle => exact hg
          | test k => exact hg
          | make k => exact hg
          | store k d => simp [go]
          | read k => simp only [go]; rw [(finish_fields s t k).1]; exact hg
        · split
          · cases a with
            | get => exact hg
            | new m x =>
              cases x with
              | none => exact hg
              | some d =>
                simp only [call]
                split
                · rw [(register_fields s m d).1]; exact hg
                · exact hg
            | flush => exact hg
            | set d =>
              cases d with
              | none => exact absurd rfl ha
              | some d => simp only [call]; split <;> simp [hg]
            | mkctx => exact hg
            | publish m e => simp only [call]; split <;> exact hg
            | go => exact hg
          · exact hg
    intro u k hu
    by_cases hold : s.pcs[u]? = some (.read k)
    · exact hglob (h.read u k hold)
    · -- the thread has just got there
      unfold step at hu ⊢
      cases hp : s.pcs[t]? with
      | none => rw [hp] at hu; exact absurd hu hold
      | some p =>
        rw [hp] at hu
        dsimp only at hu ⊢
        have get : ∀ (s' : Sys) (q : PC), s'.pcs = s.pcs.set t q → s'.pcs[u]? = some (.read k) → q = .read k := by
          intro s' q h1 h2
          rw [h1, List.getElem?_set] at h2
          split at h2
          · split at h2
            · exact Option.some.inj h2
            · cases h2
          · exact absurd h2 hold
        split at hu
        · next hgo =>
          rw [if_pos hgo]
          cases p with
          | idle => exact absurd hu hold
          | test j =>
            simp only [go] at hu ⊢
            have := get _ _ rfl hu
            by_cases hg : s.glob = none
            · rw [if_pos hg] at this; cases this
            · exact hg
          | make j => have := get _ _ rfl hu; cases this
          | store j d => simp [go]
          | read j => have := get _ _ (finish_fields s t j).2.1 hu; cases this
        · split at hu
          · cases a with
            | get => have := get _ _ rfl hu; cases this
            | new m x =>
              cases x with
              | none => have := get _ _ rfl hu; cases this
              | some d =>
                simp only [call] at hu
                split at hu
                · rw [(register_fields s m d).2.1] at hu; exact absurd hu hold
                · exact absurd hu hold
            | flush => have := get _ _ rfl hu; cases this
            | set d =>
              cases d with
              | none => exact absurd rfl ha
              | some d => simp only [call] at hu; split at hu <;> exact absurd hu hold
            | mkctx => exact absurd hu hold
            | publish m e => simp only [call] at hu; split at hu <;> exact absurd hu hold
            | go => exact absurd hu hold
          · exact absurd hu hold

/-- **C110**, part: unless someone calls `set_context(None)`, `get_context` never returns None, in any thread and any schedule,
so making a logger does not fail. -/
theorem C110_some_partial (n : Nat) (sched : List (Tid × Act)) (hn : ∀ x ∈ sched, x.2 ≠ .set none) :
    ∀ x ∈ (run (init n) sched).res, x.2.2 ≠ none := by
  have main : ∀ s, Sound s → Sound (run s sched) := by
    induction sched with
    | nil => exact fun s h => h
    | cons x sched ih =>
      exact fun s h => ih (fun y hy => hn y (List.mem_cons_of_mem _ hy)) _ (sound_step h x.1 x.2 (hn x List.mem_cons_self))
  refine (main _ ⟨by simp [init], fun t k ht => ?_⟩).res
  have := List.eq_of_mem_replicate (List.mem_of_getElem? ht)
  cases this

/-- **C110**, why: with it, a logger made by another thread at the same time may fail. -/
theorem C110_none_violated : ∃ sched, (1, Cont.log 5, none) ∈ (run (init 2) sched).res :=
  ⟨[(0, .get), (0, .go), (0, .go), (0, .go), (0, .go), (1, .new 5 none), (1, .go), (0, .set none), (1, .go)], by decide⟩

/-- Where the thread that flushes is. -/
inductive Flushing (e : Ev) (l : LogId) (t : Tid) (s : Sys) : Prop
  | under (p : PC) (hp : s.pcs[t]? = some p) (hc : p = .test .flush ∨ p = .read .flush) (ev : e ∈ s.queue l ∨ e ∈ s.got l)
  | done (ev : e ∈ s.got l)

/-- **C110**, part: once the global context exists and no thread is in the middle of asking for it, and until someone calls
`set_context`, `get_context().flush()` delivers every event that was queued on a logger of that context when it was called,
whatever other threads do. -/
theorem C110_flush_partial (n : Nat) (before mid after : List (Tid × Act)) (c : Ctx) (t : Tid) (l : LogId) (e : Ev)
    (hq : Quiescent (run (init n) before)) (hg : (run (init n) before).glob = some c) (hn : NoSet (mid ++ after))
    (ht : (run (init n) (before ++ mid)).pcs[t]? = some .idle)
    (hl : (run (init n) (before ++ mid)).ctx l = some c) (he : e ∈ (run (init n) (before ++ mid)).queue l)
    (hmine : ∀ x ∈ after, x.1 = t → x.2 = .go)
    (hend : (run (init n) (before ++ mid ++ (t, .flush) :: after)).pcs[t]? = some .idle) :
    e ∈ (run (init n) (before ++ mid ++ (t, .flush) :: after)).got l := by
  have hs := settled_run mid (settled_of hg hq) (fun x hx => hn x (List.mem_append_left _ hx))
  rw [← run_append] at hs
  rw [run_append, run_cons] at hend ⊢
  generalize run (init n) (before ++ mid) = s at hs ht hl he hend ⊢
  have hna : NoSet after := fun x hx => hn x (List.mem_append_right _ hx)
  have hlt := (List.getElem?_eq_some_iff.mp ht).1
  have hst : step s t .flush = s.to t (.test .flush) := by
    unfold step; rw [ht]; simp [call]
  have h1 : Flushing e l t (step s t .flush) := by
    rw [hst]
    exact .under _ (by simp [Sys.to, hlt]) (.inl rfl) (.inl he)
  have h2 : Settled c (step s t .flush) := settled_step hs t .flush (by simp)
  have h3 : (step s t .flush).ctx l = some c := by rw [hst]; exact hl
  generalize step s t .flush = s' at h1 h2 h3 hend ⊢
  have main : ∀ s, Flushing e l t s → Settled c s → s.ctx l = some c → Flushing e l t (run s after) := by
    clear hend h1 h2 h3 s'
    clear hn hs hst ht hl he hlt s
    induction after with
    | nil => exact fun s h _ _ => h
    | cons x after ih =>
      intro s h hs hl
      rw [run_cons]
      refine ih (fun y hy => hmine y (List.mem_cons_of_mem _ hy)) hna.tail _ ?_
        (settled_step hs x.1 x.2 (hna x List.mem_cons_self)) (C110_stays s [x] l c hl)
      have keep : (e ∈ s.got l → e ∈ (step s x.1 x.2).got l) ∧ (e ∈ s.queue l → e ∈ (step s x.1 x.2).queue l ∨
          e ∈ (step s x.1 x.2).got l) := by
        rcases got_step s x.1 x.2 l with ⟨g1, g2⟩ | ⟨_, _, _, _, g1, g2⟩
        · refine ⟨fun hx => g1 ▸ hx, fun hx => .inl ?_⟩
          rcases g2 with g2 | ⟨f, g2⟩ | ⟨g2, _⟩
          · rw [g2]; exact hx
          · rw [g2]; exact List.mem_append_left _ hx
          · rw [hl] at g2; cases g2
        · rw [g1]
          exact ⟨fun hx => List.mem_append_left _ hx, fun hx => .inr (List.mem_append_right _ hx)⟩
      cases h with
      | done ev => exact .done (keep.1 ev)
      | under p hp hc ev =>
        have ev' : e ∈ (step s x.1 x.2).queue l ∨ e ∈ (step s x.1 x.2).got l := by
          rcases ev with ev | ev
          · exact keep.2 ev
          · exact .inr (keep.1 ev)
        by_cases hxt : x.1 = t
        · have hxa := hmine x List.mem_cons_self hxt
          have hstep : step s x.1 x.2 = go s t p := by rw [hxt, hxa]; unfold step; rw [hp]; simp
          have hlt := (List.getElem?_eq_some_iff.mp hp).1
          rcases hc with rfl | rfl
          · rw [hstep] at ev' ⊢
            refine .under (.read .flush) ?_ (.inr rfl) ev'
            simp [go, hs.glob, Sys.to, hlt]
          · refine .done ?_
            rcases ev with ev | ev
            · rw [hstep]
              simp only [go, finish, hs.glob, flushCtx, Sys.to, if_pos hl]
              exact List.mem_append_right _ ev
            · exact keep.1 ev
        · refine .under p ?_ hc ev'
          unfold step
          cases hpx : s.pcs[x.1]? with
          | none => exact hp
          | some r =>
            dsimp only
            have mv : ∀ q, (s.pcs.set x.1 q)[t]? = some p := fun q => by rw [List.getElem?_set_ne hxt]; exact hp
            split
            · cases r with
              | idle => exact hp
              | test k => exact mv _
              | make k => exact mv _
              | store k d => exact mv _
              | read k => simp only [go]; rw [(finish_fields s x.1 k).2.1]; exact mv _
            · split
              · cases hact : x.2 with
                | get => exact mv _
                | new m y =>
                  cases y with
                  | none => exact mv _
                  | some d =>
                    simp only [call]
                    split
                    · rw [(register_fields s m d).2.1]; exact hp
                    · exact hp
                | flush => exact mv _
                | set d => exact absurd hact (hna x List.mem_cons_self d)
                | mkctx => exact hp
                | publish m e => simp only [call]; split <;> exact hp
                | go => exact hp
              · exact hp
  cases main s' h1 h2 h3 with
  | done ev => exact ev
  | under p hp hc _ =>
    rw [hend] at hp
    cases hp
    rcases hc with hc | hc <;> cases hc

/-! ### The hypotheses can be met -/

/-- The main thread asks for the context; then two threads make loggers, one publishes, the other flushes meanwhile. -/
example :
    let before : List (Tid × Act) := [(0, .get), (0, .go), (0, .go), (0, .go), (0, .go)]
    let mid : List (Tid × Act) := [(1, .new 3 none), (2, .new 4 none), (1, .go), (2, .go), (1, .go), (2, .go), (1, .publish 3 7)]
    let after : List (Tid × Act) := [(2, .go), (1, .publish 3 8), (2, .go), (1, .publish 3 9)]
    let s := run (init 3) (before ++ mid ++ (2, .flush) :: after)
    Quiescent (run (init 3) before) ∧ (run (init 3) before).glob = some 0 ∧ NoSet (mid ++ after) ∧
    (run (init 3) (before ++ mid)).ctx 3 = some 0 ∧ 7 ∈ (run (init 3) (before ++ mid)).queue 3 ∧
    s.pcs[2]? = some .idle ∧ s.got 3 = [7, 8] ∧ s.queue 3 = [9] ∧ s.res.length = 4 := by
  refine ⟨by unfold Quiescent; decide, by decide, by unfold NoSet; simp, by decide, by decide, by decide, by decide, by decide, by decide⟩

/-- A program with one thread. -/
example :
    let sched : List (Tid × Act) := [(0, .new 3 none), (0, .go), (0, .go), (0, .go), (0, .go), (0, .get), (0, .go), (0, .go)]
    NoSet sched ∧ (run (init 1) sched).res = [(0, .log 3, some 0), (0, .get, some 0)] := by
  refine ⟨by unfold NoSet; simp, by decide⟩

/-- A logger stays with its context when the global one is replaced. -/
example :
    let s := run (init 1) [(0, .new 3 none), (0, .go), (0, .go), (0, .go), (0, .go)]
    s.ctx 3 = some 0 ∧ (run s [(0, .mkctx), (0, .set (some 1))]).glob = some 1 := by decide

/-- Every context in use has been made. -/
structure Below (s : Sys) : Prop where
  ctx : ∀ l c, s.ctx l = some c → c < s.next
  glob : ∀ c, s.glob = some c → c < s.next
  held : ∀ k c, PC.store k c ∈ s.pcs → c < s.next

theorem below_to {s : Sys} (h : Below s) (t : Tid) {p : PC} (hp : ∀ k c, p = .store k c → c < s.next) : Below (s.to t p) :=
  ⟨h.ctx, h.glob, fun k c hc => by
    rcases List.mem_or_eq_of_mem_set hc with h' | h'
    · exact h.held k c h'
    · exact hp k c h'.symm⟩

theorem below_register {s : Sys} (h : Below s) (l : LogId) {c : Ctx} (hc : c < s.next) : Below (register s l c) := by
  unfold register
  split
  · refine ⟨fun m d hd => ?_, h.glob, h.held⟩
    by_cases hm : m = l
    · simp [upd, hm] at hd; exact hd ▸ hc
    · simp [upd, hm] at hd; exact h.ctx m d hd
  · exact h

theorem below_finish {s : Sys} (h : Below s) (t : Tid) (k : Cont) : Below (finish s t k) := by
  have h0 : Below { s.to t .idle with res := s.res ++ [(t, k, s.glob)] } :=
    let h1 := below_to h t (p := .idle) (by simp)
    ⟨h1.ctx, h1.glob, h1.held⟩
  unfold finish
  cases k with
  | get => exact h0
  | log l =>
    cases hg : s.glob with
    | none => rw [hg] at h0; exact h0
    | some c => rw [hg] at h0; exact below_register h0 l (h.glob c hg)
  | flush =>
    cases hg : s.glob with
    | none => rw [hg] at h0; exact h0
    | some c => rw [hg] at h0; exact ⟨h0.ctx, h0.glob, h0.held⟩

theorem below_step {s : Sys} (h : Below s) (t : Tid) (a : Act) : Below (step s t a) := by
  unfold step
  cases hp : s.pcs[t]? with
  | none => exact h
  | some p =>
    dsimp only
    split
    · cases p with
      | idle => exact h
      | test k => exact below_to h t (by intro k c; split <;> simp)
      | make k =>
        have h1 : Below { s with next := s.next + 1 } :=
          ⟨fun l c hc => Nat.lt_succ_of_lt (h.ctx l c hc), fun c hc => Nat.lt_succ_of_lt (h.glob c hc),
            fun k c hc => Nat.lt_succ_of_lt (h.held k c hc)⟩
        exact below_to h1 t (p := .store k s.next) (by intro k' c hc; cases hc; exact Nat.lt_succ_self _)
      | store k d =>
        have h1 := below_to h t (p := .read k) (by simp)
        exact ⟨h1.ctx, fun c hc => by cases hc; exact h.held k d (List.mem_of_getElem? hp), h1.held⟩
      | read k => exact below_finish h t k
    · split
      · cases a with
        | get => exact below_to h t (by simp)
        | new m x =>
          cases x with
          | none => exact below_to h t (by simp)
          | some d =>
            simp only [call]
            split
            · exact below_register h m (by assumption)
            · exact h
        | flush => exact below_to h t (by simp)
        | set d =>
          cases d with
          | none => exact ⟨h.ctx, by simp [call], h.held⟩
          | some d =>
            simp only [call]
            split
            · rename_i hd
              exact ⟨h.ctx, fun c hc => by cases hc; exact hd, h.held⟩
            · exact h
        | mkctx =>
          exact ⟨fun l c hc => Nat.lt_succ_of_lt (h.ctx l c hc), fun c hc => Nat.lt_succ_of_lt (h.glob c hc),
            fun k c hc => Nat.lt_succ_of_lt (h.held k c hc)⟩
        | publish m e =>
          simp only [call]
          split
          · exact h
          · exact ⟨h.ctx, h.glob, h.held⟩
        | go => exact h
      · exact h

theorem below_run (sched : List (Tid × Act)) : ∀ {s : Sys}, Below s → Below (run s sched) := by
  induction sched with
  | nil => exact fun h => h
  | cons x sched ih => exact fun h => ih (below_step h x.1 x.2)

/-- **C110**, part: a context the application makes is a new one: it is not the global one, no logger belongs to it and no thread
is about to store it, so that flushing it delivers nothing; and `set_context` can make it the global one. -/
theorem C110_new (n : Nat) (before : List (Tid × Act)) (t : Tid) (ht : (run (init n) before).pcs[t]? = some .idle) :
    let s := run (init n) (before ++ [(t, .mkctx)])
    ∃ c, s.glob ≠ some c ∧ (∀ l, s.ctx l ≠ some c) ∧ (∀ k, PC.store k c ∉ s.pcs) ∧ (∀ l, (flushCtx s c).got l = s.got l) ∧
      (run (init n) (before ++ [(t, .mkctx), (t, .set (some c))])).glob = some c := by
  have h : Below (run (init n) before) := below_run before ⟨by simp [init], by simp [init], by simp [init]⟩
  have h1 : run (init n) (before ++ [(t, .mkctx)]) =
      { run (init n) before with next := (run (init n) before).next + 1 } := by
    rw [run_append]
    show step (run (init n) before) t .mkctx = _
    simp [step, ht, call]
  have h2 : run (init n) (before ++ [(t, .mkctx), (t, .set (some (run (init n) before).next))]) =
      { run (init n) before with next := (run (init n) before).next + 1, glob := some (run (init n) before).next } := by
    rw [show before ++ [(t, Act.mkctx), (t, .set (some (run (init n) before).next))] =
      (before ++ [(t, .mkctx)]) ++ [(t, .set (some (run (init n) before).next))] by simp, run_append, h1]
    show step _ t (.set _) = _
    simp [step, ht, call]
  have hc : ∀ l, (run (init n) before).ctx l ≠ some (run (init n) before).next :=
    fun l e => Nat.lt_irrefl _ (h.ctx l _ e)
  rw [h1]
  refine ⟨(run (init n) before).next, fun e => Nat.lt_irrefl _ (h.glob _ e), hc, fun k e => Nat.lt_irrefl _ (h.held k _ e),
    fun l => ?_, by rw [h2]⟩
  simp [flushCtx, hc l]

/-- A case: a second context beside the global one, which has a logger. -/
example :
    let before : List (Tid × Act) := [(0, .new 3 none), (0, .go), (0, .go), (0, .go), (0, .go)]
    (run (init 1) before).pcs[0]? = some .idle ∧ (run (init 1) before).ctx 3 = some 0 ∧ (run (init 1) before).glob = some 0 := by
  decide

end Verif.Global
