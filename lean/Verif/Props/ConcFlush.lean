import Verif.Props.Concurrent
import Mathlib.Data.List.Perm.Subperm
/-!
# C104, C105: what a flush has done when it returns, and when it is interrupted
-/
namespace Verif.Conc
open scoped List

/-! ### C104: a flush that returns has delivered what was queued when it was called -/

/-- Deliveries only add to the trace, publications only to `pub`. -/
theorem step_grows (c : Conf) (s : Sys) (t : Tid) (a : Act) :
    s.trace <+: (step c s t a).trace ∧ s.pub <+: (step c s t a).pub := by
  cases a with
  | publish k e => simp only [Conc.step]; split <;> simp
  | flush => simp only [Conc.step]; split <;> simp [Sys.at]
  | go =>
    simp only [Conc.step]
    split
    · simp
    · split <;> simp [Sys.at]
    · simp [Sys.at]
    · simp [Sys.at]
    · simp [Sys.at]
    · split <;> simp [Sys.at, Sys.leave]
    · split <;> simp [Sys.at, Sys.leave]
    · simp [Sys.at]
    · simp [Sys.at]
    · simp [Sys.at]
  | raise => simp only [Conc.step]; split <;> simp [Sys.at, Sys.leave]

theorem received_grows {i : SinkId} {a b : List Obs} (h : a <+: b) : received i a <+: received i b := by
  obtain ⟨r, rfl⟩ := h
  simp only [received, List.filterMap_append]
  exact List.prefix_append _ _

/-- A step of another thread leaves a thread where it is. -/
theorem step_pc_other (c : Conf) (s : Sys) (t u : Tid) (a : Act) (h : t ≠ u) : (step c s u a).pc t = s.pc t := by
  cases a with
  | publish k e => simp only [Conc.step]; split <;> rfl
  | flush => simp only [Conc.step]; split <;> simp [Sys.at, h]
  | go =>
    simp only [Conc.step]
    split
    · rfl
    · split <;> simp [Sys.at, h]
    · simp [Sys.at, h]
    · simp [Sys.at, h]
    · simp [Sys.at, h]
    · split <;> simp [Sys.at, Sys.leave, h]
    · split <;> simp [Sys.at, Sys.leave, h]
    · simp [Sys.at, h]
    · simp [Sys.at, h]
    · simp [Sys.at, h]
  | raise => simp only [Conc.step]; split <;> simp [Sys.at, Sys.leave, h]

/-- A thread leaves flush without an exception only when it has the lock and finds the queue empty. -/
theorem step_returns {c : Conf} {s : Sys} (h : Ok c s) {t : Tid} {a : Act} (hr : a ≠ .raise) (h1 : s.pc t ≠ .idle)
    (h2 : (step c s t a).pc t = .idle) : s.pc t = .loop ∧ s.queue = [] ∧ step c s t a = s.leave t := by
  cases a with
  | publish k e =>
    simp only [Conc.step] at h2
    split at h2 <;> exact absurd h2 h1
  | flush =>
    simp only [Conc.step] at h2
    split at h2
    · rename_i hp; exact absurd hp h1
    · exact absurd h2 h1
  | raise => exact absurd rfl hr
  | go =>
    simp only [Conc.step] at h2 ⊢
    split at h2
    · exact absurd h2 h1
    · split at h2
      · simp [Sys.at] at h2
      · exact absurd h2 h1
    · simp [Sys.at] at h2
    · simp [Sys.at] at h2
    · simp [Sys.at] at h2
    · rename_i hp
      split at h2
      · rename_i hq
        refine ⟨hp, hq, ?_⟩
        simp [hp, hq]
      · simp [Sys.at] at h2
    · rename_i hp
      split at h2
      · rename_i hq; exact absurd hq (h.nonempty t hp)
      · simp [Sys.at] at h2
    · simp [Sys.at] at h2
    · simp [Sys.at] at h2
    · simp [Sys.at] at h2

/-- Once everything in `P` is on its way, it has arrived when thread `t` is out of flush. -/
theorem arrived_run {c : Conf} (hnd : ∀ k, (c.hooks k).Nodup) {s : Sys} (h : Ok c s) (i : SinkId) (t : Tid)
    (P : List (Kind × Event)) (hacc : account c i s = wanted c i s.pub) (hP : P <+: wanted c i s.pub)
    (hin : s.pc t = .idle → P <+: received i s.trace) (sched : List (Tid × Act)) (hr : ∀ p ∈ sched, p.2 ≠ .raise)
    (hl : WithinLimit c s sched) (hret : (run c s sched).pc t = .idle) : P <+: received i (run c s sched).trace := by
  induction sched generalizing s with
  | nil => exact hin hret
  | cons p rest ih =>
    obtain ⟨u, a⟩ := p
    obtain ⟨l1, l2⟩ := hl
    have hra : a ≠ .raise := hr (u, a) (by simp)
    obtain ⟨g1, g2⟩ := step_grows c s u a
    obtain ⟨N, n1, _, n3⟩ := account_step h u a i
    have hacc' : account c i (step c s u a) = wanted c i (step c s u a).pub := by
      rw [n3 hra l1, n1, wanted_append, hacc]
    have hP' : P <+: wanted c i (step c s u a).pub := by
      rw [n1, wanted_append]
      exact hP.trans (List.prefix_append _ _)
    refine ih (h.step hnd u a) hacc' hP' ?_ (fun q hq => hr q (by simp [hq])) l2 hret
    intro hp
    by_cases hidle : s.pc t = .idle
    · exact (hin hidle).trans (received_grows g1)
    · have hut : t = u := by
        by_contra hne
        rw [step_pc_other c s t u a hne] at hp
        exact hidle hp
      subst hut
      obtain ⟨hloop, hq, heq⟩ := step_returns h hra hidle hp
      have ho : s.owner = some t := (h.lock t).1 (by rw [hloop]; rfl)
      have he : received i s.trace = wanted c i s.pub := by
        have := hacc
        simp only [account, owed_owner h i ho, hloop, PC.owed, hq, wanted, List.filter_nil, List.append_nil] at this
        exact this
      change P <+: received i (step c s t a).trace
      rw [heq]
      have : received i (s.leave t).trace = received i s.trace := rfl
      rw [this, he]
      exact hP

theorem withinLimit_append (c : Conf) (s : Sys) (a b : List (Tid × Act)) :
    WithinLimit c s (a ++ b) ↔ WithinLimit c s a ∧ WithinLimit c (run c s a) b := by
  induction a generalizing s with
  | nil => simp [WithinLimit, run]
  | cons p rest ih =>
    obtain ⟨t, x⟩ := p
    simp only [List.cons_append, WithinLimit, ih, run_cons, and_assoc]

theorem run_append (c : Conf) (s : Sys) (a b : List (Tid × Act)) : run c s (a ++ b) = run c (run c s a) b := by
  simp [run, List.foldl_append]

/-- **C104.**  Thread `t` calls flush after `s1` and is out of it after `s2`.  Then every sink has been handed everything
that was published before the call (of the kinds it takes), whichever threads did the delivering; it comes first in what
the sink has been handed, in order.  Nothing raises and the queue does not overflow. -/
theorem C104_delivered (c : Conf) (hnd : ∀ k, (c.hooks k).Nodup) (s1 s2 : List (Tid × Act)) (t : Tid)
    (hr : ∀ p ∈ s1 ++ (t, .flush) :: s2, p.2 ≠ .raise) (hl : WithinLimit c {} (s1 ++ (t, .flush) :: s2))
    (hcall : (run c {} s1).pc t = .idle) (hret : (run c {} (s1 ++ (t, .flush) :: s2)).pc t = .idle) (i : SinkId) :
    wanted c i (run c {} s1).pub <+: received i (run c {} (s1 ++ (t, .flush) :: s2)).trace := by
  have hok := (Ok.init c).run hnd s1
  rw [withinLimit_append] at hl
  have hacc := account_run_eq hnd (.init c) i (by simp [account, received, Sys.owed, wanted]) s1
    (fun p hp => hr p (List.mem_append_left _ hp)) hl.1
  rw [run_append, run_cons] at hret ⊢
  generalize run c {} s1 = s at *
  have hpc : (step c s t .flush).pc t = .waiting := by simp [Conc.step, hcall, Sys.at]
  have hpub : (step c s t .flush).pub = s.pub := by simp only [Conc.step]; split <;> rfl
  obtain ⟨N, n1, _, n3⟩ := account_step hok t .flush i
  have hacc' : account c i (step c s t .flush) = wanted c i (step c s t .flush).pub := by
    rw [n3 (by simp) (by simp), n1, wanted_append, hacc]
  exact arrived_run hnd (hok.step hnd t .flush) i t _ hacc' (by rw [hpub]; exact List.prefix_refl _) (by rw [hpc]; simp) s2
    (fun p hp => hr p (by simp [hp])) hl.2.2 hret

/-! ### C104: a flush returns -/

/-- The steps a queue takes to be delivered. -/
def work (c : Conf) (q : List (Kind × Event)) : Nat := (q.map fun p => 2 * (c.hooks p.1).length + 3).sum

/-- The steps a thread that has the lock has before it. -/
def rank (c : Conf) (q : List (Kind × Event)) : PC → Nat
  | .idle => 0
  | .waiting => 0
  | .pre false hs => 2 * hs.length + 2 + work c q
  | .pre true hs => 2 * hs.length + 3 + work c q
  | .loop => work c q + 1
  | .popping => work c q
  | .calling _ _ rest => 2 * rest.length + 2 + work c q
  | .inHook _ _ rest => 2 * rest.length + 3 + work c q

theorem returns_from {c : Conf} (hnd : ∀ k, (c.hooks k).Nodup) (t : Tid) (n : Nat) (s : Sys) (h : Ok c s)
    (hl : (s.pc t).locked = true) (hn : rank c s.queue (s.pc t) ≤ n) :
    ∃ m, m ≤ n ∧ (run c s (List.replicate m (t, .go))).pc t = .idle ∧ (run c s (List.replicate m (t, .go))).queue = [] ∧
      (run c s (List.replicate m (t, .go))).owner = none := by
  induction n generalizing s with
  | zero =>
    exfalso
    cases hp : s.pc t with
    | idle => rw [hp] at hl; cases hl
    | waiting => rw [hp] at hl; cases hl
    | pre b hs => rw [hp] at hn; cases b <;> simp [rank] at hn
    | loop => rw [hp] at hn; simp [rank] at hn
    | popping =>
      rw [hp] at hn
      have := h.nonempty t hp
      cases hq : s.queue with
      | nil => exact this hq
      | cons p q => rw [hq] at hn; simp [rank, work] at hn
    | calling k e rest => rw [hp] at hn; simp [rank] at hn
    | inHook k e rest => rw [hp] at hn; simp [rank] at hn
  | succ n ih =>
    have next : ∀ s', step c s t .go = s' → (s'.pc t).locked = true → rank c s'.queue (s'.pc t) ≤ n →
        ∃ m, m ≤ n + 1 ∧ (run c s (List.replicate m (t, .go))).pc t = .idle ∧
          (run c s (List.replicate m (t, .go))).queue = [] ∧ (run c s (List.replicate m (t, .go))).owner = none := by
      intro s' hs' h1 h2
      obtain ⟨m, hm, hx⟩ := ih s' (hs' ▸ h.step hnd t .go) h1 h2
      refine ⟨m + 1, by omega, ?_⟩
      rw [List.replicate_succ, run_cons]
      dsimp only
      rw [hs']
      exact hx
    cases hp : s.pc t with
    | idle => rw [hp] at hl; cases hl
    | waiting => rw [hp] at hl; cases hl
    | pre b hs =>
      rw [hp] at hn
      cases b with
      | true =>
        refine next (s.at t (.pre false hs)) (by simp [Conc.step, hp]) (by simp [Sys.at, PC.locked]) ?_
        simp only [Sys.at, if_true, rank] at hn ⊢; omega
      | false =>
        cases hs with
        | nil =>
          refine next (s.at t .loop) (by simp [Conc.step, hp]) (by simp [Sys.at, PC.locked]) ?_
          simp only [Sys.at, if_true, rank] at hn ⊢; simp at hn; omega
        | cons x hs =>
          refine next _ (by simp only [Conc.step, hp]; rfl) (by simp [Sys.at, PC.locked]) ?_
          simp only [Sys.at, if_true, rank, List.length_cons] at hn ⊢; omega
    | loop =>
      rw [hp] at hn
      by_cases hq : s.queue = []
      · have hs : step c s t .go = s.leave t := by simp [Conc.step, hp, hq]
        refine ⟨1, by omega, ?_⟩
        rw [List.replicate_one, run_cons]
        dsimp only
        rw [hs]
        exact ⟨by simp [run, Sys.leave, Sys.at], by simp [run, Sys.leave, Sys.at, hq], by simp [run, Sys.leave, Sys.at]⟩
      · refine next (s.at t .popping) (by simp [Conc.step, hp, hq]) (by simp [Sys.at, PC.locked]) ?_
        simp only [Sys.at, if_true, rank] at hn ⊢; omega
    | popping =>
      rw [hp] at hn
      cases hq : s.queue with
      | nil => exact absurd hq (h.nonempty t hp)
      | cons p q =>
        obtain ⟨k, e⟩ := p
        refine next _ (by simp only [Conc.step, hp, hq]; rfl) (by simp [Sys.at, PC.locked]) ?_
        rw [hq] at hn
        simp only [Sys.at, if_true, rank, work, List.map_cons, List.sum_cons] at hn ⊢; omega
    | calling k e rest =>
      rw [hp] at hn
      cases rest with
      | nil =>
        refine next (s.at t .loop) (by simp [Conc.step, hp]) (by simp [Sys.at, PC.locked]) ?_
        simp only [Sys.at, if_true, rank] at hn ⊢; simp at hn; omega
      | cons x hs =>
        refine next _ (by simp only [Conc.step, hp]; rfl) (by simp [Sys.at, PC.locked]) ?_
        simp only [Sys.at, if_true, rank, List.length_cons] at hn ⊢; omega
    | inHook k e rest =>
      rw [hp] at hn
      refine next (s.at t (.calling k e rest)) (by simp [Conc.step, hp]) (by simp [Sys.at, PC.locked]) ?_
      simp only [Sys.at, if_true, rank] at hn ⊢; omega

/-- **C104, return.**  After any schedule, whatever was raised in it: if no other thread has the lock, a thread that calls
flush and is let run comes out of it, with the queue empty and the lock free, after a number of its own steps that depends
only on the preflush hooks and what is queued. -/
theorem C104_returns (c : Conf) (hnd : ∀ k, (c.hooks k).Nodup) (sched : List (Tid × Act)) (t : Tid)
    (hcall : (run c {} sched).pc t = .idle) (ho : (run c {} sched).owner = none) :
    ∃ m, m ≤ 2 * c.preflush.length + 3 + work c (run c {} sched).queue ∧
      (run c {} (sched ++ (t, .flush) :: List.replicate m (t, .go))).pc t = .idle ∧
      (run c {} (sched ++ (t, .flush) :: List.replicate m (t, .go))).queue = [] ∧
      (run c {} (sched ++ (t, .flush) :: List.replicate m (t, .go))).owner = none := by
  have hok := ((Ok.init c).run hnd sched).step hnd t .flush
  have h1 : step c (run c {} sched) t .flush = (run c {} sched).at t .waiting := by simp [Conc.step, hcall]
  simp only [run_append, run_cons]
  generalize hs : run c {} sched = s at *
  rw [h1] at hok ⊢
  have hok2 := hok.step hnd t .go
  have h2 : step c (s.at t .waiting) t .go = { s.at t .waiting with owner := some t }.at t (.pre false c.preflush) := by
    simp [Conc.step, Sys.at, ho]
  rw [h2] at hok2
  obtain ⟨m, hm, hx⟩ := returns_from hnd t (2 * c.preflush.length + 2 + work c s.queue) _ hok2
    (by simp [Sys.at, PC.locked]) (by simp [Sys.at, rank])
  refine ⟨m + 1, by omega, ?_⟩
  rw [List.replicate_succ, run_cons]
  dsimp only
  rw [h2]
  exact hx

/-! ### C105: interruptions -/

theorem account_raise {c : Conf} {s : Sys} (h : Ok c s) (t : Tid) (i : SinkId) :
    (step c s t .raise).pub = s.pub ∧ (account c i s).length ≤ (account c i (step c s t .raise)).length + 1 := by
  simp only [Conc.step]
  split
  · exact ⟨rfl, by omega⟩
  · rename_i hp
    refine ⟨rfl, ?_⟩
    simp only [account, owed_at_other h i (show (s.pc t).locked = false by rw [hp]; rfl)]
    simp only [Sys.at]; omega
  · refine ⟨rfl, ?_⟩
    have hone : (s.owed i).length ≤ 1 := by
      simp only [Sys.owed]
      split
      · simp
      · cases s.pc _ <;> simp only [PC.owed] <;> (try split) <;> simp
    simp only [account, List.length_append]
    simp only [Sys.leave, Sys.at, Sys.owed, List.length_nil] at hone ⊢
    omega

/-- How many times something is raised in a schedule. -/
def raises (sched : List (Tid × Act)) : Nat := sched.countP fun p => decide (p.2 = .raise)

theorem account_lost {c : Conf} (hnd : ∀ k, (c.hooks k).Nodup) {s : Sys} (h : Ok c s) (i : SinkId) (n : Nat)
    (hs : (wanted c i s.pub).length ≤ (account c i s).length + n) (sched : List (Tid × Act)) (hl : WithinLimit c s sched) :
    (wanted c i (run c s sched).pub).length ≤ (account c i (run c s sched)).length + (n + raises sched) := by
  induction sched generalizing s n with
  | nil => simpa [run, raises] using hs
  | cons p rest ih =>
    obtain ⟨t, a⟩ := p
    obtain ⟨l1, l2⟩ := hl
    rw [run_cons]
    by_cases ha : a = .raise
    · subst ha
      obtain ⟨h1, h2⟩ := account_raise h t i
      have := ih (h.step hnd t .raise) (n + 1) (by rw [h1]; omega) l2
      simp only [raises, List.countP_cons] at this ⊢
      simp only [decide_true, if_true]
      omega
    · obtain ⟨N, n1, _, n3⟩ := account_step h t a i
      have e := n3 ha l1
      have := ih (h.step hnd t a) n (by rw [n1, wanted_append, e]; simp only [List.length_append]; omega) l2
      simp only [raises, List.countP_cons] at this ⊢
      simp only [ha, decide_false, Bool.false_eq_true, if_false, Nat.add_zero]
      exact this

/-- **C105.**  Let anything be raised at any points, inside sinks and hooks or between any two steps of a flush.  What a sink
was handed, followed by what it is still owed and what is queued for it, is what was published in order, but for some
events: no more than exceptions came out. -/
theorem C105_lost (c : Conf) (hnd : ∀ k, (c.hooks k).Nodup) (sched : List (Tid × Act)) (hl : WithinLimit c {} sched)
    (i : SinkId) :
    let s := run c {} sched
    received i s.trace ++ s.owed i ++ wanted c i s.queue <+ wanted c i s.pub ∧
    ∃ lost, lost.length ≤ raises sched ∧
      wanted c i s.pub ~ received i s.trace ++ s.owed i ++ wanted c i s.queue ++ lost := by
  have h1 := account_run hnd (.init c) i (by simp [account, received, Sys.owed, wanted]) sched
  have h2 := account_lost hnd (.init c) i 0 (by simp [account, received, Sys.owed, wanted]) sched hl
  refine ⟨h1, ?_⟩
  obtain ⟨lost, hp⟩ := h1.exists_perm_append
  refine ⟨lost, ?_, hp⟩
  have := hp.length_eq
  rw [List.length_append] at this
  omega

/-- **C105, the lock.**  A thread that was interrupted is out of flush and does not keep the lock, so that the next flush can
run (`C104_returns`). -/
theorem C105_released (c : Conf) (hnd : ∀ k, (c.hooks k).Nodup) (sched : List (Tid × Act)) (t : Tid) :
    (run c {} (sched ++ [(t, .raise)])).pc t = .idle ∧ (run c {} (sched ++ [(t, .raise)])).owner ≠ some t := by
  have hok := (Ok.init c).run hnd (sched ++ [(t, .raise)])
  have hp : (run c {} (sched ++ [(t, .raise)])).pc t = .idle := by
    rw [run_append]
    simp only [run, List.foldl_cons, List.foldl_nil]
    simp only [Conc.step]
    split
    · assumption
    · simp [Sys.at]
    · simp [Sys.at, Sys.leave]
  refine ⟨hp, fun ho => ?_⟩
  have := (hok.lock t).2 ho
  rw [hp] at this
  cases this

/-- **C105, afterwards.**  After any schedule with any interruptions, when nobody has the lock, one more flush hands every
sink all that is still queued for it, in order, after what it had got. -/
theorem C105_recovers (c : Conf) (hnd : ∀ k, (c.hooks k).Nodup) (sched : List (Tid × Act)) (t : Tid)
    (hcall : (run c {} sched).pc t = .idle) (ho : (run c {} sched).owner = none) (i : SinkId) :
    ∃ m, (run c {} (sched ++ (t, .flush) :: List.replicate m (t, .go))).pc t = .idle ∧
      received i (run c {} (sched ++ (t, .flush) :: List.replicate m (t, .go))).trace =
        received i (run c {} sched).trace ++ wanted c i (run c {} sched).queue := by
  obtain ⟨m, _, h1, h2, h3⟩ := C104_returns c hnd sched t hcall ho
  refine ⟨m, h1, ?_⟩
  -- the account does not change: nothing is published, nothing raised
  have keep : ∀ (l : List (Tid × Act)) (s : Sys), Ok c s → (∀ p ∈ l, p.2 = .flush ∨ p.2 = .go) →
      account c i (run c s l) = account c i s := by
    intro l
    induction l with
    | nil => intro s _ _; rfl
    | cons p l ih =>
      intro s hs hl
      rw [run_cons, ih _ (hs.step hnd p.1 p.2) fun q hq => hl q (by simp [hq])]
      obtain ⟨N, n1, _, n3⟩ := account_step hs p.1 p.2 i
      have hp := hl p (by simp)
      have hpub : (step c s p.1 p.2).pub = s.pub := by
        rcases hp with hp | hp <;> rw [hp]
        · simp only [Conc.step]; split <;> rfl
        · simp only [Conc.step]
          split
          · rfl
          · split <;> rfl
          · rfl
          · rfl
          · rfl
          · split <;> rfl
          · split <;> rfl
          · rfl
          · rfl
          · rfl
      have hN : N = [] := by
        rw [hpub] at n1
        simpa using n1
      rw [n3 (by rcases hp with hp | hp <;> simp [hp]) (by rcases hp with hp | hp <;> simp [hp]), hN]
      simp [wanted]
  have hk := keep ((t, .flush) :: List.replicate m (t, .go)) (run c {} sched) ((Ok.init c).run hnd sched) (by
    intro p hp
    rcases List.mem_cons.1 hp with rfl | hp
    · exact .inl rfl
    · rw [(List.mem_replicate.1 hp).2]; exact .inr rfl)
  rw [← run_append] at hk
  simp only [account, Sys.owed, h2, h3, ho, wanted, List.filter_nil, List.append_nil] at hk
  exact hk

/-! ### Concrete cases -/
namespace Demo

/-- Thread 2 publishes two events; thread 0 flushes, is interrupted between `popleft` and the first call of a hook. -/
def cut : List (Tid × Act) :=
  [(2, .publish .begin (ev 0)), (2, .publish .end_ (ev 1)), (0, .flush), (0, .go), (0, .go), (0, .go), (0, .go), (0, .raise)]

example : WithinLimit conf {} cut := by simp [WithinLimit, cut]; decide +kernel
/-- The first event is lost to both sinks, one more flush delivers the second. -/
example : raises cut = 1 ∧ received 1 (run conf {} cut).trace = [] ∧ (run conf {} cut).queue = [(.end_, ev 1)] ∧
    (run conf {} cut).owner = none ∧ (run conf {} cut).pc 0 = .idle := by decide +kernel

/-- A flush that comes to its end, with the lock taken by another thread in between. -/
def whole : List (Tid × Act) := [(2, .publish .begin (ev 0))] ++ (0, .flush) :: ((1, .flush) :: List.replicate 10 (1, .go) ++
  (2, .publish .end_ (ev 1)) :: List.replicate 12 (0, .go))

example : (∀ p ∈ whole, p.2 ≠ .raise) ∧ (run conf {} whole).pc 0 = .idle := by
  constructor
  · simp [whole]
  · decide +kernel
example : WithinLimit conf {} whole := by
  simp only [whole, List.replicate]
  simp [WithinLimit]; decide +kernel

end Demo
end Verif.Conc
