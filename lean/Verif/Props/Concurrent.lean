import Verif.Model.Concurrent
import Verif.Spec.Delivery
import Mathlib.Data.List.Basic
import Mathlib.Tactic.Common
/-!
# C23: threads publishing to and flushing one asynchronous logger
-/
namespace Verif.Conc
open scoped List

/-- The events sink `i` has a hook for. -/
def wanted (c : Conf) (i : SinkId) (q : List (Kind × Event)) : List (Kind × Event) :=
  q.filter fun p => decide (i ∈ c.hooks p.1)

/-- The event in flight that sink `i` has not been handed yet, if a thread is in the middle of delivering one. -/
def PC.owed (i : SinkId) : PC → List (Kind × Event)
  | .calling k e rest => if i ∈ rest then [(k, e)] else []
  | .inHook k e rest => if i ∈ rest then [(k, e)] else []
  | _ => []

/-- The same for the whole system: only the thread that has the lock can be delivering. -/
def Sys.owed (i : SinkId) (s : Sys) : List (Kind × Event) :=
  match s.owner with
  | none => []
  | some t => (s.pc t).owed i

/-- Along a schedule, an event is never published when the queue is full. -/
def WithinLimit (c : Conf) : Sys → List (Tid × Act) → Prop
  | _, [] => True
  | s, (t, a) :: rest =>
    (∀ k e, a = .publish k e → (s.pc t).foreign = true → s.queue.length < QUEUE_LIMIT) ∧
    WithinLimit c (step c s t a) rest

/-- Well-formedness. -/
structure Ok (c : Conf) (s : Sys) : Prop where
  lock : ∀ t, (s.pc t).locked = true ↔ s.owner = some t
  nodup : ∀ t k e rest, s.pc t = .calling k e rest ∨ s.pc t = .inHook k e rest → rest.Nodup
  nonempty : ∀ t, s.pc t = .popping → s.queue ≠ []

theorem Ok.init (c : Conf) : Ok c {} := by
  constructor <;> simp [PC.locked]

theorem at_pc (s : Sys) (t t' : Tid) (p : PC) : (s.at t p).pc t' = if t' = t then p else s.pc t' := rfl


theorem Ok.move {c : Conf} {s : Sys} (h : Ok c s) {t : Tid} {p : PC} (hl : (s.pc t).locked = p.locked)
    (hn : ∀ k e rest, p = .calling k e rest ∨ p = .inHook k e rest → rest.Nodup)
    (hp : p = .popping → s.queue ≠ []) : Ok c (s.at t p) where
  lock t' := by
    rw [at_pc]
    split
    · rename_i he; subst he; rw [← hl]; exact h.lock t'
    · exact h.lock t'
  nodup t' k e rest := by
    rw [at_pc]
    split
    · exact hn k e rest
    · exact h.nodup t' k e rest
  nonempty t' := by
    rw [at_pc]
    split
    · exact hp
    · exact h.nonempty t'

theorem Ok.leave {c : Conf} {s : Sys} (h : Ok c s) {t : Tid} (hl : s.owner = some t) : Ok c (s.leave t) where
  lock t' := by
    simp only [Sys.leave, at_pc]
    split
    · simp [PC.locked, Sys.at]
    · rename_i hne
      have := h.lock t'
      rw [hl] at this
      simp only [Option.some.injEq, Ne.symm hne, iff_false, Bool.not_eq_true] at this
      simp [Sys.at, this]
  nodup t' k e rest := by
    simp only [Sys.leave, at_pc]
    split
    · simp
    · exact h.nodup t' k e rest
  nonempty t' := by
    simp only [Sys.leave, at_pc]
    split
    · simp
    · exact h.nonempty t'

theorem locked_of {p : PC} (h1 : p = .idle → False) (h2 : p = .waiting → False) : p.locked = true := by
  cases p <;> simp_all [PC.locked]

theorem pushBounded_ne_nil (q : List (Kind × Event)) (p : Kind × Event) : pushBounded QUEUE_LIMIT q p ≠ [] := by
  intro h
  have hpos : 0 < QUEUE_LIMIT := by decide
  generalize QUEUE_LIMIT = n at h hpos
  have := congrArg List.length h
  simp only [pushBounded, List.length_drop, List.length_append, List.length_cons, List.length_nil] at this
  omega

theorem Ok.traced {c : Conf} {s : Sys} (h : Ok c s) (tr : List Obs) : Ok c { s with trace := tr } :=
  ⟨h.lock, h.nodup, h.nonempty⟩

theorem Ok.step {c : Conf} (hnd : ∀ k, (c.hooks k).Nodup) {s : Sys} (h : Ok c s) (t : Tid) (a : Act) :
    Ok c (step c s t a) := by
  have owned : (s.pc t).locked = true → s.owner = some t := (h.lock t).1
  cases a with
  | publish k e =>
    simp only [Conc.step]
    split
    · have hne := pushBounded_ne_nil s.queue (k, e)
      generalize pushBounded QUEUE_LIMIT s.queue (k, e) = q at hne
      exact ⟨h.lock, h.nodup, fun t' _ => hne⟩
    · exact h
  | flush =>
    simp only [Conc.step]
    split
    · rename_i hp
      exact h.move (by rw [hp]; rfl) (by simp) (by simp)
    · exact h
  | go =>
    simp only [Conc.step]
    split
    · exact h
    · rename_i hp
      split
      · rename_i ho
        constructor
        · intro t'
          rw [at_pc]
          split
          · rename_i he; subst he; simp [PC.locked, Sys.at]
          · rename_i hne
            have := h.lock t'
            rw [ho] at this
            simp only [reduceCtorEq, iff_false, Bool.not_eq_true] at this
            simp [Sys.at, this, Ne.symm hne]
        · intro t' k e rest
          rw [at_pc]
          split
          · simp
          · exact h.nodup t' k e rest
        · intro t'
          rw [at_pc]
          split
          · simp
          · exact h.nonempty t'
      · exact h
    · rename_i hp
      exact h.move (by rw [hp]; rfl) (by simp) (by simp)
    · rename_i hp
      refine (h.traced _).move ?_ (by simp) (by simp)
      change (s.pc t).locked = _
      rw [hp]; rfl
    · rename_i hp
      exact h.move (by rw [hp]; rfl) (by simp) (by simp)
    · rename_i hp
      split
      · exact h.leave (owned (by rw [hp]; rfl))
      · rename_i hq
        exact h.move (by rw [hp]; rfl) (by simp) (fun _ => hq)
    · rename_i hp
      split
      · exact h.leave (owned (by rw [hp]; rfl))
      · rename_i k e q hq
        have ho := owned (by rw [hp]; rfl)
        constructor
        · intro t'
          rw [at_pc]
          split
          · rename_i he; subst he; simp [PC.locked, Sys.at, ho]
          · exact h.lock t'
        · intro t' k' e' rest
          rw [at_pc]
          split
          · rintro (he | he)
            · cases he; exact hnd k
            · cases he
          · exact h.nodup t' k' e' rest
        · intro t'
          rw [at_pc]
          split
          · simp
          · rename_i hne
            intro hp'
            have h1 := (h.lock t').1 (by rw [hp']; rfl)
            rw [ho] at h1; cases h1; exact absurd rfl hne
    · rename_i hp
      exact h.move (by rw [hp]; rfl) (by simp) (by simp)
    · rename_i k e i rest hp
      have := h.nodup t k e (i :: rest) (.inl hp)
      refine (h.traced _).move ?_ ?_ (by simp)
      · change (s.pc t).locked = _
        rw [hp]; rfl
      · rintro k' e' r (he | he) <;> cases he
        exact (List.nodup_cons.1 this).2
    · rename_i k e rest hp
      have := h.nodup t k e rest (.inr hp)
      exact h.move (by rw [hp]; rfl) (by rintro k' e' r (he | he) <;> cases he; exact this) (by simp)
  | raise =>
    simp only [Conc.step]
    split
    · exact h
    · rename_i hp; exact h.move (by rw [hp]; rfl) (by simp) (by simp)
    · rename_i h1 h2; exact h.leave (owned (locked_of h1 h2))

/-- All that a sink has been handed, is owed, and will find in the queue. -/
def account (c : Conf) (i : SinkId) (s : Sys) : List (Kind × Event) :=
  received i s.trace ++ s.owed i ++ wanted c i s.queue

theorem received_snoc_hook (i j : SinkId) (k : Kind) (e : Event) (tr : List Obs) :
    received i (tr ++ [Obs.hook j k e]) = received i tr ++ (if j = i then [(k, e)] else []) := by
  simp only [received, List.filterMap_append, List.filterMap_cons, List.filterMap_nil]
  split <;> simp_all

theorem received_snoc_pre (i : SinkId) (l : LogId) (h : Nat) (tr : List Obs) :
    received i (tr ++ [Obs.preflush l h]) = received i tr := by
  simp [received]

theorem pushBounded_sublist (q : List (Kind × Event)) (p : Kind × Event) :
    pushBounded QUEUE_LIMIT q p <+ q ++ [p] := List.drop_sublist _ _

theorem wanted_sublist {c : Conf} {i : SinkId} {a b : List (Kind × Event)} (h : a <+ b) :
    wanted c i a <+ wanted c i b := h.filter _

theorem wanted_append (c : Conf) (i : SinkId) (a b : List (Kind × Event)) :
    wanted c i (a ++ b) = wanted c i a ++ wanted c i b := by simp [wanted]

/-- Only the owner's position matters. -/
theorem owed_owner {c : Conf} {s : Sys} (_ : Ok c s) (i : SinkId) {t : Tid} (ho : s.owner = some t) :
    s.owed i = (s.pc t).owed i := by simp [Sys.owed, ho]

theorem owed_at_owner (s : Sys) (i : SinkId) {t : Tid} (ho : s.owner = some t) (p : PC) :
    (s.at t p).owed i = p.owed i := by
  simp [Sys.owed, Sys.at, ho]

theorem owed_at_other {c : Conf} {s : Sys} (h : Ok c s) (i : SinkId) {t : Tid} (hl : (s.pc t).locked = false)
    (p : PC) : (s.at t p).owed i = s.owed i := by
  simp only [Sys.owed, Sys.at]
  split
  · rfl
  · rename_i t' ho
    have : t' ≠ t := by
      rintro rfl
      have := (h.lock t').2 ho
      rw [hl] at this; cases this
    simp [this]

/-- What one step does to a sink's account. -/
theorem account_step {c : Conf} {s : Sys} (h : Ok c s) (t : Tid) (a : Act)
    (i : SinkId) :
    ∃ N, (step c s t a).pub = s.pub ++ N ∧
      account c i (step c s t a) <+ account c i s ++ wanted c i N ∧
      (a ≠ .raise → (∀ k e, a = .publish k e → (s.pc t).foreign = true → s.queue.length < QUEUE_LIMIT) →
        account c i (step c s t a) = account c i s ++ wanted c i N) := by
  have owned : (s.pc t).locked = true → s.owner = some t := (h.lock t).1
  -- steps that publish nothing and lose nothing
  have same : ∀ s', s'.pub = s.pub → account c i s' = account c i s →
      ∃ N, s'.pub = s.pub ++ N ∧ account c i s' <+ account c i s ++ wanted c i N ∧
      (a ≠ .raise → (∀ k e, a = .publish k e → (s.pc t).foreign = true → s.queue.length < QUEUE_LIMIT) →
        account c i s' = account c i s ++ wanted c i N) := by
    intro s' h1 h2
    refine ⟨[], by simp [h1], ?_, ?_⟩
    · rw [h2]; simp [wanted]
    · intro _ _; rw [h2]; simp [wanted]
  -- leaving: what the sink was owed is lost
  have leave : s.owner = some t → s.owed i = [] → account c i (s.leave t) = account c i s := by
    intro ho hz
    simp only [account, hz]
    simp [Sys.leave, Sys.at, Sys.owed]
  cases a with
  | publish k e =>
    simp only [Conc.step]
    split
    · rename_i hp
      refine ⟨[(k, e)], rfl, ?_, ?_⟩
      · simp only [account, Sys.owed]
        rw [List.append_assoc, List.append_assoc, List.append_assoc]
        refine (List.Sublist.refl _).append ?_
        refine (List.Sublist.refl _).append ?_
        rw [← wanted_append]
        exact wanted_sublist (pushBounded_sublist s.queue (k, e))
      · intro _ hlim
        have := hlim k e rfl hp
        have hd : pushBounded QUEUE_LIMIT s.queue (k, e) = s.queue ++ [(k, e)] := by
          generalize QUEUE_LIMIT = n at this
          rw [pushBounded, show s.queue.length + 1 - n = 0 by omega, List.drop_zero]
        simp only [account, hd, wanted_append]
        simp [Sys.owed]
    · exact same s rfl rfl
  | flush =>
    simp only [Conc.step]
    split
    · rename_i hp
      refine same _ rfl ?_
      simp only [account, owed_at_other h i (show (s.pc t).locked = false by rw [hp]; rfl)]
      rfl
    · exact same s rfl rfl
  | go =>
    simp only [Conc.step]
    split
    · exact same s rfl rfl
    · split
      · rename_i hp ho
        refine same _ rfl ?_
        simp only [account, Sys.owed, Sys.at, ho]
        simp [PC.owed]
      · exact same s rfl rfl
    · rename_i hp
      have ho := owned (by rw [hp]; rfl)
      refine same _ rfl ?_
      simp only [account, owed_at_owner s i ho, owed_owner h i ho, hp]
      rfl
    · rename_i hp
      have ho := owned (by rw [hp]; rfl)
      refine same _ rfl ?_
      simp only [account, owed_owner h i ho, hp]
      simp only [Sys.at, Sys.owed, ho, received_snoc_pre, if_true]
      rfl
    · rename_i hp
      have ho := owned (by rw [hp]; rfl)
      refine same _ rfl ?_
      simp only [account, owed_at_owner s i ho, owed_owner h i ho, hp]
      rfl
    · rename_i hp
      have ho := owned (by rw [hp]; rfl)
      split
      · exact same _ rfl (leave ho (by rw [owed_owner h i ho, hp]; rfl))
      · refine same _ rfl ?_
        simp only [account, owed_at_owner s i ho, owed_owner h i ho, hp]
        rfl
    · rename_i hp
      have ho := owned (by rw [hp]; rfl)
      split
      · exact same _ rfl (leave ho (by rw [owed_owner h i ho, hp]; rfl))
      · rename_i k e q hq
        refine same _ rfl ?_
        simp only [account, owed_owner h i ho, hp]
        rw [owed_at_owner _ i (show ({ s with queue := q } : Sys).owner = some t from ho)]
        simp only [Sys.at, PC.owed, hq, wanted, List.filter_cons]
        by_cases hi : i ∈ c.hooks k <;> simp [hi]
    · rename_i hp
      have ho := owned (by rw [hp]; rfl)
      refine same _ rfl ?_
      simp only [account, owed_at_owner s i ho, owed_owner h i ho, hp]
      simp [Sys.at, PC.owed]
    · rename_i k e j rest hp
      have ho := owned (by rw [hp]; rfl)
      have hn := List.nodup_cons.1 (h.nodup t k e (j :: rest) (.inl hp))
      refine same _ rfl ?_
      simp only [account, owed_owner h i ho, hp]
      simp only [Sys.at, Sys.owed, ho, received_snoc_hook, PC.owed, if_true]
      by_cases hj : j = i
      · subst hj; simp [hn.1]
      · simp [hj, Ne.symm hj]
    · rename_i k e rest hp
      have ho := owned (by rw [hp]; rfl)
      refine same _ rfl ?_
      simp only [account, owed_at_owner s i ho, owed_owner h i ho, hp]
      rfl
  | raise =>
    simp only [Conc.step]
    split
    · exact same s rfl rfl
    · rename_i hp
      refine same _ rfl ?_
      simp only [account, owed_at_other h i (show (s.pc t).locked = false by rw [hp]; rfl)]
      rfl
    · refine ⟨[], by simp [Sys.leave, Sys.at], ?_, fun hne => absurd rfl hne⟩
      simp only [account, wanted, List.filter_nil, List.append_nil]
      refine List.Sublist.append ?_ (List.Sublist.refl _)
      simp only [Sys.leave, Sys.at, Sys.owed, List.append_nil]
      exact List.sublist_append_left _ _

theorem run_cons (c : Conf) (s : Sys) (p : Tid × Act) (sched : List (Tid × Act)) :
    run c s (p :: sched) = run c (step c s p.1 p.2) sched := rfl

theorem Ok.run {c : Conf} (hnd : ∀ k, (c.hooks k).Nodup) {s : Sys} (h : Ok c s) (sched : List (Tid × Act)) :
    Ok c (run c s sched) := by
  induction sched generalizing s with
  | nil => exact h
  | cons p rest ih => exact ih (h.step hnd p.1 p.2)

theorem account_run {c : Conf} (hnd : ∀ k, (c.hooks k).Nodup) {s : Sys} (h : Ok c s) (i : SinkId)
    (hs : account c i s <+ wanted c i s.pub) (sched : List (Tid × Act)) :
    account c i (run c s sched) <+ wanted c i (run c s sched).pub := by
  induction sched generalizing s with
  | nil => exact hs
  | cons p rest ih =>
    obtain ⟨N, h1, h2, _⟩ := account_step h p.1 p.2 i
    refine ih (h.step hnd p.1 p.2) (h2.trans ?_)
    rw [h1, wanted_append]
    exact hs.append (List.Sublist.refl _)

theorem account_run_eq {c : Conf} (hnd : ∀ k, (c.hooks k).Nodup) {s : Sys} (h : Ok c s) (i : SinkId)
    (hs : account c i s = wanted c i s.pub) (sched : List (Tid × Act)) (hr : ∀ p ∈ sched, p.2 ≠ .raise)
    (hl : WithinLimit c s sched) :
    account c i (run c s sched) = wanted c i (run c s sched).pub := by
  induction sched generalizing s with
  | nil => exact hs
  | cons p rest ih =>
    obtain ⟨N, h1, _, h3⟩ := account_step h p.1 p.2 i
    obtain ⟨l1, l2⟩ := hl
    refine ih (h.step hnd p.1 p.2) ?_ (fun q hq => hr q (by simp [hq])) l2
    rw [h3 (hr p (by simp)) l1, h1, wanted_append, hs]

/-- **C23, order.**  Whatever the threads do, under every schedule, even if sinks publish or raise and the
queue overflows: what a sink has been handed is a subsequence of what was published, in the order of
publication (`<+` is the sublist relation: same order, nothing more often than published). -/
theorem concurrent_order (c : Conf) (hnd : ∀ k, (c.hooks k).Nodup) (sched : List (Tid × Act)) (i : SinkId) :
    received i (run c {} sched).trace <+ (run c {} sched).pub := by
  have h := account_run hnd (.init c) i (by simp [account, received, Sys.owed, wanted]) sched
  refine List.Sublist.trans ?_ (h.trans List.filter_sublist)
  simp only [account, List.append_assoc]
  exact List.sublist_append_left _ _

/-- **C23, at most once.**  If no event is published twice, no sink is handed one twice. -/
theorem concurrent_at_most_once (c : Conf) (hnd : ∀ k, (c.hooks k).Nodup) (sched : List (Tid × Act))
    (hp : (run c {} sched).pub.Nodup) (i : SinkId) : (received i (run c {} sched).trace).Nodup :=
  (concurrent_order c hnd sched i).nodup hp

/-- **C23, accounting.**  As long as sinks do not raise and the queue does not overflow, at every moment of
every schedule: the events a sink has been handed, followed by the one in flight that it is still owed (if any),
followed by those in the queue, are exactly all that was published of the kinds it takes, in order. -/
theorem concurrent_accounting (c : Conf) (hnd : ∀ k, (c.hooks k).Nodup) (sched : List (Tid × Act))
    (hr : ∀ p ∈ sched, p.2 ≠ .raise) (hl : WithinLimit c {} sched) (i : SinkId) :
    received i (run c {} sched).trace ++ (run c {} sched).owed i ++ wanted c i (run c {} sched).queue =
      wanted c i (run c {} sched).pub :=
  account_run_eq hnd (.init c) i (by simp [account, received, Sys.owed, wanted]) sched hr hl

/-- **C23.**  In particular, when nobody is flushing and the queue is empty, every sink has been handed
everything. -/
theorem concurrent_complete (c : Conf) (hnd : ∀ k, (c.hooks k).Nodup) (sched : List (Tid × Act))
    (hr : ∀ p ∈ sched, p.2 ≠ .raise) (hl : WithinLimit c {} sched)
    (hidle : ∀ t, (run c {} sched).pc t = .idle) (hq : (run c {} sched).queue = []) (i : SinkId) :
    received i (run c {} sched).trace = wanted c i (run c {} sched).pub := by
  have h := concurrent_accounting c hnd sched hr hl i
  have ho : (run c {} sched).owner = none := by
    cases ho : (run c {} sched).owner with
    | none => rfl
    | some t =>
      have := ((Ok.init c).run hnd sched).lock t |>.2 ho
      rw [hidle] at this; cases this
  simpa [Sys.owed, ho, hq, wanted] using h

/-- **C23, the lock.**  At most one thread is delivering, and `popleft` never meets an empty queue. -/
theorem concurrent_exclusive (c : Conf) (hnd : ∀ k, (c.hooks k).Nodup) (sched : List (Tid × Act)) (t t' : Tid)
    (h : ((run c {} sched).pc t).locked = true) (h' : ((run c {} sched).pc t').locked = true) : t = t' := by
  have hk := (Ok.init c).run hnd sched
  have h1 := (hk.lock t).1 h
  have h2 := (hk.lock t').1 h'
  rw [h1] at h2; exact Option.some.inj h2
theorem concurrent_pop_nonempty (c : Conf) (hnd : ∀ k, (c.hooks k).Nodup) (sched : List (Tid × Act)) (t : Tid)
    (h : (run c {} sched).pc t = .popping) : (run c {} sched).queue ≠ [] :=
  ((Ok.init c).run hnd sched).nonempty t h

/-- **C23, no deadlock.**  Whenever some thread is inside `flush`, some thread inside `flush` can go on. -/
theorem concurrent_progress (c : Conf) (hnd : ∀ k, (c.hooks k).Nodup) (sched : List (Tid × Act)) (t : Tid)
    (h : (run c {} sched).pc t ≠ .idle) :
    ∃ t', (step c (run c {} sched) t' .go).pc t' ≠ (run c {} sched).pc t' := by
  have hk := (Ok.init c).run hnd sched
  generalize run c {} sched = s at h hk
  cases ho : s.owner with
  | none =>
    refine ⟨t, ?_⟩
    have hl : (s.pc t).locked = false := by
      cases hl : (s.pc t).locked with
      | false => rfl
      | true => have := (hk.lock t).1 hl; rw [ho] at this; cases this
    cases hp : s.pc t with
    | idle => exact absurd hp h
    | waiting => simp [Conc.step, hp, ho, Sys.at]
    | _ => rw [hp] at hl; cases hl
  | some t' =>
    refine ⟨t', ?_⟩
    have hl := (hk.lock t').2 ho
    cases hp : s.pc t' with
    | idle => rw [hp] at hl; cases hl
    | waiting => rw [hp] at hl; cases hl
    | pre b hs =>
      cases b <;> cases hs <;> simp [Conc.step, hp, Sys.at]
    | loop =>
      simp only [Conc.step, hp]
      split <;> simp [Sys.at, Sys.leave]
    | popping =>
      simp only [Conc.step, hp]
      split <;> simp [Sys.at, Sys.leave]
    | calling k e rest => cases rest <;> simp [Conc.step, hp, Sys.at]
    | inHook k e rest => simp [Conc.step, hp, Sys.at]

/-! ### A concrete schedule -/
namespace Demo

/-- An event. -/
def ev (n : Nat) : Event :=
  { id := n, act := n, logger := 0, kind := .end_, status := .success, etime := 0, msg := "", fargs := [],
    excInfo := none }
/-- Two sinks; the second takes no warnings. -/
def conf : Conf where
  logger := 0
  hooks | .warn => [1] | _ => [1, 2]
  preflush := []

theorem conf_nodup : ∀ k, (conf.hooks k).Nodup := by intro k; cases k <;> decide

/-- Threads 0 and 1 flush at the same time while thread 2 publishes, and sink 1 publishes an event itself. -/
def sched : List (Tid × Act) :=
  [(2, .publish .begin (ev 0)), (0, .flush), (1, .flush), (0, .go), (1, .go), (2, .publish .warn (ev 1)), (0, .go),
   (0, .go), (0, .go), (0, .go), (0, .publish .comment (ev 5)), (2, .publish .end_ (ev 2)), (0, .go), (1, .go),
   (0, .go), (0, .go)]

example : received 1 (run conf {} sched).trace = [(.begin, ev 0)] ∧
    (run conf {} sched).pub = [(.begin, ev 0), (.warn, ev 1), (.comment, ev 5), (.end_, ev 2)] ∧
    (run conf {} sched).queue = [(.warn, ev 1), (.comment, ev 5), (.end_, ev 2)] := by decide +kernel
example : received 2 (run conf {} sched).trace ++ (run conf {} sched).owed 2 ++
    wanted conf 2 (run conf {} sched).queue = wanted conf 2 (run conf {} sched).pub :=
  concurrent_accounting conf conf_nodup sched (by simp [sched]) (by simp [WithinLimit, sched]; decide +kernel) 2

end Demo
end Verif.Conc
