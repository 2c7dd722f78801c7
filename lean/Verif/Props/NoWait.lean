import Verif.Props.Concurrent
import Verif.Lemmas.Full
/-!
# C152: publishing in asynchronous mode waits for nobody
-/
namespace Verif.Conc

/-- Where a thread is when it can log: outside `flush`, or inside a sink or a preflush hook that `flush` has called. -/
def InCode (p : PC) : Prop :=
  p = .idle ∨ (∃ k e rest, p = .inHook k e rest) ∨ ∃ hs, p = .pre true hs

/-- The steps of threads that publish. -/
def publishing (ps : List (Tid × Kind × Event)) : List (Tid × Act) := ps.map fun p => (p.1, .publish p.2.1 p.2.2)

theorem pushBounded_last {α : Type} (n : Nat) (hn : 1 ≤ n) (q : List α) (x : α) : (pushBounded n q x).getLast? = some x := by
  rw [pushBounded, List.getLast?_drop, if_neg (by simp only [List.length_append, List.length_singleton]; omega)]
  simp

/-- **C152.**  Take the logger at any moment, with whatever threads flushing, waiting or stuck in a sink, and let any threads that
are running code outside of `flush` or inside a sink or preflush hook publish, in any order.  Each call gets through, without a step
of any other thread: all events are published in that order and, as far as the queue takes them, queued behind those already
there; no sink is called; and nobody else's flush is moved or its lock taken. -/
theorem C152_no_wait (c : Conf) (sched : List (Tid × Act)) (ps : List (Tid × Kind × Event))
    (hps : ∀ p ∈ ps, InCode ((run c {} sched).pc p.1)) :
    let s := run c {} sched
    let s' := run c s (publishing ps)
    s'.pub = s.pub ++ ps.map (·.2) ∧ s'.trace = s.trace ∧ s'.pc = s.pc ∧ s'.owner = s.owner ∧
    (s.queue.length + ps.length ≤ QUEUE_LIMIT → s'.queue = s.queue ++ ps.map (·.2)) ∧
    ∀ p, ps.getLast? = some p → s'.queue.getLast? = some p.2 := by
  intro s
  have key : ∀ (ps : List (Tid × Kind × Event)) (s : Sys), (∀ p ∈ ps, InCode (s.pc p.1)) →
      (run c s (publishing ps)).pub = s.pub ++ ps.map (·.2) ∧ (run c s (publishing ps)).trace = s.trace ∧
      (run c s (publishing ps)).pc = s.pc ∧ (run c s (publishing ps)).owner = s.owner ∧
      (s.queue.length + ps.length ≤ QUEUE_LIMIT → (run c s (publishing ps)).queue = s.queue ++ ps.map (·.2)) ∧
      ∀ p, ps.getLast? = some p → (run c s (publishing ps)).queue.getLast? = some p.2 := by
    intro ps
    induction ps with
    | nil => intro s _; simp [publishing, run]
    | cons p ps ih =>
      intro s h
      obtain ⟨t, k, e⟩ := p
      have hf : (s.pc t).foreign = true := by
        rcases h (t, k, e) (by simp) with h | ⟨_, _, _, h⟩ | ⟨_, h⟩ <;> rw [h] <;> rfl
      have hs : step c s t (.publish k e) =
          { s with queue := pushBounded QUEUE_LIMIT s.queue (k, e), pub := s.pub ++ [(k, e)] } := by
        simp only [step, hf, if_true]
      have hrun : run c s (publishing ((t, k, e) :: ps)) = run c (step c s t (.publish k e)) (publishing ps) := rfl
      rw [hrun, hs]
      obtain ⟨h1, h2, h3, h4, h5, h6⟩ := ih
        { s with queue := pushBounded QUEUE_LIMIT s.queue (k, e), pub := s.pub ++ [(k, e)] }
        fun q hq => h q (List.mem_cons_of_mem _ hq)
      refine ⟨by rw [h1]; simp, h2, h3, h4, ?_, ?_⟩
      · intro hl
        simp only [List.length_cons] at hl
        have hroom : pushBounded QUEUE_LIMIT s.queue (k, e) = s.queue ++ [(k, e)] := pushBounded_room (by omega)
        simp only [hroom] at h5
        rw [hroom, h5 (by rw [List.length_append, List.length_singleton]; omega)]
        simp
      · intro q hq
        cases ps with
        | nil =>
          simp only [List.getLast?_singleton, Option.some.injEq] at hq
          subst hq
          have := pushBounded_last QUEUE_LIMIT (Nat.pos_of_ne_zero (by decide)) s.queue (k, e)
          generalize pushBounded QUEUE_LIMIT s.queue (k, e) = q' at this
          simpa only [publishing, run, List.map_nil, List.foldl_nil] using this
        | cons r ps => exact h6 q (by simpa using hq)
  exact key ps s hps

/-- Thread 0 is stuck in sink 1, thread 1 waits for its lock; thread 2 and the sink itself publish. -/
example : let s := run Demo.conf {} (Demo.sched.take 10)
    s.owner = some 0 ∧ s.pc 1 = .waiting ∧ InCode (s.pc 0) ∧ InCode (s.pc 2) ∧ s.pc 0 ≠ .idle := by
  refine ⟨by decide +kernel, by decide +kernel, Or.inr (Or.inl ⟨.begin, Demo.ev 0, [2], by decide +kernel⟩),
    Or.inl (by decide +kernel), by decide +kernel⟩

end Verif.Conc
