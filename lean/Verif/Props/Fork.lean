import Verif.Model.Fork
import Verif.Props.ConcFlush
/-!
# C107: forks and the queue
-/
namespace Verif.Fork
open Verif.Conc
open scoped List

/-- How many times sink `i` was handed an event, in all processes. -/
def handed (i : SinkId) (x : Kind × Event) (w : List Proc) : Nat := (w.map fun p => (received i p.sys.trace).count x).sum

/-- How many times it was published, in all processes. -/
def published (x : Kind × Event) (w : List Proc) : Nat := (w.map fun p => p.sys.pub.count x).sum

/-- **The full claim C107**: whatever forks there are, no event is handed to a sink more often than it was published, and a
thread that flushes comes out of it, if it runs long enough and no other thread of its process is in flush. -/
def C107_full : Prop :=
  ∀ (c : Conf), (∀ k, (c.hooks k).Nodup) → ∀ (h : List WAct),
    (∀ i x, handed i x (wrun c [{}] h) ≤ published x (wrun c [{}] h)) ∧
    ∀ n p t, (wrun c [{}] h)[n]? = some p → (∀ u, p.gone ≠ some u → p.sys.pc u = .idle) → p.gone ≠ some t →
      ∃ m, m ≠ 0 ∧ ∀ q, (wrun c [{}] (h ++ .step n t .flush :: List.replicate m (.step n t .go)))[n]? = some q →
        q.sys.pc t = .idle

/-- A condition on every fork of a history. -/
def Forks (c : Conf) (P : Proc → Tid → Prop) : List Proc → List WAct → Prop
  | _, [] => True
  | w, a :: h =>
    (∀ n t p, a = .fork n t → w[n]? = some p → (p.sys.pc t).foreign = true → P p t) ∧ Forks c P (wstep c w a) h

/-! ### Invariants -/

theorem wrun_cons (c : Conf) (w : List Proc) (a : WAct) (h : List WAct) : wrun c w (a :: h) = wrun c (wstep c w a) h := rfl

/-- An invariant of every process. -/
theorem wrun_inv {c : Conf} {I : Proc → Prop} {P : Proc → Tid → Prop}
    (hstep : ∀ p t a, I p → p.gone ≠ some t → I { p with sys := Conc.step c p.sys t a })
    (hfork : ∀ p t, I p → (p.sys.pc t).foreign = true → p.gone ≠ some t → P p t → I (p.fork t))
    (w : List Proc) (h : List WAct) (hP : Forks c P w h) (h0 : ∀ p ∈ w, I p) : ∀ p ∈ wrun c w h, I p := by
  induction h generalizing w with
  | nil => exact h0
  | cons a h ih =>
    rw [wrun_cons]
    refine ih _ hP.2 ?_
    cases a with
    | step n t x =>
      intro p hp
      simp only [wstep] at hp
      obtain ⟨j, hj, rfl⟩ := List.mem_iff_getElem.1 hp
      rw [List.getElem_modify]
      simp only [List.length_modify] at hj
      have := h0 _ (List.getElem_mem hj)
      split
      · simp only [Proc.step]
        split
        · exact this
        · rename_i hg; exact hstep _ _ _ this hg
      · exact this
    | fork n t =>
      simp only [wstep]
      split
      · exact h0
      · rename_i p hp
        split
        · rename_i hc
          intro q hq
          rcases List.mem_append.1 hq with hq | hq
          · exact h0 q hq
          · rw [List.mem_singleton.1 hq]
            exact hfork p t (h0 p (List.mem_of_getElem? hp)) hc.1 hc.2 (hP.1 n t p rfl hp hc.1)
        · exact h0

theorem forks_true (c : Conf) (w : List Proc) (h : List WAct) : Forks c (fun _ _ => True) w h := by
  induction h generalizing w with
  | nil => trivial
  | cons a h ih => exact ⟨fun _ _ _ _ _ _ => trivial, ih _⟩

theorem forks_append (c : Conf) (P : Proc → Tid → Prop) (w : List Proc) (a b : List WAct) :
    Forks c P w (a ++ b) ↔ Forks c P w a ∧ Forks c P (wrun c w a) b := by
  induction a generalizing w with
  | nil => simp [Forks, wrun]
  | cons x a ih => simp only [List.cons_append, Forks, ih, wrun_cons, and_assoc]

/-- Without forks there is nothing to ask for. -/
theorem forks_none (c : Conf) (P : Proc → Tid → Prop) (w : List Proc) (h : List WAct)
    (hs : ∀ a ∈ h, ∀ n t, a ≠ .fork n t) : Forks c P w h := by
  induction h generalizing w with
  | nil => trivial
  | cons a h ih =>
    exact ⟨fun n t _ e => absurd e (hs a (by simp) n t), ih _ fun b hb => hs b (by simp [hb])⟩

/-- Every process is well formed, whatever forks. -/
theorem fork_ok {c : Conf} {p : Proc} {t : Tid} (h : Ok c p.sys) (hf : (p.sys.pc t).foreign = true) : Ok c (p.fork t).sys where
  lock u := by
    simp only [Proc.fork]
    split
    · exact h.lock u
    · rename_i hu
      rw [not_or] at hu
      simp [PC.locked, hu.2]
  nodup u k e rest := by
    simp only [Proc.fork]
    split
    · exact h.nodup u k e rest
    · simp
  nonempty u := by
    simp only [Proc.fork]
    split
    · exact h.nonempty u
    · simp

theorem procs_ok {c : Conf} (hnd : ∀ k, (c.hooks k).Nodup) (h : List WAct) : ∀ p ∈ wrun c [{}] h, Ok c p.sys :=
  wrun_inv (P := fun _ _ => True) (fun _ t a hp _ => hp.step hnd t a) (fun _ _ hp hf _ _ => fork_ok hp hf) _ h
    (forks_true c _ h) (by intro p hp; rw [List.mem_singleton.1 hp]; exact Ok.init c)

/-- **C107, partial: never twice in one process.**  Whatever forks when: what a process hands to a sink, with what it still
has queued for it, is a part, in order, of what was queued for the sink when the process was made and what it has published
since.  (The event a thread was delivering when it forked counts as queued for the sinks it had not come to.) -/
theorem C107_once_partial (c : Conf) (hnd : ∀ k, (c.hooks k).Nodup) (h : List WAct) (p : Proc) (hp : p ∈ wrun c [{}] h)
    (i : SinkId) :
    received i p.sys.trace ++ wanted c i p.sys.queue <+
      p.start.owed i ++ wanted c i p.start.queue ++ wanted c i p.sys.pub := by
  have key : ∀ p ∈ wrun c [{}] h, Ok c p.sys ∧
      account c i p.sys <+ p.start.owed i ++ wanted c i p.start.queue ++ wanted c i p.sys.pub := by
    refine wrun_inv (P := fun _ _ => True) ?_ ?_ _ h (forks_true c _ h) ?_
    · intro p t a ⟨h1, h2⟩ _
      refine ⟨h1.step hnd t a, ?_⟩
      obtain ⟨N, n1, n2, _⟩ := account_step h1 t a i
      dsimp only
      rw [n1, wanted_append, ← List.append_assoc]
      exact n2.trans (h2.append (List.Sublist.refl _))
    · intro p t ⟨h1, h2⟩ hf _ _
      refine ⟨fork_ok h1 hf, ?_⟩
      simp [account, Proc.fork, received, wanted]
    · intro p hp
      rw [List.mem_singleton.1 hp]
      exact ⟨Ok.init c, by simp [account, received, Sys.owed, wanted]⟩
  refine List.Sublist.trans ?_ (key p hp).2
  simp only [account]
  exact (List.sublist_append_left _ _).append (List.Sublist.refl _)

/-- A fork while nothing is queued and nobody flushes. -/
def Quiet (p : Proc) (_ : Tid) : Prop := p.sys.queue = [] ∧ p.sys.owner = none

/-- **C107, partial: quiet forks.**  If at every fork the queue is empty and no thread is in flush, every process hands to its
sinks only what it has published itself, in order and not more often; so that no event is handed over twice. -/
theorem C107_quiet_partial (c : Conf) (hnd : ∀ k, (c.hooks k).Nodup) (h : List WAct) (hq : Forks c Quiet [{}] h) :
    (∀ p ∈ wrun c [{}] h, ∀ i, received i p.sys.trace ++ p.sys.owed i ++ wanted c i p.sys.queue <+ wanted c i p.sys.pub) ∧
    ∀ i x, handed i x (wrun c [{}] h) ≤ published x (wrun c [{}] h) := by
  have key : ∀ i, ∀ p ∈ wrun c [{}] h, Ok c p.sys ∧ account c i p.sys <+ wanted c i p.sys.pub := by
    intro i
    refine wrun_inv (P := Quiet) ?_ ?_ _ h hq ?_
    · intro p t a ⟨h1, h2⟩ _
      refine ⟨h1.step hnd t a, ?_⟩
      obtain ⟨N, n1, n2, _⟩ := account_step h1 t a i
      dsimp only
      rw [n1, wanted_append]
      exact n2.trans (h2.append (List.Sublist.refl _))
    · intro p t ⟨h1, h2⟩ hf _ ⟨q1, q2⟩
      refine ⟨fork_ok h1 hf, ?_⟩
      simp [account, Proc.fork, received, wanted, q1, q2, Sys.owed]
    · intro p hp
      rw [List.mem_singleton.1 hp]
      exact ⟨Ok.init c, by simp [account, received, Sys.owed, wanted]⟩
  refine ⟨fun p hp i => (key i p hp).2, fun i x => ?_⟩
  have hone : ∀ p ∈ wrun c [{}] h, (received i p.sys.trace).count x ≤ p.sys.pub.count x := by
    intro p hp
    have h1 : received i p.sys.trace <+ p.sys.pub := by
      refine List.Sublist.trans ?_ (((key i p hp).2).trans List.filter_sublist)
      simp only [account, List.append_assoc]
      exact List.sublist_append_left _ _
    exact h1.count_le x
  simp only [handed, published]
  generalize wrun c [{}] h = w at hone
  induction w with
  | nil => simp
  | cons p w ih =>
    simp only [List.map_cons, List.sum_cons]
    have := hone p (by simp)
    have := ih fun q hq => hone q (by simp [hq])
    omega

/-- A process whose publications never met a full queue and in which nothing was raised. -/
def Calm (c : Conf) : List Proc → List WAct → Prop
  | _, [] => True
  | w, a :: h =>
    (∀ n t x, a = .step n t x → x ≠ .raise ∧ ∀ p k e, w[n]? = some p → x = .publish k e → (p.sys.pc t).foreign = true →
      p.sys.queue.length < QUEUE_LIMIT) ∧ Calm c (wstep c w a) h

/-- **C107, partial: quiet forks, nothing lost.**  If moreover nothing raises and no queue overflows, in every process what a
sink was handed and is going to be handed is exactly what the process has published for it. -/
theorem C107_exact_partial (c : Conf) (hnd : ∀ k, (c.hooks k).Nodup) (h : List WAct) (hq : Forks c Quiet [{}] h)
    (hc : Calm c [{}] h) (p : Proc) (hp : p ∈ wrun c [{}] h) (i : SinkId) :
    received i p.sys.trace ++ p.sys.owed i ++ wanted c i p.sys.queue = wanted c i p.sys.pub := by
  have h0 : ∀ p ∈ [({} : Proc)], Ok c p.sys ∧ account c i p.sys = wanted c i p.sys.pub := by
    intro p hp
    rw [List.mem_singleton.1 hp]
    exact ⟨Ok.init c, by simp [account, received, Sys.owed, wanted]⟩
  generalize [({} : Proc)] = w at *
  suffices ∀ p ∈ wrun c w h, Ok c p.sys ∧ account c i p.sys = wanted c i p.sys.pub from (this p hp).2
  clear hp
  induction h generalizing w with
  | nil => exact h0
  | cons a h ih =>
    rw [wrun_cons]
    refine ih _ hq.2 hc.2 ?_
    cases a with
    | step n t x =>
      intro p hp
      simp only [wstep] at hp
      obtain ⟨j, hj, rfl⟩ := List.mem_iff_getElem.1 hp
      rw [List.getElem_modify]
      simp only [List.length_modify] at hj
      have hpj := h0 _ (List.getElem_mem hj)
      split
      · rename_i e
        simp only [Proc.step]
        split
        · exact hpj
        · subst e
          obtain ⟨N, n1, _, n3⟩ := account_step hpj.1 t x i
          refine ⟨hpj.1.step hnd t x, ?_⟩
          dsimp only
          obtain ⟨z1, z2⟩ := hc.1 n t x rfl
          rw [n3 z1 fun k e hx hf => z2 _ k e (List.getElem?_eq_getElem hj) hx hf, n1, wanted_append, hpj.2]
      · exact hpj
    | fork n t =>
      simp only [wstep]
      split
      · exact h0
      · rename_i p hp
        split
        · rename_i hcc
          intro q hq'
          rcases List.mem_append.1 hq' with hq' | hq'
          · exact h0 q hq'
          · rw [List.mem_singleton.1 hq']
            obtain ⟨q1, q2⟩ := hq.1 n t p rfl hp hcc.1
            refine ⟨fork_ok (h0 p (List.mem_of_getElem? hp)).1 hcc.1, ?_⟩
            simp [account, Proc.fork, received, wanted, q1, q2, Sys.owed]
        · exact h0

/-- A fork by a thread while no other thread is in flush. -/
def Free (p : Proc) (t : Tid) : Prop := p.sys.owner = none ∨ p.sys.owner = some t

/-- What steps of one thread of one process do. -/
theorem wrun_one (c : Conf) (w : List Proc) (n : Nat) (p : Proc) (hp : w[n]? = some p) (t : Tid) (hg : p.gone ≠ some t)
    (as : List Conc.Act) : (wrun c w (as.map fun a => .step n t a))[n]? =
      some { p with sys := Conc.run c p.sys (as.map fun a => (t, a)) } := by
  induction as generalizing w p with
  | nil => exact hp
  | cons a as ih =>
    rw [List.map_cons, wrun_cons, List.map_cons, run_cons]
    refine ih _ { p with sys := Conc.step c p.sys t a } ?_ hg
    simp [wstep, List.getElem?_modify, hp, Proc.step, hg]

/-- A flush from a well formed state with the lock free. -/
theorem flush_returns {c : Conf} (hnd : ∀ k, (c.hooks k).Nodup) {s : Sys} (h : Ok c s) {t : Tid} (hcall : s.pc t = .idle)
    (ho : s.owner = none) :
    ∃ m, m ≤ 2 * c.preflush.length + 3 + work c s.queue ∧ m ≠ 0 ∧
      (Conc.run c s ((t, .flush) :: List.replicate m (t, .go))).pc t = .idle ∧
      (Conc.run c s ((t, .flush) :: List.replicate m (t, .go))).queue = [] ∧
      (Conc.run c s ((t, .flush) :: List.replicate m (t, .go))).owner = none := by
  have hok := h.step hnd t .flush
  have h1 : Conc.step c s t .flush = s.at t .waiting := by simp [Conc.step, hcall]
  rw [h1] at hok
  have hok2 := hok.step hnd t .go
  have h2 : Conc.step c (s.at t .waiting) t .go = { s.at t .waiting with owner := some t }.at t (.pre false c.preflush) := by
    simp [Conc.step, Sys.at, ho]
  rw [h2] at hok2
  obtain ⟨m, hm, hx⟩ := returns_from hnd t (2 * c.preflush.length + 2 + work c s.queue) _ hok2
    (by simp [Sys.at, PC.locked]) (by simp [Sys.at, rank])
  refine ⟨m + 1, by omega, by omega, ?_⟩
  rw [run_cons]
  dsimp only
  rw [h1, List.replicate_succ, run_cons]
  dsimp only
  rw [h2]
  exact hx

/-- **C107, partial: flush returns.**  If no fork happens while another thread than the forking one is in flush, then in
every process a thread that flushes while no other is in flush comes out of it, with the queue empty, after finitely many
steps. -/
theorem C107_returns_partial (c : Conf) (hnd : ∀ k, (c.hooks k).Nodup) (h : List WAct) (hf : Forks c Free [{}] h)
    (n : Nat) (p : Proc) (hp : (wrun c [{}] h)[n]? = some p) (t : Tid) (hall : ∀ u, u ≠ t → (p.sys.pc u).locked = false)
    (ht : p.sys.pc t = .idle) :
    ∃ m, m ≤ 2 * c.preflush.length + 3 + work c p.sys.queue ∧
      ∃ q, (wrun c [{}] (h ++ .step n t .flush :: List.replicate m (.step n t .go)))[n]? = some q ∧
        q.sys.pc t = .idle ∧ q.sys.queue = [] ∧ q.sys.owner = none := by
  have key : ∀ p ∈ wrun c [{}] h, Ok c p.sys ∧ p.gone = none := by
    refine wrun_inv (P := Free) ?_ ?_ _ h hf ?_
    · intro p t a ⟨h1, h2⟩ _
      exact ⟨h1.step hnd t a, h2⟩
    · intro p t ⟨h1, h2⟩ hf _ hfree
      refine ⟨fork_ok h1 hf, ?_⟩
      simp only [Proc.fork]
      rcases hfree with e | e <;> simp [e]
    · intro p hp
      rw [List.mem_singleton.1 hp]
      exact ⟨Ok.init c, rfl⟩
  obtain ⟨hok, hg⟩ := key p (List.mem_of_getElem? hp)
  have ho : p.sys.owner = none := by
    cases e : p.sys.owner with
    | none => rfl
    | some u =>
      exfalso
      have hl := (hok.lock u).2 e
      by_cases hu : u = t
      · subst hu; rw [ht] at hl; cases hl
      · rw [hall u hu] at hl; cases hl
  obtain ⟨m, hm, _, h1, h2, h3⟩ := flush_returns hnd hok ht ho
  refine ⟨m, hm, { p with sys := Conc.run c p.sys ((t, .flush) :: List.replicate m (t, .go)) }, ?_, h1, h2, h3⟩
  have := wrun_one c (wrun c [{}] h) n p hp t (by rw [hg]; simp) (.flush :: List.replicate m .go)
  simp only [List.map_cons, List.map_replicate] at this
  rw [wrun, List.foldl_append]
  exact this

/-! ### What goes wrong -/

/-- **C107, violated: stuck.**  A process forked while another thread was in flush never delivers anything, whatever it does:
every call of flush in it waits for ever. -/
theorem C107_stuck_violated (c : Conf) (hnd : ∀ k, (c.hooks k).Nodup) (h : List WAct) (p : Proc)
    (hp : p ∈ wrun c [{}] h) (hg : p.gone ≠ none) :
    p.sys.trace = [] ∧ p.sys.owner = p.gone ∧ ∀ t, p.gone ≠ some t → (p.sys.pc t = .idle ∨ p.sys.pc t = .waiting) := by
  have key : ∀ p ∈ wrun c [{}] h, Ok c p.sys ∧ (p.gone ≠ none → p.sys.trace = [] ∧ p.sys.owner = p.gone) := by
    refine wrun_inv (P := fun _ _ => True) ?_ ?_ _ h (forks_true c _ h) ?_
    · intro p t a ⟨h1, h2⟩ hgt
      refine ⟨h1.step hnd t a, fun hg => ?_⟩
      obtain ⟨t1, t2⟩ := h2 hg
      have hnl : (p.sys.pc t).locked = false := by
        by_contra hl
        have := (h1.lock t).1 (by simpa using hl)
        rw [t2] at this
        exact hgt this
      have hpc : p.sys.pc t = .idle ∨ p.sys.pc t = .waiting := by
        cases hx : p.sys.pc t <;> simp_all [PC.locked]
      have hno : p.gone ≠ none := hg
      dsimp only
      rcases hpc with e | e <;> cases a <;> simp [Conc.step, e, PC.foreign, Sys.at, hno, t1, t2]
    · intro p t ⟨h1, _⟩ hf _ _
      refine ⟨fork_ok h1 hf, fun hg => ⟨rfl, ?_⟩⟩
      simp only [Proc.fork] at hg ⊢
      split at hg
      · exact absurd rfl hg
      · rename_i hne; rw [if_neg hne]
    · intro p hp
      rw [List.mem_singleton.1 hp]
      exact ⟨Ok.init c, fun hg => absurd rfl hg⟩
  obtain ⟨hok, hrest⟩ := key p hp
  obtain ⟨h1, h2⟩ := hrest hg
  refine ⟨h1, h2, fun t ht => ?_⟩
  have hnl : (p.sys.pc t).locked = false := by
    by_contra hl
    have := (hok.lock t).1 (by simpa using hl)
    rw [h2] at this
    exact ht this
  cases hx : p.sys.pc t <;> simp_all [PC.locked]

namespace Demo

/-- One sink that takes everything. -/
def conf : Conf := { logger := 0, hooks := fun _ => [1], preflush := [] }
def ev (n : Nat) : Event := Conc.Demo.ev n

/-- An event is published, the process forks, and both processes flush. -/
def twice : List WAct :=
  [.step 0 0 (.publish .begin (ev 0)), .fork 0 0] ++ (.step 0 0 .flush :: List.replicate 8 (.step 0 0 .go)) ++
    (.step 1 0 .flush :: List.replicate 8 (.step 1 0 .go))

/-- Thread 5 is in a sink when thread 0 forks. -/
def stuck : List WAct :=
  [.step 0 0 (.publish .begin (ev 0)), .step 0 5 .flush] ++ List.replicate 5 (.step 0 5 .go) ++ [.fork 0 0]

/-- A fork after a flush: the child's event is delivered in the child, once. -/
def quiet : List WAct :=
  [.step 0 0 (.publish .begin (ev 0)), .step 0 0 .flush] ++ List.replicate 8 (.step 0 0 .go) ++ [.fork 0 0] ++
    [.step 1 0 (.publish .end_ (ev 1)), .step 1 0 .flush] ++ List.replicate 8 (.step 1 0 .go)

example : (wrun conf [{}] quiet).map (fun p => received 1 p.sys.trace) = [[(.begin, ev 0)], [(.end_, ev 1)]] := by
  decide +kernel

/-- Its fork is a quiet one. -/
example : Forks conf Quiet [{}] quiet := by
  rw [quiet, forks_append, forks_append, forks_append]
  refine ⟨⟨⟨forks_none _ _ _ _ (by simp), ?_⟩, forks_none _ _ _ _ (by simp)⟩, forks_none _ _ _ _ (by simp)⟩
  refine ⟨fun n t p e hp _ => ?_, trivial⟩
  cases e
  have h1 : ∀ p ∈ wrun conf [{}] ([.step 0 0 (.publish .begin (ev 0)), .step 0 0 .flush] ++ List.replicate 8 (.step 0 0 .go)),
      p.sys.queue = [] ∧ p.sys.owner = none := by decide +kernel
  exact h1 p (List.mem_of_getElem? hp)

end Demo

/-- **C107, violated: twice.** -/
theorem C107_twice_violated :
    handed 1 (.begin, Demo.ev 0) (wrun Demo.conf [{}] Demo.twice) = 2 ∧
    published (.begin, Demo.ev 0) (wrun Demo.conf [{}] Demo.twice) = 1 := by decide +kernel

theorem C107_violated : ¬ C107_full := by
  intro h
  have h1 := (h Demo.conf (by simp [Demo.conf]) Demo.twice).1 1 (.begin, Demo.ev 0)
  rw [C107_twice_violated.1, C107_twice_violated.2] at h1
  omega

/-- The other half of the claim fails too: the child of `stuck` never gets through a flush. -/
theorem C107_returns_violated : ∃ p, (wrun Demo.conf [{}] Demo.stuck)[1]? = some p ∧ p.gone = some 5 ∧
    p.sys.pc 0 = .idle ∧
    ∀ m, ∃ q, (wrun Demo.conf [{}] (Demo.stuck ++ .step 1 0 .flush :: List.replicate m (.step 1 0 .go)))[1]? = some q ∧
      q.sys.pc 0 = .waiting := by
  have h1 : ∃ p, (wrun Demo.conf [{}] Demo.stuck)[1]? = some p ∧ p.gone = some 5 ∧ p.sys.pc 0 = .idle ∧
      p.sys.owner = some 5 := by
    refine ⟨((wrun Demo.conf [{}] Demo.stuck)[1]?).getD {}, ?_, ?_, ?_, ?_⟩
    · rfl
    · decide +kernel
    · decide +kernel
    · decide +kernel
  obtain ⟨p, e1, e2, e3, e4⟩ := h1
  refine ⟨p, e1, e2, e3, fun m => ⟨{ p with sys := p.sys.at 0 .waiting }, ?_, by simp [Sys.at]⟩⟩
  have := wrun_one Demo.conf (wrun Demo.conf [{}] Demo.stuck) 1 p e1 0 (by rw [e2]; simp) (.flush :: List.replicate m .go)
  simp only [List.map_cons, List.map_replicate] at this
  rw [wrun, List.foldl_append]
  refine this.trans ?_
  congr 2
  rw [run_cons]
  dsimp only
  have hf : Conc.step Demo.conf p.sys 0 .flush = p.sys.at 0 .waiting := by simp [Conc.step, e3]
  rw [hf]
  clear this
  induction m with
  | zero => rfl
  | succ m ih =>
    rw [List.replicate_succ, run_cons]
    dsimp only
    have : Conc.step Demo.conf (p.sys.at 0 .waiting) 0 .go = p.sys.at 0 .waiting := by
      simp [Conc.step, Sys.at, e4]
    rw [this]
    exact ih

end Verif.Fork
