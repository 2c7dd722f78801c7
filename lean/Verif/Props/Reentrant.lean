import Verif.Model.Reentrant
import Verif.Spec.Delivery
import Mathlib.Data.List.Basic
import Mathlib.Data.List.Perm.Subperm
import Mathlib.Data.List.Count
import Mathlib.Data.List.Nodup
import Mathlib.Tactic.Common
/-!
# C24: sinks that use the logger from inside their hooks
-/
namespace Verif.Reentrant
open scoped List

/-- Sinks do not flush; they may publish. -/
def Conf.NoFlush (c : Conf) : Prop := ∀ i k e tr, .flush ∉ c.react i k e tr

/-- The events sink `i` has a hook for. -/
def wanted (c : Conf) (i : SinkId) (q : List (Kind × Event)) : List (Kind × Event) :=
  q.filter fun p => decide (i ∈ c.hooks p.1)

/-- The chain of events caused by events is bounded: an event published by a sink while it handles another has a
smaller rank. -/
def Conf.Ranked (c : Conf) (rank : Kind × Event → Nat) : Prop :=
  ∀ i k e tr k' e', .publish k' e' ∈ c.react i k e tr → rank (k', e') < rank (k, e)

/-- What the commands of a sink that does not flush do: some publications are appended; on overflow the front of
the queue is lost. -/
theorem runCmds_publish (n : Nat) {fl : St → Option St} (cs : List Cmd) (h : .flush ∉ cs) (s : St) :
    ∃ s' N m, runCmds n fl cs s = some s' ∧ s'.trace = s.trace ∧ s'.pub = s.pub ++ N ∧
      s'.queue = (s.queue ++ N).drop m ∧ (∀ p ∈ N, .publish p.1 p.2 ∈ cs) ∧
      (s'.pub.length - s.pub.length + s.queue.length ≤ n → m = 0) := by
  induction cs generalizing s with
  | nil => exact ⟨s, [], 0, rfl, rfl, by simp, by simp, by simp, fun _ => rfl⟩
  | cons c cs ih =>
    have h' : .flush ∉ cs := fun hc => h (by simp [hc])
    cases c with
    | flush => simp at h
    | publish k e =>
      obtain ⟨s', N, m, h1, h2, h3, h4, h5, h6⟩ := ih h' (s.publish n k e)
      obtain ⟨m0, hm0, hm0'⟩ : ∃ m0, pushBounded n s.queue (k, e) = (s.queue ++ [(k, e)]).drop m0 ∧
          m0 = s.queue.length + 1 - n := by
        exact ⟨s.queue.length + 1 - n, rfl, rfl⟩
      have hq : (s.publish n k e).queue = (s.queue ++ [(k, e)]).drop m0 := hm0
      have hp : (s.publish n k e).pub = s.pub ++ [(k, e)] := rfl
      rw [hq] at h4 h6
      rw [hp] at h3 h6
      have hle : m0 ≤ (s.queue ++ [(k, e)]).length := by
        simp only [List.length_append, List.length_cons, List.length_nil]
        omega
      refine ⟨s', (k, e) :: N, m0 + m, h1, h2, by rw [h3]; simp, ?_, ?_, ?_⟩
      · rw [h4, ← List.drop_drop, show s.queue ++ (k, e) :: N = (s.queue ++ [(k, e)]) ++ N by simp,
          List.drop_append_of_le_length hle]
      · intro p hp
        rcases List.mem_cons.1 hp with rfl | hp
        · simp
        · exact List.mem_cons_of_mem _ (h5 p hp)
      · intro hlim
        rw [h3] at hlim h6
        simp only [List.length_append, List.length_cons, List.length_nil, List.length_drop] at hlim h6
        have hz : m0 = 0 := by omega
        subst hz
        rw [h6 (by omega)]

theorem received_snoc_hook (i j : SinkId) (k : Kind) (e : Event) (tr : List Obs) :
    received i (tr ++ [Obs.hook j k e]) = received i tr ++ (if j = i then [(k, e)] else []) := by
  simp only [received, List.filterMap_append, List.filterMap_cons, List.filterMap_nil]
  split <;> simp_all

/-- One event delivered to sinks that do not flush. -/
theorem callHooks_noFlush {c : Conf} (hn : c.NoFlush) (fl : St → Option St) (k : Kind) (e : Event)
    (is : List SinkId) (hnd : is.Nodup) (s : St) :
    ∃ s' N m, callHooks c fl k e is s = some s' ∧ s'.pub = s.pub ++ N ∧ s'.queue = (s.queue ++ N).drop m ∧
      (∀ p ∈ N, ∃ i tr, .publish p.1 p.2 ∈ c.react i k e tr) ∧
      (∀ i, received i s'.trace = received i s.trace ++ if i ∈ is then [(k, e)] else []) ∧
      (s'.pub.length - s.pub.length + s.queue.length ≤ c.limit → m = 0) := by
  induction is generalizing s with
  | nil => exact ⟨s, [], 0, rfl, by simp, by simp, by simp, by simp, fun _ => rfl⟩
  | cons i is ih =>
    obtain ⟨hi, hnd'⟩ := List.nodup_cons.1 hnd
    obtain ⟨s1, N1, m1, g1, g2, g3, g4, g5, g6⟩ := runCmds_publish c.limit (fl := fl) (c.react i k e s.trace) (hn i k e _)
      { s with trace := s.trace ++ [Obs.hook i k e] }
    obtain ⟨s2, N2, m2, k1, k2, k3, k4, k5, k6⟩ := ih hnd' s1
    dsimp only at g2 g3 g4 g6
    by_cases hm1 : m1 ≤ (s.queue ++ N1).length
    · refine ⟨s2, N1 ++ N2, m1 + m2, by simp only [callHooks, g1, k1], by rw [k2, g3]; simp, ?_, ?_, ?_, ?_⟩
      · rw [k3, g4, ← List.drop_drop, ← List.append_assoc, List.drop_append_of_le_length hm1]
      · intro p hp
        rcases List.mem_append.1 hp with hp | hp
        · exact ⟨i, _, g5 p hp⟩
        · exact k4 p hp
      · intro j
        rw [k5 j, g2, received_snoc_hook]
        by_cases hj : i = j
        · subst hj; simp [hi]
        · have : (j ∈ i :: is) ↔ j ∈ is := by simp [Ne.symm hj]
          simp [hj, this]
      · intro hlim
        rw [k2, g3] at hlim
        rw [g3] at g6
        rw [k2, g4] at k6
        simp only [List.length_append, List.length_drop] at hlim g6 k6
        have hz := g6 (by omega)
        subst hz
        rw [k6 (by omega)]
    · -- more dropped than there was: take exactly what there was
      have hnil : s1.queue = [] := by rw [g4, List.drop_eq_nil_of_le (by omega)]
      refine ⟨s2, N1 ++ N2, (s.queue ++ N1).length + m2, by simp only [callHooks, g1, k1], by rw [k2, g3]; simp,
        ?_, ?_, ?_, ?_⟩
      · rw [k3, hnil, ← List.drop_drop, ← List.append_assoc, List.drop_append_of_le_length (Nat.le_refl _)]
        simp
      · intro p hp
        rcases List.mem_append.1 hp with hp | hp
        · exact ⟨i, _, g5 p hp⟩
        · exact k4 p hp
      · intro j
        rw [k5 j, g2, received_snoc_hook]
        by_cases hj : i = j
        · subst hj; simp [hi]
        · have : (j ∈ i :: is) ↔ j ∈ is := by simp [Ne.symm hj]
          simp [hj, this]
      · intro hlim
        exfalso
        rw [k2, g3] at hlim
        rw [g3] at g6
        simp only [List.length_append] at hlim g6 hm1
        have hz := g6 (by omega)
        omega

/-- Without flushes inside hooks, what `flush` is does not matter. -/
theorem runCmds_congr {n : Nat} {cs : List Cmd} (h : .flush ∉ cs) (fl fl' : St → Option St) (s : St) :
    runCmds n fl cs s = runCmds n fl' cs s := by
  induction cs generalizing s with
  | nil => rfl
  | cons c cs ih =>
    have h' : .flush ∉ cs := fun hc => h (by simp [hc])
    cases c with
    | flush => simp at h
    | publish k e => exact ih h' _

theorem callHooks_congr {c : Conf} (hn : c.NoFlush) (fl fl' : St → Option St) (k : Kind) (e : Event)
    (is : List SinkId) (s : St) : callHooks c fl k e is s = callHooks c fl' k e is s := by
  induction is generalizing s with
  | nil => rfl
  | cons i is ih =>
    simp only [callHooks]
    rw [runCmds_congr (hn i k e _) fl fl']
    split
    · rfl
    · exact ih _

/-- One round of `flush`. -/
theorem flush_round {c : Conf} (hn : c.NoFlush) (hnd : ∀ k, (c.hooks k).Nodup) {s : St} {k : Kind} {e : Event}
    {q : List (Kind × Event)} (hq : s.queue = (k, e) :: q) :
    ∃ s' N m, (∀ fuel, flush c (fuel + 1) s = flush c fuel s') ∧ s'.pub = s.pub ++ N ∧ s'.queue = (q ++ N).drop m ∧
      (∀ p ∈ N, ∃ i tr, .publish p.1 p.2 ∈ c.react i k e tr) ∧
      (∀ i, received i s'.trace = received i s.trace ++ if i ∈ c.hooks k then [(k, e)] else []) ∧
      (s'.pub.length - s.pub.length + q.length ≤ c.limit → m = 0) := by
  obtain ⟨s', N, m, g1, g2, g3, g4, g5, g6⟩ := callHooks_noFlush hn some k e (c.hooks k) (hnd k)
    { s with queue := q }
  refine ⟨s', N, m, fun fuel => ?_, g2, g3, g4, g5, g6⟩
  simp only [flush, hq]
  rw [callHooks_congr hn _ some, g1]

/-- More time for the inner flushes does not change a result. -/
theorem runCmds_mono {n : Nat} {fl fl' : St → Option St} (h : ∀ s s', fl s = some s' → fl' s = some s')
    (cs : List Cmd) (s s' : St) (hs : runCmds n fl cs s = some s') : runCmds n fl' cs s = some s' := by
  induction cs generalizing s with
  | nil => exact hs
  | cons c cs ih =>
    cases c with
    | publish k e => exact ih _ hs
    | flush =>
      simp only [runCmds] at hs ⊢
      cases hf : fl s with
      | none => simp [hf] at hs
      | some s1 =>
        rw [hf] at hs
        rw [h s s1 hf]
        exact ih _ hs

theorem callHooks_mono {c : Conf} {fl fl' : St → Option St} (h : ∀ s s', fl s = some s' → fl' s = some s')
    (k : Kind) (e : Event) (is : List SinkId) (s s' : St) (hs : callHooks c fl k e is s = some s') :
    callHooks c fl' k e is s = some s' := by
  induction is generalizing s with
  | nil => exact hs
  | cons i is ih =>
    simp only [callHooks] at hs ⊢
    cases hf : runCmds c.limit fl (c.react i k e s.trace) { s with trace := s.trace ++ [Obs.hook i k e] } with
    | none => simp [hf] at hs
    | some s1 =>
      rw [hf] at hs
      rw [runCmds_mono h _ _ _ hf]
      exact ih _ hs

/-- More fuel does not change a result: whether a flush returns, and what it does, does not depend on how its
steps are counted. -/
theorem flush_mono (c : Conf) (fuel fuel' : Nat) (hf : fuel ≤ fuel') (s s' : St) (h : flush c fuel s = some s') :
    flush c fuel' s = some s' := by
  induction fuel generalizing s fuel' s' with
  | zero => simp [flush] at h
  | succ fuel ih =>
    obtain ⟨f, rfl⟩ : ∃ f, fuel' = f + 1 := ⟨fuel' - 1, by omega⟩
    simp only [flush] at h ⊢
    split at h
    · exact h
    · split at h
      · simp at h
      · rename_i s1 hs1
        rw [callHooks_mono (fun s s' => ih f (by omega) s s') _ _ _ _ _ hs1]
        exact ih f (by omega) _ _ h

/-- Chains of caused events below `r`, at most `n` of them at `r`. -/
def Below (rank : Kind × Event → Nat) (r n : Nat) (q : List (Kind × Event)) : Prop :=
  ∃ a b, q = a ++ b ∧ a.length ≤ n ∧ (∀ p ∈ a, rank p < r + 1) ∧ ∀ p ∈ b, rank p < r

theorem Below.push {rank : Kind × Event → Nat} {r n l : Nat} {q : List (Kind × Event)} (h : Below rank r n q)
    {p : Kind × Event} (hp : rank p < r) : Below rank r n (pushBounded l q p) := by
  obtain ⟨a, b, rfl, ha, hra, hb⟩ := h
  refine ⟨a.drop ((a ++ b).length + 1 - l), (b ++ [p]).drop (((a ++ b).length + 1 - l) - a.length), ?_, ?_, ?_, ?_⟩
  · rw [pushBounded, List.append_assoc, List.drop_append]
  · rw [List.length_drop]; omega
  · exact fun x hx => hra x (List.mem_of_mem_drop hx)
  · intro x hx
    rcases List.mem_append.1 (List.mem_of_mem_drop hx) with hx | hx
    · exact hb x hx
    · rw [List.mem_singleton.1 hx]; exact hp

/-- **C24, what does hold: `flush` returns.**  Sinks may publish to the logger and flush it from inside their
hooks.  If the chains of events they publish in reaction to events are bounded, `flush` returns, and leaves the
queue empty.  Missing: sinks that go on publishing for ever (`reentrant_flush_returns_violated`). -/
theorem reentrant_flush_returns_partial (c : Conf) (rank : Kind × Event → Nat) (hr : c.Ranked rank) (s : St) :
    ∃ fuel s', flush c fuel s = some s' ∧ s'.queue = [] := by
  have key : ∀ r s, (∀ p ∈ s.queue, rank p < r) → ∃ fuel s', flush c fuel s = some s' ∧ s'.queue = [] := by
    intro r
    induction r with
    | zero =>
      intro s hs
      have hq : s.queue = [] := by
        cases h : s.queue with
        | nil => rfl
        | cons p q => exact absurd (hs p (by simp [h])) (by omega)
      exact ⟨1, s, by simp [flush, hq], hq⟩
    | succ r ih =>
      have inner : ∀ n s, Below rank r n s.queue → ∃ fuel s', flush c fuel s = some s' ∧ s'.queue = [] := by
        intro n
        induction n with
        | zero =>
          rintro s ⟨a, b, hq, ha, _, hb⟩
          have h1 : a = [] := List.length_eq_zero_iff.1 (Nat.le_zero.1 ha)
          subst h1
          exact ih s (by rw [hq]; simpa using hb)
        | succ n ihn =>
          have cmds : ∀ cs s, (∀ k e, .publish k e ∈ cs → rank (k, e) < r) → Below rank r n s.queue →
              ∃ fuel s', runCmds c.limit (flush c fuel) cs s = some s' ∧ Below rank r n s'.queue := by
            intro cs
            induction cs with
            | nil => intro s _ hb; exact ⟨0, s, rfl, hb⟩
            | cons x cs ihc =>
              intro s hx hb
              have hx' : ∀ k e, .publish k e ∈ cs → rank (k, e) < r := fun k e h => hx k e (by simp [h])
              cases x with
              | publish k e => exact ihc _ hx' (hb.push (hx k e (by simp)))
              | flush =>
                obtain ⟨f1, s1, h1, h2⟩ := ihn s hb
                obtain ⟨f2, s2, h3, h4⟩ := ihc s1 hx' (by rw [h2]; exact ⟨[], [], rfl, by simp, by simp, by simp⟩)
                refine ⟨f1 + f2, s2, ?_, h4⟩
                simp only [runCmds]
                rw [flush_mono c f1 (f1 + f2) (by omega) _ _ h1]
                exact runCmds_mono (fun s s' => flush_mono c f2 (f1 + f2) (by omega) s s') _ _ _ h3
          have hooks : ∀ k e is s, rank (k, e) < r + 1 → Below rank r n s.queue →
              ∃ fuel s', callHooks c (flush c fuel) k e is s = some s' ∧ Below rank r n s'.queue := by
            intro k e is
            induction is with
            | nil => intro s _ hb; exact ⟨0, s, rfl, hb⟩
            | cons i is ihi =>
              intro s hk hb
              obtain ⟨f1, s1, h1, h2⟩ := cmds (c.react i k e s.trace)
                { s with trace := s.trace ++ [Obs.hook i k e] }
                (fun k' e' h => by have := hr i k e s.trace k' e' h; omega) hb
              obtain ⟨f2, s2, h3, h4⟩ := ihi s1 hk h2
              refine ⟨f1 + f2, s2, ?_, h4⟩
              simp only [callHooks]
              rw [runCmds_mono (fun s s' => flush_mono c f1 (f1 + f2) (by omega) s s') _ _ _ h1]
              exact callHooks_mono (fun s s' => flush_mono c f2 (f1 + f2) (by omega) s s') _ _ _ _ _ h3
          rintro s ⟨a, b, hq, ha, hra, hb⟩
          cases a with
          | nil => exact ih s (by rw [hq]; simpa using hb)
          | cons p a =>
            obtain ⟨k, e⟩ := p
            obtain ⟨f1, s1, h1, h2⟩ := hooks k e (c.hooks k) { s with queue := a ++ b } (hra (k, e) (by simp))
              ⟨a, b, rfl, by simpa using ha, fun p hp => hra p (by simp [hp]), hb⟩
            obtain ⟨f2, s2, h3, h4⟩ := ihn s1 h2
            refine ⟨f1 + f2 + 1, s2, ?_, h4⟩
            have hq' : s.queue = (k, e) :: (a ++ b) := by simpa using hq
            simp only [flush, hq']
            rw [callHooks_mono (fun s s' => flush_mono c f1 (f1 + f2) (by omega) s s') _ _ _ _ _ h1]
            exact flush_mono c f2 (f1 + f2) (by omega) _ _ h3
      intro s hs
      exact inner s.queue.length s ⟨s.queue, [], by simp, Nat.le_refl _, hs, by simp⟩
  have hmax : ∃ r, ∀ p ∈ s.queue, rank p < r := by
    generalize s.queue = q
    induction q with
    | nil => exact ⟨0, by simp⟩
    | cons p q ih =>
      obtain ⟨r, hr⟩ := ih
      refine ⟨r + rank p + 1, fun x hx => ?_⟩
      rcases List.mem_cons.1 hx with rfl | hx
      · omega
      · have := hr x hx; omega
  obtain ⟨r, hr⟩ := hmax
  exact key r s hr

/-- How often sink `i` has received `p` or will because it is queued. -/
def tot (c : Conf) (i : SinkId) (p : Kind × Event) (s : St) : Nat :=
  (received i s.trace).count p + (wanted c i s.queue).count p

/-- `x` is what is to be delivered in between that is not in the queue. -/
def Acc (c : Conf) (s s' : St) (x : SinkId → Kind × Event → Nat) : Prop :=
  ∃ N, s'.pub = s.pub ++ N ∧ s'.queue.length ≤ s.queue.length + N.length ∧
    (∀ i p, tot c i p s' ≤ tot c i p s + (wanted c i N).count p + x i p) ∧
    (s.queue.length + N.length ≤ c.limit →
      ∀ i p, tot c i p s' = tot c i p s + (wanted c i N).count p + x i p)

theorem Acc.refl (c : Conf) (s : St) : Acc c s s fun _ _ => 0 :=
  ⟨[], by simp, by simp, fun _ _ => by simp [wanted], fun _ _ _ => by simp [wanted]⟩

theorem Acc.trans {c : Conf} {s s1 s2 : St} {x y : SinkId → Kind × Event → Nat} (h1 : Acc c s s1 x)
    (h2 : Acc c s1 s2 y) : Acc c s s2 fun i p => x i p + y i p := by
  obtain ⟨N, a1, a2, a3, a4⟩ := h1
  obtain ⟨M, b1, b2, b3, b4⟩ := h2
  have hw : ∀ i p, (wanted c i (N ++ M)).count p = (wanted c i N).count p + (wanted c i M).count p :=
    fun i p => by simp [wanted]
  refine ⟨N ++ M, by rw [b1, a1]; simp, by rw [List.length_append]; omega, fun i p => ?_, fun hl i p => ?_⟩
  · have := a3 i p; have := b3 i p; have := hw i p; dsimp only; omega
  · rw [List.length_append] at hl
    have := a4 (by omega) i p; have := b4 (by omega) i p; have := hw i p; dsimp only; omega

theorem Acc.publish (c : Conf) (s : St) (k : Kind) (e : Event) : Acc c s (s.publish c.limit k e) fun _ _ => 0 := by
  have hq : (s.publish c.limit k e).queue = (s.queue ++ [(k, e)]).drop (s.queue.length + 1 - c.limit) := rfl
  have hw : ∀ i p, (wanted c i (s.queue ++ [(k, e)])).count p =
      (wanted c i s.queue).count p + (wanted c i [(k, e)]).count p := fun i p => by
    simp only [wanted, List.filter_append, List.count_append]
  refine ⟨[(k, e)], rfl, ?_, fun i p => ?_, fun hl i p => ?_⟩
  · rw [hq]; simp
  · have h1 : (wanted c i (s.publish c.limit k e).queue).count p ≤ (wanted c i (s.queue ++ [(k, e)])).count p := by
      rw [hq]; exact ((List.drop_sublist _ _).filter _).count_le _
    have h2 : (s.publish c.limit k e).trace = s.trace := rfl
    simp only [tot, h2]
    have := hw i p; omega
  · have h1 : (s.publish c.limit k e).queue = s.queue ++ [(k, e)] := by
      rw [hq, show s.queue.length + 1 - c.limit = 0 by simp at hl; omega]; rfl
    have h2 : (s.publish c.limit k e).trace = s.trace := rfl
    simp only [tot, h1, h2]
    have := hw i p; omega

theorem runCmds_acc {c : Conf} {fl : St → Option St} (hfl : ∀ s s', fl s = some s' → Acc c s s' fun _ _ => 0)
    (cs : List Cmd) (s s' : St) (h : runCmds c.limit fl cs s = some s') : Acc c s s' fun _ _ => 0 := by
  induction cs generalizing s with
  | nil => cases h; exact Acc.refl c _
  | cons x cs ih =>
    cases x with
    | publish k e => exact (Acc.publish c s k e).trans (ih _ h)
    | flush =>
      simp only [runCmds] at h
      cases hf : fl s with
      | none => simp [hf] at h
      | some s1 => rw [hf] at h; exact (hfl _ _ hf).trans (ih _ h)

theorem callHooks_acc {c : Conf} {fl : St → Option St} (hfl : ∀ s s', fl s = some s' → Acc c s s' fun _ _ => 0)
    (k : Kind) (e : Event) (is : List SinkId) (s s' : St) (h : callHooks c fl k e is s = some s') :
    Acc c s s' fun i p => if p = (k, e) then is.count i else 0 := by
  induction is generalizing s with
  | nil => cases h; simpa using Acc.refl c _
  | cons j is ih =>
    simp only [callHooks] at h
    cases hf : runCmds c.limit fl (c.react j k e s.trace) { s with trace := s.trace ++ [Obs.hook j k e] } with
    | none => simp [hf] at h
    | some s1 =>
      rw [hf] at h
      have h0 : Acc c s { s with trace := s.trace ++ [Obs.hook j k e] }
          fun i p => if p = (k, e) ∧ j = i then 1 else 0 := by
        have ht : ∀ i p, tot c i p { s with trace := s.trace ++ [Obs.hook j k e] } =
            tot c i p s + if p = (k, e) ∧ j = i then 1 else 0 := by
          intro i p
          simp only [tot, received_snoc_hook, List.count_append]
          by_cases hj : j = i
          · by_cases hp : p = (k, e)
            · simp [hj, hp]; omega
            · simp [hj, hp, Ne.symm hp]
          · simp [hj]
        exact ⟨[], by simp, by simp, fun i p => by rw [ht]; simp [wanted], fun _ i p => by rw [ht]; simp [wanted]⟩
      have := (h0.trans (runCmds_acc hfl _ _ _ hf)).trans (ih _ h)
      refine cast (congrArg (Acc c s s') ?_) this
      funext i p
      by_cases hj : j = i
      · by_cases hp : p = (k, e)
        · simp [hj, hp]; omega
        · simp [hp]
      · simp [hj]

theorem flush_acc (c : Conf) (hnd : ∀ k, (c.hooks k).Nodup) (fuel : Nat) (s s' : St)
    (h : flush c fuel s = some s') : Acc c s s' (fun _ _ => 0) ∧ s'.queue = [] := by
  induction fuel generalizing s s' with
  | zero => simp [flush] at h
  | succ fuel ih =>
    simp only [flush] at h
    split at h
    · rename_i hq
      cases h
      exact ⟨Acc.refl c _, hq⟩
    · rename_i k e q hq
      split at h
      · simp at h
      · rename_i s1 hs1
        obtain ⟨h2, h3⟩ := ih _ _ h
        have h1 := callHooks_acc (fun s s' hs => (ih s s' hs).1) _ _ _ _ _ hs1
        obtain ⟨N, a1, a2, a3, a4⟩ := h1.trans h2
        have hx : ∀ i p, tot c i p s = tot c i p { s with queue := q } +
            if p = (k, e) then (c.hooks k).count i else 0 := by
          intro i p
          have hc : (c.hooks k).count i = if i ∈ c.hooks k then 1 else 0 := by
            split
            · rename_i hi; exact List.count_eq_one_of_mem (hnd k) hi
            · rename_i hi; exact List.count_eq_zero_of_not_mem hi
          simp only [tot, hq, hc, wanted, List.filter_cons]
          by_cases hi : i ∈ c.hooks k
          · by_cases hp : p = (k, e)
            · simp [hi, hp]; omega
            · simp [hi, hp, Ne.symm hp]
          · simp [hi]
        refine ⟨⟨N, a1, by rw [hq, List.length_cons]; dsimp only at a2; omega, fun i p => ?_, fun hl i p => ?_⟩, h3⟩
        · have := a3 i p; have := hx i p; dsimp only at *; omega
        · have := a4 (by rw [hq, List.length_cons] at hl; dsimp only; omega) i p; have := hx i p; dsimp only at *; omega

/-- **C24, what does hold for all sinks: delivery.**  Whatever sinks do from inside their hooks, publish or flush:
if `flush` returns, the queue is empty; each sink has received the events that were queued or have been published
since, each at most once, and none it has no hook for; and if the queue has not overflowed, all of them.  Missing:
the order, which a sink that flushes does change (`reentrant_order_violated`). -/
theorem reentrant_delivery_partial (c : Conf) (hnd : ∀ k, (c.hooks k).Nodup) (fuel : Nat) (s s' : St)
    (h : flush c fuel s = some s') :
    s'.queue = [] ∧ s.pub <+: s'.pub ∧
    (∀ i, received i s'.trace <+~ received i s.trace ++ wanted c i (s.queue ++ s'.pub.drop s.pub.length)) ∧
    (s.queue.length + (s'.pub.length - s.pub.length) ≤ c.limit →
      ∀ i, received i s'.trace ~ received i s.trace ++ wanted c i (s.queue ++ s'.pub.drop s.pub.length)) := by
  obtain ⟨⟨N, a1, _, a3, a4⟩, hq⟩ := flush_acc c hnd fuel s s' h
  have hd : s'.pub.drop s.pub.length = N := by rw [a1]; simp
  have ht : ∀ i p, tot c i p s' = (received i s'.trace).count p := by
    intro i p; simp [tot, hq, wanted]
  have hc : ∀ i p, (received i s.trace ++ wanted c i (s.queue ++ N)).count p =
      tot c i p s + (wanted c i N).count p := by
    intro i p; simp only [tot, wanted, List.filter_append, List.count_append]; omega
  rw [hd]
  refine ⟨hq, ⟨N, a1.symm⟩, fun i => List.subperm_ext_iff.2 fun p _ => ?_, fun hl i => List.perm_iff_count.2 fun p => ?_⟩
  · rw [hc, ← ht]; exact a3 i p
  · rw [a1, List.length_append] at hl
    rw [hc, ← ht]; exact a4 (by omega) i p

/-- **C24, what does hold: order and completeness.**  When a flush of a logger whose sinks publish but do not
flush returns, the queue is empty; each sink has received events in the order of publication, each at most once
and none it has no hook for; and if the queue has not overflowed, it has received all of them, those published
from inside hooks included. -/
theorem reentrant_order_partial (c : Conf) (hnd : ∀ k, (c.hooks k).Nodup) (hn : c.NoFlush) (fuel : Nat) (s s' : St)
    (h : flush c fuel s = some s') :
    s'.queue = [] ∧ s.pub <+: s'.pub ∧
    (∀ i, received i s.trace <+: received i s'.trace ∧
      received i s'.trace <+ received i s.trace ++ wanted c i (s.queue ++ s'.pub.drop s.pub.length)) ∧
    (s.queue.length + (s'.pub.length - s.pub.length) ≤ c.limit →
      ∀ i, received i s'.trace = received i s.trace ++ wanted c i (s.queue ++ s'.pub.drop s.pub.length)) := by
  induction fuel generalizing s with
  | zero => simp [flush] at h
  | succ fuel ih =>
    cases hq : s.queue with
    | nil =>
      have : s' = s := by simpa [flush, hq] using h.symm
      subst this
      simp [hq, wanted]
    | cons p q =>
      obtain ⟨k, e⟩ := p
      obtain ⟨s1, N, m, g1, g2, g3, _, g5, g6⟩ := flush_round hn hnd hq
      rw [g1] at h
      obtain ⟨k1, k2, k3, k4⟩ := ih s1 h
      obtain ⟨M, hM⟩ := k2
      have hp : s'.pub = s.pub ++ (N ++ M) := by rw [← hM, g2]; simp
      have hd : s'.pub.drop s.pub.length = N ++ M := by rw [hp]; simp
      have hd1 : s'.pub.drop s1.pub.length = M := by rw [← hM]; simp
      have hw : ∀ i x y, wanted c i (x ++ y) = wanted c i x ++ wanted c i y := fun i x y => by simp [wanted]
      have hw1 : ∀ i, wanted c i [(k, e)] = if i ∈ c.hooks k then [(k, e)] else [] := by
        intro i; by_cases hi : i ∈ c.hooks k <;> simp [wanted, hi]
      rw [hd1] at k3 k4
      rw [hd]
      have hsplit : ∀ i, wanted c i ((k, e) :: q ++ (N ++ M)) =
          (if i ∈ c.hooks k then [(k, e)] else []) ++ wanted c i ((q ++ N) ++ M) := by
        intro i
        rw [← hw1, ← hw]; simp
      refine ⟨k1, ⟨_, hp.symm⟩, fun i => ⟨?_, ?_⟩, fun hlim i => ?_⟩
      · refine List.IsPrefix.trans ⟨_, (g5 i).symm⟩ (k3 i).1
      · refine (k3 i).2.trans ?_
        rw [g5 i, hsplit, List.append_assoc, hw, hw, g3]
        refine List.Sublist.append_left (List.Sublist.append_left (List.Sublist.append_right ?_ _) _) _
        exact (List.drop_sublist _ _).filter _
      · rw [hp] at hlim
        rw [← hM, g2] at k4
        rw [g2] at g6
        rw [g3] at k4
        simp only [List.length_append, List.length_drop, List.length_cons] at hlim k4 g6
        have hz := g6 (by omega)
        subst hz
        rw [k4 (by omega) i, g5 i, hsplit]
        simp

namespace Demo

/-- Event number `n`, of a comment. -/
def ev (n : Nat) : Event := ⟨n, 0, 0, .comment, .success, 0, "", [], none⟩

/-- Two sinks with comment hooks; `f` is what the first does. -/
def conf (f : Event → List Obs → List Cmd) : Conf where
  limit := 100
  hooks k := if k = .comment then [0, 1] else []
  react i _ e tr := if i = 0 then f e tr else []

/-- Nothing has happened yet but the publication of `l`. -/
def start (l : List Event) : St := ⟨l.map fun e => (.comment, e), [], l.map fun e => (.comment, e)⟩

/-- The first sink comments on events 1 to 9 with an event whose number is ten times as large. -/
def tenfold : Conf := conf fun e _ => if 0 < e.id ∧ e.id < 10 then [.publish .comment (ev (10 * e.id))] else []

theorem tenfold_noFlush : tenfold.NoFlush := by
  intro i k e tr
  simp only [tenfold, conf]
  split
  · split <;> simp
  · simp

theorem tenfold_nodup (k : Kind) : (tenfold.hooks k).Nodup := by
  simp only [tenfold, conf]; split <;> simp

theorem tenfold_ranked : tenfold.Ranked fun p => if p.2.id < 10 then 1 else 0 := by
  intro i k e tr k' e' h
  simp only [tenfold, conf] at h
  split at h
  · split at h
    · rename_i h1 h2
      obtain ⟨rfl, rfl⟩ : k' = .comment ∧ e' = ev (10 * e.id) := by simpa using h
      have h3 : ¬ (10 * e.id < 10) := by omega
      simp [ev, h2.2, h3]
    · simp at h
  · simp at h

/-- The hypotheses of `reentrant_flush_returns_partial` are met by a sink that does publish: -/
example : ∃ fuel s', flush tenfold fuel (start [ev 1, ev 2]) = some s' ∧ s'.queue = [] :=
  reentrant_flush_returns_partial tenfold _ tenfold_ranked _

/-- and so are those of `reentrant_order_partial`: both sinks receive the two events, then the comments on them. -/
example : (flush tenfold 5 (start [ev 1, ev 2])).map (fun s => (received 1 s.trace, s.pub, s.queue)) =
    some ([(.comment, ev 1), (.comment, ev 2), (.comment, ev 10), (.comment, ev 20)],
      [(.comment, ev 1), (.comment, ev 2), (.comment, ev 10), (.comment, ev 20)], []) := by decide +kernel

/-- A sink that publishes event 5 and flushes when it handles event 1. -/
def inner : Conf := conf fun e _ => if e.id = 1 then [.publish .comment (ev 5), .flush] else []

/-- `reentrant_delivery_partial` applies to it: its flush returns and delivers all, not in order. -/
example : (flush inner 5 (start [ev 1, ev 2])).map (fun s => (received 1 s.trace, s.queue)) =
    some ([(.comment, ev 2), (.comment, ev 5), (.comment, ev 1)], []) := by decide +kernel

end Demo

/-- **C24 is violated: `flush` need not return.**  A sink that publishes an event for each event it handles keeps
`flush` busy for ever. -/
theorem reentrant_flush_returns_violated :
    ∃ (c : Conf) (s : St), c.NoFlush ∧ (∀ k, (c.hooks k).Nodup) ∧ s.queue.length = 1 ∧
      ∀ fuel, flush c fuel s = none := by
  refine ⟨Demo.conf fun e _ => [.publish .comment e], Demo.start [Demo.ev 1], ?_, ?_, rfl, ?_⟩
  · intro i k e tr
    simp only [Demo.conf]
    split <;> simp
  · intro k
    simp only [Demo.conf]; split <;> simp
  · have key : ∀ fuel s, s.queue = [(.comment, Demo.ev 1)] →
        flush (Demo.conf fun e _ => [.publish .comment e]) fuel s = none := by
      intro fuel
      induction fuel with
      | zero => intro s _; rfl
      | succ fuel ih =>
        intro s hs
        simp only [flush, hs]
        simp only [Demo.conf, if_true, callHooks, runCmds, St.publish]
        exact ih _ rfl
    intro fuel
    exact key fuel _ rfl

/-- **C24 is violated: order.**  Of two queued events, the first sink flushes when it handles the first.  The
second sink then receives the second event before the first. -/
theorem reentrant_order_violated :
    ∃ (c : Conf) (s s' : St) (fuel : Nat), (∀ k, (c.hooks k).Nodup) ∧ flush c fuel s = some s' ∧
      (∀ p ∈ s.pub, 1 ∈ c.hooks p.1) ∧ s.queue = s.pub ∧ s.trace = [] ∧
      s'.pub = [(.comment, Demo.ev 1), (.comment, Demo.ev 2)] ∧
      received 1 s'.trace = [(.comment, Demo.ev 2), (.comment, Demo.ev 1)] := by
  refine ⟨Demo.conf fun e _ => if e.id = 1 then [.flush] else [], Demo.start [Demo.ev 1, Demo.ev 2],
    ⟨[], [Obs.hook 0 .comment (Demo.ev 1), Obs.hook 0 .comment (Demo.ev 2), Obs.hook 1 .comment (Demo.ev 2),
      Obs.hook 1 .comment (Demo.ev 1)], [(.comment, Demo.ev 1), (.comment, Demo.ev 2)]⟩, 5, ?_, ?_, ?_, rfl, rfl, rfl, ?_⟩
  · intro k
    simp only [Demo.conf]; split <;> simp
  · simp [flush, callHooks, runCmds, Demo.conf, Demo.start, Demo.ev]
  · simp [Demo.conf, Demo.start]
  · decide +kernel

end Verif.Reentrant
