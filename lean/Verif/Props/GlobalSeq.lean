import Verif.Props.WeakSeq
import Verif.Props.Global
/-!
# One thread with the global context is the model of one context (C110)

`Model/Weak.lean` has one context; here are the same calls in a program that leaves the context to `get_context`.  With
`C101_sequential`, `C109_sequential` and `C99_sequential` this ties `Model/Global.lean` to the world model.
-/
namespace Verif.Global

/-- What the program does. -/
inductive Cmd
  | make (l : LogId)
  | publish (l : LogId) (e : Ev)
  | flush
deriving DecidableEq

def Cmd.weak : Cmd → Weak.Cmd
  | .make l => .make l
  | .publish l e => .publish l e
  | .flush => .flush

def Cmd.act : Cmd → Act
  | .make l => .new l none
  | .publish l e => .publish l e
  | .flush => .flush

/-- Thread `t` does this alone. -/
def Goes (t : Tid) (s s' : Sys) : Prop := ∃ n, run s (List.replicate n (t, .go)) = s'

theorem Goes.next {t : Tid} {s s' s'' : Sys} (h : step s t .go = s') (h' : Goes t s' s'') : Goes t s s'' := by
  obtain ⟨n, hn⟩ := h'
  refine ⟨n + 1, ?_⟩
  rw [List.replicate_succ, run, List.foldl_cons]
  show run (step s t .go) _ = _
  rw [h, hn]

/-- The same loggers, all with the one global context. -/
structure Like (t : Tid) (w : Weak.Sys) (s : Sys) : Prop where
  glob : s.glob = some 0 ∨ s.glob = none ∧ s.next = 0
  ctx : ∀ l, s.ctx l = if l ∈ w.table then some 0 else none
  empty : s.glob = none → w.table = []
  refs : ∀ l, l ∈ w.refs ↔ l ∈ w.table
  queue : ∀ l ∈ w.table, w.queue l = s.queue l
  got : ∀ l, w.got l = s.got l
  snap : w.snap = []
  here : s.pcs[t]? = some .idle

theorem set_self {s : Sys} {t : Tid} {p q : PC} (h : s.pcs[t]? = some p) : (s.pcs.set t q)[t]? = some q := by
  obtain ⟨hi, _⟩ := List.getElem?_eq_some_iff.1 h
  simp [hi]

theorem step_go {s : Sys} {t : Tid} {p : PC} (h : s.pcs[t]? = some p) : step s t .go = go s t p := by simp [step, h]

/-- `get_context`, alone. -/
theorem gets {t : Tid} {s : Sys} (k : Cont) (hg : s.glob = some 0 ∨ s.glob = none ∧ s.next = 0)
    (hp : s.pcs[t]? = some (.test k)) :
    ∃ s1, Goes t s (finish s1 t k) ∧ s1.glob = some 0 ∧ s1.ctx = s.ctx ∧ s1.queue = s.queue ∧ s1.got = s.got ∧
      s1.pcs[t]? = some (.read k) := by
  rcases hg with hg | ⟨hg, hn⟩
  · refine ⟨s.to t (.read k), .next (s' := s.to t (.read k)) ?_ (.next (s'' := _) (step_go (set_self hp)) ⟨0, rfl⟩), hg, rfl, rfl,
      rfl, set_self hp⟩
    rw [step_go hp]; simp [go, hg]
  · have h1 : step s t .go = s.to t (.make k) := by rw [step_go hp]; simp [go, hg]
    have p1 : (s.to t (.make k)).pcs[t]? = some (.make k) := set_self hp
    have h2 : step (s.to t (.make k)) t .go = { (s.to t (.make k)).to t (.store k 0) with next := 1 } := by
      rw [step_go p1]; simp [go, Sys.to, hn]
    have p2 : ({ (s.to t (.make k)).to t (.store k 0) with next := 1 } : Sys).pcs[t]? = some (.store k 0) := set_self p1
    have h3 := step_go p2
    have p3 : (go { (s.to t (.make k)).to t (.store k 0) with next := 1 } t (.store k 0)).pcs[t]? = some (.read k) := set_self p2
    exact ⟨_, .next h1 (.next h2 (.next h3 (.next (step_go p3) ⟨0, rfl⟩))), rfl, rfl, rfl, rfl, p3⟩

theorem like_step {t : Tid} {w : Weak.Sys} {s : Sys} (h : Like t w s) (c : Cmd) (hc : c.weak.possible w) :
    ∃ s', Goes t (step s t c.act) s' ∧ Like t (c.weak.after w) s' := by
  have hcall : ∀ a : Act, a ≠ .go → step s t a = call s t a := by
    intro a ha; simp [step, h.here, ha]
  cases c with
  | make l =>
    obtain ⟨h1, h2⟩ : l ∉ w.table ∧ l ∉ w.refs := hc
    rw [Cmd.act, hcall _ (by simp)]
    obtain ⟨s1, g, a1, a2, a3, a4, a5⟩ := gets (t := t) (s := call s t (.new l none)) (.log l) h.glob (set_self h.here)
    refine ⟨_, g, ?_⟩
    have hn : s1.ctx l = none := by rw [a2]; exact (h.ctx l).trans (if_neg h1)
    have e : finish s1 t (.log l) =
        { s1.to t .idle with
          res := s1.res ++ [(t, .log l, some 0)], ctx := upd s1.ctx l (some 0), queue := upd s1.queue l [] } := by
      simp [finish, a1, register, Sys.to, hn]
    rw [e]
    have ew : (Cmd.make l).weak.after w =
        { w with table := w.table ++ [l], refs := l :: w.refs, queue := fun m => if m = l then [] else w.queue m } := by
      simp [Cmd.weak, Weak.Cmd.after, Weak.Cmd.ops, Weak.run, Weak.step, h1, h2, h.snap]
    rw [ew]
    refine ⟨.inl a1, fun k => ?_, fun hg => ?_, fun k => ?_, fun k hk => ?_, fun k => ?_, h.snap, set_self a5⟩
    · show upd s1.ctx l (some 0) k = _
      rw [a2]
      by_cases hk : k = l
      · simp [upd, hk]
      · simp only [upd, hk, if_false, List.mem_append, List.mem_singleton, or_false]
        exact h.ctx k
    · rw [show s1.glob = none from hg] at a1; cases a1
    · simp [h.refs, or_comm]
    · show _ = upd s1.queue l [] k
      rw [a3]
      by_cases e : k = l
      · simp [upd, e]
      · simp only [upd, e, if_false]
        exact h.queue k (by simpa [e] using hk)
    · show w.got k = s1.got k
      rw [a4]; exact h.got k
  | publish l e =>
    obtain ⟨h1, h2⟩ : l ∈ w.refs ∧ _ := hc
    have ht := (h.refs l).1 h1
    rw [Cmd.act, hcall _ (by simp)]
    refine ⟨_, ⟨0, rfl⟩, ?_⟩
    have hs : call s t (.publish l e) = { s with queue := upd s.queue l (s.queue l ++ [e]) } := by
      simp [call, h.ctx, ht]
    have ew : (Cmd.publish l e).weak.after w =
        { w with queue := fun m => if m = l then w.queue l ++ [e] else w.queue m } := by
      simp [Cmd.weak, Weak.Cmd.after, Weak.Cmd.ops, Weak.run, Weak.step, h1]
    rw [ew]
    show Like t _ (call s t (.publish l e))
    rw [hs]
    refine ⟨h.glob, h.ctx, h.empty, h.refs, fun k hk => ?_, h.got, h.snap, h.here⟩
    by_cases e' : k = l
    · simp [upd, e', h.queue l ht]
    · simp only [upd, e', if_false]; exact h.queue k hk
  | flush =>
    rw [Cmd.act, hcall _ (by simp)]
    obtain ⟨s1, g, a1, a2, a3, a4, a5⟩ := gets (t := t) (s := call s t .flush) .flush h.glob (set_self h.here)
    refine ⟨_, g, ?_⟩
    obtain ⟨w', e, h1, h2, h3, h4, h5⟩ := Weak.nexts w.table (Weak.step w .flush) (by simp [Weak.step, h.snap])
    have ha : Cmd.flush.weak.after w = w' := by
      simp only [Cmd.weak, Weak.Cmd.after, Weak.Cmd.ops]
      rw [Weak.run_cons, e]
    have ht : w'.table = w.table := by rw [h1]; simp [Weak.step, h.snap]
    have hr : w'.refs = w.refs := by rw [h2]; simp [Weak.step, h.snap]
    have hq : (Weak.step w .flush).queue = w.queue := by simp [Weak.step, h.snap]
    have hg : (Weak.step w .flush).got = w.got := by simp [Weak.step, h.snap]
    have hcx : ∀ k, (s1.ctx k = some 0 ↔ k ∈ w.table) := by
      intro k
      rw [a2]
      show s.ctx k = some 0 ↔ _
      rw [h.ctx]
      by_cases hk : k ∈ w.table <;> simp [hk]
    rw [ha]
    have e : finish s1 t .flush =
        { s1.to t .idle with
          res := s1.res ++ [(t, .flush, some 0)]
          queue := fun l => if s1.ctx l = some 0 then [] else s1.queue l
          got := fun l => if s1.ctx l = some 0 then s1.got l ++ s1.queue l else s1.got l } := by
      simp [finish, a1, flushCtx, Sys.to]
    rw [e]
    refine ⟨.inl a1, fun k => ?_, fun hg => ?_, fun k => ?_, fun k hk => ?_, fun k => ?_, h3, set_self a5⟩
    · show s1.ctx k = _
      rw [a2, ht]; exact h.ctx k
    · rw [show s1.glob = none from hg] at a1; cases a1
    · rw [ht, hr]; exact h.refs k
    · rw [ht] at hk
      rw [h4, if_pos hk]
      exact (if_pos ((hcx k).2 hk)).symm
    · rw [h5, hq, hg]
      show _ = if s1.ctx k = some 0 then s1.got k ++ s1.queue k else s1.got k
      rw [a3, a4]
      by_cases hk : k ∈ w.table
      · rw [if_pos hk, if_pos ((hcx k).2 hk), h.got k, h.queue k hk]; rfl
      · rw [if_neg hk, if_neg (fun h' => hk ((hcx k).1 h')), h.got k]; rfl

/-- Thread `t` does the whole history, each call to its end. -/
inductive DoesAll (t : Tid) : Sys → List Cmd → Sys → Prop
  | nil (s) : DoesAll t s [] s
  | cons {s s' s'' c cs} (h : Goes t (step s t c.act) s') (h' : DoesAll t s' cs s'') : DoesAll t s (c :: cs) s''

/-- **C110**: a program of one thread that never names a context, and never sets one, has one context: whatever it does, the
loggers registered, the events waiting and the events handed over are those of `Model/Weak.lean` after the same calls. -/
theorem C110_sequential {t : Tid} {n : Nat} (ht : t < n) (cs : List Cmd) (hc : Weak.Possible {} (cs.map Cmd.weak)) :
    ∃ s, DoesAll t (init n) cs s ∧
      (∀ l, s.ctx l = if l ∈ ((cs.map Cmd.weak).foldl Weak.Cmd.after {}).table then some 0 else none) ∧
      (∀ l, ((cs.map Cmd.weak).foldl Weak.Cmd.after {}).got l = s.got l) ∧
      ∀ l ∈ ((cs.map Cmd.weak).foldl Weak.Cmd.after {}).table,
        ((cs.map Cmd.weak).foldl Weak.Cmd.after {}).queue l = s.queue l := by
  have key : ∀ (cs : List Cmd) (w : Weak.Sys) (s : Sys), Like t w s → Weak.Possible w (cs.map Cmd.weak) →
      ∃ s', DoesAll t s cs s' ∧ Like t ((cs.map Cmd.weak).foldl Weak.Cmd.after w) s' := by
    intro cs
    induction cs with
    | nil => intro w s h _; exact ⟨s, .nil s, h⟩
    | cons c cs ih =>
      intro w s h hp
      obtain ⟨s1, d1, l1⟩ := like_step h c hp.1
      obtain ⟨s2, d2, l2⟩ := ih _ _ l1 hp.2
      exact ⟨s2, .cons d1 d2, l2⟩
  obtain ⟨s, d, l⟩ := key cs {} (init n)
    ⟨.inr ⟨rfl, rfl⟩, fun _ => by simp [init], fun _ => rfl, fun _ => by simp, fun _ h => by simp at h, fun _ => rfl, rfl,
      by simp [init, ht]⟩ hc
  exact ⟨s, d, l.ctx, l.got, l.queue⟩

/-- A case: two loggers, an event of each, a flush, and one more event. -/
example : Weak.Possible {} ([Cmd.make 1, .publish 1 5, .make 2, .publish 2 6, .flush, .publish 1 7].map Cmd.weak) := by
  simp [Cmd.weak, Weak.Possible, Weak.Cmd.possible, Weak.Cmd.after, Weak.Cmd.ops, Weak.run, Weak.step, QUEUE_LIMIT]

end Verif.Global
