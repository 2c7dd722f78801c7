import Verif.Lemmas.Registry
import Verif.Lemmas.AsyncPub
/-!
# The bounded queue; flushes that fail
-/
namespace Verif
open scoped List
attribute [local irreducible] QUEUE_LIMIT

theorem pushBounded_length {α : Type} (n : Nat) (q : List α) (x : α) :
    (pushBounded n q x).length = min (q.length + 1) n := by
  simp only [pushBounded, List.length_drop, List.length_append, List.length_singleton]; omega

theorem queue_le_step {env : Env} {n : Nat} (hn : QUEUE_LIMIT = n) {d d' : Del}
    (h : ∀ l, (d.queue l).length ≤ n) (st : DelStep env d d') :
    ∀ l, (d'.queue l).length ≤ n := by
  intro l
  have shrink : ∀ (tr : List Obs) (m : LogId) (L' : Log), L'.queue.length ≤ n →
      ((⟨tr, updLog d.logs m L', d.pub⟩ : Del).queue l).length ≤ n := by
    intro tr m L' hL'
    rw [Del.queue_upd]; split
    · exact hL'
    · exact h l
  have qof : ∀ {m : LogId} {L : Log}, d.logs m = some L → L.queue.length ≤ n := by
    intro m L hL; have := h m; simpa [Del.queue, hL] using this
  cases st with
  | pub st =>
    cases st with
    | async m L k e hL ha hl hk hx =>
      rw [Del.queue_upd]; split
      · simp only [pushBounded_length, hn]; omega
      · exact h l
    | _ => exact h l
  | flush st =>
    cases st with
    | other => exact h l
    | pop m L k e q hL hQ =>
      exact shrink _ _ _ (by have := qof hL; rw [hQ] at this; simp at this ⊢; omega)
    | popExc m L e q t hL hQ =>
      exact shrink _ _ _ (by have := qof hL; rw [hQ] at this; simp at this ⊢; omega)
    | stamp m L t hL => exact shrink _ _ _ (by exact qof (L := L) hL)
  | cfg st =>
    rw [(cfg_still (.single st)).2.2 l]; exact h l

theorem Reachable.queue_le' {env : Env} {w : World} (h : Reachable env w) (l : LogId) :
    (queued w l).length ≤ QUEUE_LIMIT :=
  h.delInv (P := fun d => ∀ l, (d.queue l).length ≤ QUEUE_LIMIT)
    (fun _ _ h s => queue_le_step rfl h s) (by intro l; simp [Del.queue, World.del, World.init]) l

theorem lastN_push {α : Type} {n : Nat} {xs : List α} {x : α} :
    pushBounded n (lastN n xs) x = lastN n (xs ++ [x]) := by
  simp only [pushBounded, lastN, List.length_drop, List.length_append, List.length_singleton]
  by_cases h : xs.length < n
  · rw [show xs.length - n = 0 by omega, show xs.length + 1 - n = 0 by omega]
    rw [Nat.sub_zero, show xs.length + 1 - n = 0 by omega]; simp
  · by_cases hn : n = 0
    · subst hn; simp
    · rw [show xs.length - (xs.length - n) + 1 - n = 1 by omega]
      rw [← List.drop_append_of_le_length (by omega), List.drop_drop]
      congr 1; omega

theorem lastN_of_le {α : Type} {n : Nat} {xs : List α} (h : xs.length ≤ n) : lastN n xs = xs := by
  simp only [lastN]; rw [show xs.length - n = 0 by omega, List.drop_zero]

/-- Since `d0`: logger `l` asynchronous throughout, its queue the newest part of what it was plus what
was published. -/
structure Backlog (n : Nat) (l : LogId) (d0 d : Del) : Prop where
  async : ∃ L, d.logs l = some L ∧ L.async = true
  flow : ∃ N, ofLogger l d.pub = ofLogger l d0.pub ++ N ∧ d.queue l = lastN n (d0.queue l ++ N)

theorem backlog_pub {env : Env} {n : Nat} (hn : QUEUE_LIMIT = n) {l : LogId} {d0 d d' : Del}
    (h : Backlog n l d0 d) (st : PubStep env d d') : Backlog n l d0 d' := by
  obtain ⟨⟨L0, hL0, hA⟩, N, h1, h2⟩ := h
  cases st with
  | sync m L k e hL ha hl hk hx =>
    have hne : l ≠ m := by
      rintro rfl; rw [hL0] at hL; cases hL; rw [hA] at ha; cases ha
    exact ⟨⟨L0, hL0, hA⟩, N, by simp [ofLogger_ne hl hne (List.Sublist.refl [(k, e)]), h1], h2⟩
  | async m L k e hL ha hl hk hx =>
    by_cases hm : l = m
    · subst hm
      rw [hL0] at hL; cases hL
      refine ⟨⟨_, updLog_same _ _ _, ha⟩, N ++ [(k, e)], ?_, ?_⟩
      · simp [ofLogger_single, hx, hl, h1]
      · rw [Del.queue_upd, if_pos rfl, ← List.append_assoc, ← lastN_push, ← h2, hn]
        simp [Del.queue, hL0]
    · refine ⟨⟨L0, by rw [← hL0]; exact updLog_ne _ _ hm, hA⟩, N, ?_, ?_⟩
      · simp [ofLogger_ne hl hm (List.Sublist.refl [(k, e)]), h1]
      · rw [Del.queue_upd, if_neg hm]; exact h2
  | exc m L e hL hl hk => exact ⟨⟨L0, hL0, hA⟩, N, h1, h2⟩
  | note t ht => exact ⟨⟨L0, hL0, hA⟩, N, h1, h2⟩

theorem backlog_item {env : Env} {n : Nat} (hn : QUEUE_LIMIT = n) {l : LogId} {d0 : Del} {w : World}
    (hg : Good env w) (h : Backlog n l d0 w.del) (it : Item) (hf : it.leavesQueue l)
    (hm : it.keepsMode l) : Backlog n l d0 (stepItem env w it).del := by
  cases hk : it.kind with
  | pub => exact (pub_item hg.pre it hk).inv (P := Backlog n l d0) (fun _ _ => backlog_pub hn) h
  | cfg =>
    obtain ⟨⟨L0, hL0, hA⟩, N, h1, h2⟩ := h
    obtain ⟨c1, c2, c3⟩ := cfg_still (cfg_item (env := env) (w := w) it hk)
    refine ⟨?_, N, by rw [c2]; exact h1, by rw [c3]; exact h2⟩
    rcases cfg_log (env := env) w l it hk with ⟨_, g⟩ | ⟨M, _, g, _⟩ | ⟨M, M', g, g', _, hA'⟩
    · rw [show w.logs l = some L0 from hL0] at g; cases g
    · rw [show w.logs l = some L0 from hL0] at g; cases g
    · rw [show w.logs l = some L0 from hL0] at g; cases g
      refine ⟨M', g', ?_⟩
      rcases hA' with e | ⟨b, rfl, e⟩ | ⟨rfl, e⟩
      · rw [e, hA]
      · rw [e]; exact hm rfl
      · cases hm
  | disable =>
    obtain ⟨u, rfl⟩ := item_disable hk
    exact hf.elim
  | flush =>
    cases it with
    | enter a => simp [Item.kind] at hk
    | exit a exc => simp [Item.kind] at hk
    | op o =>
      cases o <;> simp only [Item.kind, reduceCtorEq] at hk
      case ctxFlush => exact hf.elim
      case flush m =>
        have hne : m ≠ l := hf
        obtain ⟨⟨L0, hL0, hA⟩, N, h1, h2⟩ := h
        have hlogs : ∀ w' : World, (flush env w m).1 = w' → w'.logs l = w.logs l ∧ w'.pub = w.pub := by
          intro w' hw'
          subst hw'
          refine ⟨flush_other hne.symm, ?_⟩
          exact (flush_flushLike env w m).core.pub
        obtain ⟨g1, g2⟩ := hlogs _ rfl
        simp only [stepItem, step, ret]
        exact ⟨⟨L0, g1.trans hL0, hA⟩, N,
          by show ofLogger l (flush env w m).1.pub = _; rw [g2]; exact h1,
          by show queued (flush env w m).1 l = _; simp only [queued, g1]; exact h2⟩

theorem backlog_run {env : Env} {n : Nat} (hn : QUEUE_LIMIT = n) {l : LogId} {d0 : Del} {w : World}
    (hg : Good env w) (h : Backlog n l d0 w.del) (its : List Item)
    (hf : ∀ it ∈ its, it.leavesQueue l) (hm : ∀ it ∈ its, it.keepsMode l) :
    Backlog n l d0 (run env w its).del := by
  induction its generalizing w with
  | nil => exact h
  | cons it its ih =>
    exact ih (hg.item it) (backlog_item hn hg h it (hf it (by simp)) (hm it (by simp)))
      (fun i hi => hf i (by simp [hi])) (fun i hi => hm i (by simp [hi]))

end Verif
