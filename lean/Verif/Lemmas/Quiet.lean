import Verif.Lemmas.DelInv
/-!
# Behaviour when foreign code does not raise; programs and their histories
-/
namespace Verif
open scoped List
attribute [local irreducible] QUEUE_LIMIT

theorem run_append (env : Env) (w : World) (x y : List Item) :
    run env w (x ++ y) = run env (run env w x) y := by simp [run]
theorem run_cons (env : Env) (w : World) (x : Item) (y : List Item) :
    run env w (x :: y) = run env (stepItem env w x) y := rfl

theorem IdInv.fresh {c : Core} (h : IdInv c) : c.acts c.nextId = none := by
  cases hx : c.acts c.nextId with
  | none => rfl
  | some x => exact absurd (h.actLt _ x hx) (by simp)

/-- Existing actions keep their fixed fields. -/
theorem Good.fixed_item {env : Env} {w : World} (h : Good env w) (it : Item) {a : ActId} {x : Act}
    (hx : w.acts a = some x) :
    ∃ y, (stepItem env w it).acts a = some y ∧ y.fixed = x.fixed := by
  have := (Verif.fixed_item (env := env) w h.id.fresh it).1 a (by simp [hx])
  rw [hx] at this
  cases hy : (stepItem env w it).acts a with
  | none => rw [hy] at this; simp at this
  | some y => rw [hy] at this; exact ⟨y, rfl, by simpa using this⟩

theorem Good.fixed_run {env : Env} {w : World} (h : Good env w) (its : List Item) {a : ActId} {x : Act}
    (hx : w.acts a = some x) :
    ∃ y, (Verif.run env w its).acts a = some y ∧ y.fixed = x.fixed := by
  induction its generalizing w x with
  | nil => exact ⟨x, hx, rfl⟩
  | cons it its ih =>
    obtain ⟨y, hy, hf⟩ := h.fixed_item it hx
    obtain ⟨z, hz, hg⟩ := ih (h.item it) hy
    exact ⟨z, hz, hg.trans hf⟩

theorem Good.held_run {env : Env} {w : World} (h : Good env w) (its : List Item) {a : ActId}
    (hh : w.held a = true) : (Verif.run env w its).held a = true := by
  obtain ⟨x, hx, hx2⟩ := held_iff.1 hh
  obtain ⟨y, hy, hf⟩ := h.fixed_run its hx
  simp only [Act.fixed, Prod.mk.injEq] at hf
  exact held_iff.2 ⟨y, hy, hf.2.2.2.2.2.trans hx2⟩

/-- A program's run is the run of its history. -/
theorem run_items {env : Env} (p : Prog) {w : World} (hg : Good env w) :
    run env w (items env p w) = (exec env p w).1 := by
  induction p generalizing w with
  | done => rfl
  | raise e => rfl
  | call o k ih =>
    simp only [items, exec]
    exact ih _ _ (hg.item (.op o))
  | block a body k ihb ihk =>
    simp only [items, exec]
    split
    · rename_i hh
      have hge := hg.item (.enter a)
      have he : stepItem env w (.enter a) = (enter env w a).1 := by
        simp [stepItem, guard, hh, ret]
      rw [he] at hge
      cases hr : (enter env w a).2 with
      | some e =>
        simp only
        rw [run_cons, he]
        exact ihk _ _ hge
      | none =>
        simp only
        rw [List.cons_append, run_cons, he, run_append, ihb _ hge, run_cons]
        have hgb : Good env (exec env (body (enter env w a).1) (enter env w a).1).1 := by
          rw [← ihb _ hge]; exact hge.run _
        have hheld : (exec env (body (enter env w a).1) (enter env w a).1).1.held a = true := by
          rw [← ihb _ hge]
          refine hge.held_run _ ?_
          rw [← he]
          exact hg.held_run [.enter a] hh
        have hx := hgb.item (.exit a (exec env (body (enter env w a).1) (enter env w a).1).2)
        simp only [stepItem, hheld, if_true] at hx ⊢
        exact ihk _ _ hx
    · exact ihk _ _ hg

/-- States a program passes through are reachable. -/
theorem Reachable.exec {env : Env} {w : World} (h : Reachable env w) (p : Prog) :
    Reachable env (exec env p w).1 := by
  rw [← run_items p h.good]; exact h.run _

theorem Reachable.item {env : Env} {w : World} (h : Reachable env w) (it : Item) :
    Reachable env (stepItem env w it) := h.run [it]

theorem Reachable.step {env : Env} {w : World} (h : Reachable env w) (o : Op) :
    Reachable env (Verif.step env w o).1 := h.run [.op o]

/-! ## Flushing with quiet hooks -/

/-- The calls that deliver a list of events through a logger's hooks. -/
def expand (L : Log) (q : List (Kind × Event)) : List Obs := q.flatMap fun p => hookCalls L p.1 p.2

@[simp] theorem expand_append (L : Log) (p q : List (Kind × Event)) :
    expand L (p ++ q) = expand L p ++ expand L q := by simp [expand]

theorem runPreflush_quiet {env : Env} (h : env.Quiet) (l : LogId) (hs : List Nat) (w : World) :
    runPreflush env l hs w = (w.logged (hs.map (Obs.preflush l)), none) := by
  induction hs generalizing w with
  | nil => simp [runPreflush]
  | cons a hs ih => simp [runPreflush, callback, h w.trace, ih, World.logged]

theorem drain_quiet {env : Env} (h : env.Quiet) (l : LogId) (L : Log) (q : List (Kind × Event))
    (hq : ∀ k e, (k, e) ∈ q → k ≠ .exception) (w : World) :
    drain env l L q w = ((w.logged (expand L q)).setLog l { L with queue := [] }, none) := by
  induction q generalizing w with
  | nil => simp [drain, expand]
  | cons p q ih =>
    obtain ⟨k, e⟩ := p
    have hk : k ≠ .exception := hq k e (by simp)
    have hd : ∀ w', deliver env L k e w' = (w'.logged (hookCalls L k e), none) := by
      intro w'
      rw [← callAll_quiet h]
      cases k <;> first | rfl | exact absurd rfl hk
    simp only [drain, hd]
    rw [ih (fun k e h => hq k e (by simp [h]))]
    simp only [expand, List.flatMap_cons, World.logged, World.setLog, Prod.mk.injEq, and_true,
      List.append_assoc]
    congr 1
    funext b; split <;> simp_all

theorem flush_quiet {env : Env} (h : env.Quiet) {w : World} {l : LogId} {L : Log}
    (hL : w.logs l = some L) (hq : ∀ k e, (k, e) ∈ L.queue → k ≠ .exception) :
    flush env w l = (((w.logged (L.preflush.map (Obs.preflush l) ++ expand L L.queue)).tick).setLog l
      { L with queue := [], lastFlush := w.now env }, none) := by
  simp only [flush, hL, runPreflush_quiet h, drain_quiet h l L L.queue hq]
  simp only [World.tick, World.logged, World.setLog, World.now, Prod.mk.injEq, and_true,
    List.append_assoc]
  congr 1
  funext b; split <;> simp_all

theorem QInv.kinds {env : Env} {w : World} (h : QInv env w.del) {l : LogId} {L : Log}
    (hL : w.logs l = some L) : ∀ k e, (k, e) ∈ L.queue → k ≠ .exception := by
  intro k e hk
  exact (h.q l k e (by simpa [Del.queue, World.del, hL] using hk)).2.2.1

/-- A quiet context flush: nothing raised, and every logger of the list is emptied. -/
theorem ctxFlush_quiet {env : Env} (h : env.Quiet) (ls : List LogId) {w : World}
    (hq : QInv env w.del) :
    (ctxFlush env ls w).2 = none ∧
    ∀ l L, w.logs l = some L → ∃ L', (ctxFlush env ls w).1.logs l = some L' ∧
      L'.sinks = L.sinks ∧ L'.hooks = L.hooks ∧ L'.async = L.async ∧ L'.preflush = L.preflush ∧
      L'.queue = if l ∈ ls then [] else L.queue := by
  induction ls generalizing w with
  | nil => exact ⟨rfl, fun l L hL => ⟨L, hL, rfl, rfl, rfl, rfl, by simp⟩⟩
  | cons l ls ih =>
    have hf : (flush env w l).2 = none ∧ ∀ m L, w.logs m = some L →
        ∃ L', (flush env w l).1.logs m = some L' ∧ L'.sinks = L.sinks ∧ L'.hooks = L.hooks ∧
          L'.async = L.async ∧ L'.preflush = L.preflush ∧
          L'.queue = if m = l then [] else L.queue := by
      cases hl : w.logs l with
      | none =>
        rw [show flush env w l = (w, none) by simp [flush, hl]]
        refine ⟨rfl, fun m L hL => ⟨L, hL, rfl, rfl, rfl, rfl, ?_⟩⟩
        rw [if_neg]; rintro rfl; simp [hL] at hl
      | some L0 =>
        rw [flush_quiet h hl (hq.kinds hl)]
        refine ⟨rfl, fun m L hL => ?_⟩
        by_cases hm : m = l
        · subst hm
          rw [hl] at hL; cases hL
          exact ⟨{ L0 with queue := [], lastFlush := w.now env }, by simp, rfl, rfl, rfl, rfl, by simp⟩
        · exact ⟨L, by simp [updLog_ne _ _ hm, hL], rfl, rfl, rfl, rfl, by simp [hm]⟩
    have hq' : QInv env (flush env w l).1.del :=
      (fl_flush w l).inv (P := QInv env) (fun _ _ h s => qInv_step h (.flush s)) hq
    simp only [ctxFlush]
    cases hr : flush env w l with
    | mk w1 r =>
      rw [hr] at hf hq'
      obtain ⟨h1, h2⟩ := hf
      dsimp only at h1 h2 hq'
      subst h1
      simp only
      obtain ⟨h3, h4⟩ := ih hq'
      refine ⟨h3, fun m L hL => ?_⟩
      obtain ⟨L1, e1, e2, e3, e4, e5, e6⟩ := h2 m L hL
      obtain ⟨L2, f1, f2, f3, f4, f5, f6⟩ := h4 m L1 e1
      refine ⟨L2, f1, f2.trans e2, f3.trans e3, f4.trans e4, f5.trans e5, ?_⟩
      rw [f6, e6]
      simp only [List.mem_cons]
      by_cases hm : m = l <;> by_cases hm2 : m ∈ ls <;> simp [hm, hm2]

end Verif
