import Verif.Lemmas.Calls
import Verif.Spec.Registry
/-!
# Lemmas about the sink registry
-/
namespace Verif
open scoped List
attribute [local irreducible] QUEUE_LIMIT

theorem mem_firsts {x : SinkId} {xs : List SinkId} : x ∈ firsts xs ↔ x ∈ xs := by
  induction xs with
  | nil => simp [firsts]
  | cons y ys ih =>
    simp only [firsts, List.mem_cons, List.mem_filter, ih]
    by_cases h : x = y <;> simp [h]

theorem firsts_snoc (xs : List SinkId) (x : SinkId) :
    firsts (xs ++ [x]) = if x ∈ xs then firsts xs else firsts xs ++ [x] := by
  induction xs with
  | nil => simp [firsts]
  | cons y ys ih =>
    simp only [List.cons_append, firsts, ih]
    by_cases h : x ∈ ys
    · simp [h]
    · by_cases hy : x = y
      · subst hy; simp [h]
      · simp [h, hy, List.filter_append]

theorem addSink_sinks {env : Env} {L : Log} {s : SinkId} {r : List SinkId}
    (h : L.sinks = firsts r) : (addSink env L s).sinks = firsts (r ++ [s]) := by
  rw [firsts_snoc]
  simp only [addSink]
  by_cases hs : s ∈ r
  · rw [if_pos hs, if_pos (by rw [h]; exact mem_firsts.2 hs), h]
  · rw [if_neg hs, if_neg (by rw [h]; exact fun g => hs (mem_firsts.1 g))]
    simp [h]

theorem foldl_addSink_sinks {env : Env} (ss : List SinkId) {L : Log} {r : List SinkId}
    (h : L.sinks = firsts r) : (ss.foldl (addSink env) L).sinks = firsts (r ++ ss) := by
  induction ss generalizing L r with
  | nil => simpa
  | cons s ss ih =>
    rw [List.foldl_cons, ih (addSink_sinks h)]; simp

theorem setSinks_sinks (env : Env) (L : Log) (ss : List SinkId) :
    (setSinks env L ss).sinks = firsts ss := by
  simp only [setSinks]
  rw [foldl_addSink_sinks (r := []) ss rfl, List.nil_append]

theorem newLog_sinks (env : Env) (w : World) (ss : List SinkId) (as : Option Bool) :
    (newLog env w ss as).sinks = firsts ss := setSinks_sinks ..

/-- A logger's sinks are untouched by publishing and flushing. -/
theorem PubStep.sinks {env : Env} {d d' : Del} (st : PubStep env d d') {l : LogId} {L : Log}
    (h : d.logs l = some L) : ∃ L', d'.logs l = some L' ∧ L'.sinks = L.sinks := by
  cases st with
  | async m M k e hM =>
    by_cases hm : l = m
    · subst hm; rw [h] at hM; cases hM; exact ⟨_, updLog_same _ _ _, rfl⟩
    · exact ⟨L, by rw [← h]; exact updLog_ne _ _ hm, rfl⟩
  | _ => exact ⟨L, h, rfl⟩

theorem FlushStep.sinks {env : Env} {d d' : Del} (st : FlushStep env d d') {l : LogId} {L : Log}
    (h : d.logs l = some L) : ∃ L', d'.logs l = some L' ∧ L'.sinks = L.sinks := by
  cases st with
  | other => exact ⟨L, h, rfl⟩
  | pop m M k e q hM =>
    by_cases hm : l = m
    · subst hm; rw [h] at hM; cases hM; exact ⟨_, updLog_same _ _ _, rfl⟩
    · exact ⟨L, by rw [← h]; exact updLog_ne _ _ hm, rfl⟩
  | popExc m M e q t hM =>
    by_cases hm : l = m
    · subst hm; rw [h] at hM; cases hM; exact ⟨_, updLog_same _ _ _, rfl⟩
    · exact ⟨L, by rw [← h]; exact updLog_ne _ _ hm, rfl⟩
  | stamp m M t hM =>
    by_cases hm : l = m
    · subst hm; rw [h] at hM; cases hM; exact ⟨_, updLog_same _ _ _, rfl⟩
    · exact ⟨L, by rw [← h]; exact updLog_ne _ _ hm, rfl⟩

theorem FlushStar.sinks {env : Env} {d d' : Del} (st : Star (FlushStep env) d d') {l : LogId} {L : Log}
    (h : d.logs l = some L) : ∃ L', d'.logs l = some L' ∧ L'.sinks = L.sinks :=
  st.inv (P := fun x => ∃ L', x.logs l = some L' ∧ L'.sinks = L.sinks)
    (fun _ _ ⟨_, h1, h2⟩ s => by
      obtain ⟨M, g1, g2⟩ := s.sinks h1; exact ⟨M, g1, g2.trans h2⟩) ⟨L, h, rfl⟩

theorem sinks_item {env : Env} {w : World} (hg : Good env w) {l : LogId} {L : Log} {r : List SinkId}
    (hL : w.logs l = some L) (hr : L.sinks = firsts r) (it : Item) :
    ∃ L', (stepItem env w it).logs l = some L' ∧ L'.sinks = firsts (requested l r it) := by
  have same : requested l r it = r → (∃ L', (stepItem env w it).logs l = some L' ∧ L'.sinks = L.sinks)
      → ∃ L', (stepItem env w it).logs l = some L' ∧ L'.sinks = firsts (requested l r it) := by
    intro h ⟨L', h1, h2⟩; exact ⟨L', h1, by rw [h, h2, hr]⟩
  cases hk : it.kind with
  | pub =>
    refine same ?_ ?_
    · cases it with
      | op o => cases o <;> simp only [Item.kind, reduceCtorEq] at hk <;> rfl
      | _ => rfl
    · exact (pub_item hg.pre it hk).inv (P := fun x => ∃ L', x.logs l = some L' ∧ L'.sinks = L.sinks)
        (fun _ _ ⟨_, h1, h2⟩ s => by
          obtain ⟨M, g1, g2⟩ := s.sinks h1; exact ⟨M, g1, g2.trans h2⟩) ⟨L, hL, rfl⟩
  | flush =>
    refine same ?_ ?_
    · cases it with
      | op o => cases o <;> simp only [Item.kind, reduceCtorEq] at hk <;> rfl
      | _ => rfl
    · exact FlushStar.sinks (flush_item it hk) hL
  | disable =>
    obtain ⟨u, rfl⟩ := item_disable hk
    refine same rfl ?_
    simp only [stepItem, step, ret, disableAsync]
    have key : ∀ w1 : World, (∃ L', w1.logs l = some L' ∧ L'.sinks = L.sinks) →
        ∃ L', ((match ctxFlush env w1.ctxLoggers w1 with
          | (w, some e) => (w, some e)
          | (w, none) => ({ w with ctxAsync := false }, none) : World × Option Exc).1).logs l = some L' ∧
          L'.sinks = L.sinks := by
      intro w1 ⟨M, g1, g2⟩
      obtain ⟨M', g3, g4⟩ := FlushStar.sinks (fl_ctxFlush (env := env) w1.ctxLoggers w1) g1
      cases hc : ctxFlush env w1.ctxLoggers w1 with
      | mk w2 x => rw [hc] at g3; cases x <;> exact ⟨M', g3, g4.trans g2⟩
    cases u with
    | false => exact key w ⟨L, hL, rfl⟩
    | true =>
      obtain ⟨L1, a1, -, a3, -⟩ := foldl_setAsync_hooks (b := false) w.ctxLoggers hL
      exact key _ ⟨L1, a1, a3⟩
  | cfg =>
    cases it with
    | enter a => simp [Item.kind] at hk
    | exit a exc => simp [Item.kind] at hk
    | op o =>
      cases o <;> simp only [Item.kind, reduceCtorEq] at hk <;> dsimp only [stepItem, step, requested]
      case newLogger m ss as =>
        split
        · exact ⟨L, hL, hr⟩
        · rename_i hm
          have : l ≠ m := by rintro rfl; simp [hL] at hm
          exact ⟨L, by rw [addLogger_logs]; simp [updLog_ne _ _ this, hL], hr⟩
      case setAsync m b =>
        obtain ⟨L1, a1, -, a3, -⟩ := setAsync_hooks (m := m) (b := b) hL
        exact ⟨L1, a1, a3.trans hr⟩
      case setSinks m ss =>
        by_cases hm : m = l
        · subst hm
          exact ⟨setSinks env L ss, by simp [onLog, hL], by rw [if_pos rfl]; exact setSinks_sinks ..⟩
        · rw [if_neg hm]; exact ⟨L, by rw [onLog_other hm, hL], hr⟩
      case addSink m s =>
        by_cases hm : m = l
        · subst hm
          exact ⟨addSink env L s, by simp [onLog, hL], by rw [if_pos rfl]; exact addSink_sinks hr⟩
        · rw [if_neg hm]; exact ⟨L, by rw [onLog_other hm, hL], hr⟩
      case clearSinks m =>
        by_cases hm : m = l
        · subst hm
          exact ⟨setSinks env L [], by simp [onLog, hL], by rw [if_pos rfl]; exact setSinks_sinks ..⟩
        · rw [if_neg hm]; exact ⟨L, by rw [onLog_other hm, hL], hr⟩
      case addPreflush m h =>
        by_cases hm : m = l
        · subst hm
          exact ⟨{ L with preflush := L.preflush ++ [h] }, by simp [onLog, hL], hr⟩
        · exact ⟨L, by rw [onLog_other hm, hL], hr⟩
      case addNoteHandler h => exact ⟨L, hL, hr⟩
      case enableAsync u =>
        simp only [enableAsync]
        cases u
        · exact ⟨L, hL, hr⟩
        · obtain ⟨L1, a1, -, a3, -⟩ := foldl_setAsync_hooks (b := false) w.ctxLoggers
            (w := { w with ctxAsync := true }) hL
          exact ⟨L1, a1, a3.trans hr⟩
      case addLogger m =>
        split
        · exact ⟨L, hL, hr⟩
        · exact ⟨L, by rw [addLogger_logs, hL], hr⟩
      case removeLogger m => exact ⟨L, hL, hr⟩

end Verif
