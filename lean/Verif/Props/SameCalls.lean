import Verif.Lemmas.SameBut
import Verif.Lemmas.Full
import Verif.Props.Async
import Verif.Spec.Samples
/-!
# C112: asynchronous mode changes when events arrive, not which
-/
namespace Verif

open Sample

/-- **C112.**  Histories that differ in modes only publish the same events — with the same ids, times, texts and in the same
order — and leave the same actions and the same active actions. -/
theorem C112_published {env : Env} (hq : env.Quiet) {its its' : List Item} (h : SameCalls its its') :
    (run env World.init its).pub = (run env World.init its').pub ∧ (run env World.init its).acts = (run env World.init its').acts ∧
      (run env World.init its).active = (run env World.init its').active :=
  have := (SameBut.refl World.init).run hq h
  ⟨this.pub, this.acts, this.active⟩

/-- **C112**, what the application gets: every call returns or raises the same, in both. -/
theorem C112_results {env : Env} (hq : env.Quiet) {its its' : List Item} (h : SameCalls its its') (o : Op) (a : ActId)
    (x : Option Exc) :
    (step env (run env World.init its) o).2 = (step env (run env World.init its') o).2 ∧
    (enter env (run env World.init its) a).2 = (enter env (run env World.init its') a).2 ∧
    (exit env (run env World.init its) a x).2 = (exit env (run env World.init its') a x).2 :=
  have := (SameBut.refl World.init).run hq h
  ⟨(this.step hq o).2, (this.enter hq a).2, (this.exit hq a x).2⟩

theorem keepsSinks_forget {l : LogId} {it it' : Item} (h : it.forget = some it') : it.keepsSinks l ↔ it'.keepsSinks l := by
  cases it with
  | enter a => cases h; rfl
  | exit a x => cases h; rfl
  | op o => cases o <;> cases h <;> rfl

/-- The same calls change the same sinks. -/
theorem SameCalls.keepsSinks {its its' : List Item} (h : SameCalls its its') {l : LogId} (hs : ∀ it ∈ its, it.keepsSinks l) :
    ∀ it ∈ its', it.keepsSinks l := by
  intro it hit
  cases hf : it.forget with
  | none =>
    cases it with
    | enter a => cases hf
    | exit a x => cases hf
    | op o => cases o <;> first | trivial | cases hf
  | some it' =>
    have hm : it' ∈ its'.filterMap Item.forget := List.mem_filterMap.2 ⟨it, hit, hf⟩
    rw [← h] at hm
    obtain ⟨j, hj, hjf⟩ := List.mem_filterMap.1 hm
    exact (keepsSinks_forget hf).2 ((keepsSinks_forget hjf).1 (hs j hj))

theorem sink_fifo {env : Env} (hquiet : env.Quiet) {w : World} (hr : Reachable env w) {l : LogId}
    {L : Log} (hL : w.logs l = some L) (hnew : published w l = []) (its : List Item)
    (hs : ∀ it ∈ its, it.keepsSinks l) (hm : Along env (SyncEmpty l) w its)
    (hroom : AlongStep env (HasRoom env l) w its) {s : SinkId} (hmem : s ∈ L.sinks) :
    ofLogger l (received s (run env w its).trace) ++
        (queued (run env w its) l).filter (fun p => env.hasHook s p.1) =
      (published (run env w its) l).filter fun p => env.hasHook s p.1 := by
  have hreg := hr.qInv.reg l L hL
  obtain ⟨h0, hq0⟩ := hr.fresh_log hnew s
  have hf := full_run hquiet hr.good hL its hm hs hroom
  obtain ⟨N, h2, h3⟩ := (hf.toFlow hreg).received hreg.nodup hmem
  rw [h3, h0, hq0, h2, hnew]; simp

/-- **C112**, what sinks get.  From the creation of logger `l` on, in two histories that differ in modes only, whatever modes the
loggers have: once nothing is queued for `l`, every sink of `l` has received the same events from it, in the same order.  In both,
`l` is not made synchronous while it has events queued, and its queue is never overfilled. -/
theorem C112_received {env : Env} (hq : env.Quiet) {pre pre' post post' : List Item} (hpre : SameCalls pre pre')
    (hpost : SameCalls post post') {l : LogId} {L : Log} (hL : (run env World.init pre).logs l = some L)
    (hnew : published (run env World.init pre) l = []) (hs : ∀ it ∈ post, it.keepsSinks l)
    (hm : Along env (SyncEmpty l) (run env World.init pre) post)
    (hm' : Along env (SyncEmpty l) (run env World.init pre') post')
    (hroom : AlongStep env (HasRoom env l) (run env World.init pre) post)
    (hroom' : AlongStep env (HasRoom env l) (run env World.init pre') post')
    (he : queued (run env World.init (pre ++ post)) l = []) (he' : queued (run env World.init (pre' ++ post')) l = [])
    {s : SinkId} (hmem : s ∈ L.sinks) :
    ofLogger l (received s (run env World.init (pre ++ post)).trace) =
      ofLogger l (received s (run env World.init (pre' ++ post')).trace) := by
  have h1 := (SameBut.refl World.init).run hq hpre
  have h2 := h1.run hq hpost
  obtain ⟨M, hM, hb⟩ : ∃ M, (run env World.init pre').logs l = some M ∧ L.bare = M.bare := by
    rcases h1.log l with ⟨e, -⟩ | ⟨L', M, e1, e2, e3⟩
    · rw [hL] at e; cases e
    · rw [hL] at e1; cases e1; exact ⟨M, e2, e3⟩
  have hsM : L.sinks = M.sinks := by simp only [Log.bare, Log.mk.injEq] at hb; exact hb.1
  have hnew' : published (run env World.init pre') l = [] := by
    simp only [published] at hnew ⊢; rw [← h1.pub]; exact hnew
  rw [run_append] at he he'
  rw [run_append, run_append]
  have f1 := sink_fifo hq ⟨pre, rfl⟩ hL hnew post hs hm hroom hmem
  have f2 := sink_fifo hq ⟨pre', rfl⟩ hM hnew' post' (hpost.keepsSinks hs) hm' hroom' (hsM ▸ hmem)
  rw [he] at f1
  rw [he'] at f2
  simp only [List.filter_nil, List.append_nil] at f1 f2
  rw [f1, f2]
  simp only [published]
  rw [h2.pub]

/-- A sink that two loggers share gets the events of both in another order. -/
theorem C112_shared_order : ∃ its its', SameCalls its its' ∧
    received 0 (run quiet World.init its).trace ≠ received 0 (run quiet World.init its').trace ∧
    (∀ l, queued (run quiet World.init its) l = []) ∧ ∀ l, queued (run quiet World.init its') l = [] := by
  refine ⟨[.op (.newLogger 0 [0] (some true)), .op (.newLogger 1 [0] (some true)), .op (.comment 1 "x" [] []),
      .op (.comment 0 "y" [] []), .op .ctxFlush],
    [.op (.newLogger 0 [0] (some false)), .op (.newLogger 1 [0] none), .op (.comment 1 "x" [] []),
      .op (.comment 0 "y" [] []), .op .ctxFlush], rfl, by decide, ?_, ?_⟩
  all_goals
    rintro (_ | _ | l)
    · rfl
    · rfl
    · rfl

/-- the hypotheses of `C112_received`: a with block on a logger that is asynchronous in one history, synchronous in the other and
for a while asynchronous -/
example :
    let post := [mk "a", .enter 0, .op (.warn 0 "careful" [] []), .exit 0 none, .op (.flush 0)]
    let post' := [.op (.setAsync 0 true), mk "a", .enter 0, .op (.warn 0 "careful" [] []), .exit 0 none, .op (.flush 0)]
    SameCalls setupAsync setup ∧ SameCalls post post' ∧
    published (run quiet World.init setup) 0 = [] ∧ (∀ it ∈ post, it.keepsSinks 0) ∧
    AlongStep quiet (HasRoom quiet 0) (run quiet World.init setup) post' ∧
    queued (run quiet World.init (setup ++ post')) 0 = [] ∧
    (ofLogger 0 (received 1 (run quiet World.init (setup ++ post')).trace)).length = 3 := by
  refine ⟨rfl, rfl, rfl, by simp [Item.keepsSinks, mk], ?_, by decide, by decide⟩
  refine ⟨?_, ?_, ?_, ?_, ?_, ?_, trivial⟩ <;> (unfold HasRoom QUEUE_LIMIT; decide)

end Verif
