import Verif.Lemmas.Script
import Verif.Props.SameCalls
/-!
# C113: the log of a program is its transcript
-/
namespace Verif

open Sample
open scoped List

/-- **C113.**  An application written as with blocks around statements that warn, comment, set data, say how the action ended,
raise and catch, on one logger with no active action: what it publishes, event by event, is its transcript; it ends with the
exception the transcript says; and no action is active afterwards. -/
theorem C113_transcript {env : Env} (hc : env.Calm) {w : World} (hr : Reachable env w) {l : LogId} (hl : (w.logs l).isSome)
    (ha : w.active l = none) {p : Script} (hp : p.Ok) :
    let r := exec env (p.compile l none Prog.leave) w
    r.2 = (p.lines env.text none).2.2 ∧ r.1.active l = none ∧
      ∃ new, r.1.pub = w.pub ++ new ∧ new.map (viewEv r.1) = (p.lines env.text none).1.map some ∧ ∀ q ∈ new, q.2.logger = l := by
  intro r
  obtain ⟨w', e, h, ran⟩ := script_ran hc p hr.good hl hp (show At w l none none from ha) Prog.leave
  rw [exec_leave] at e
  have hr' : r = (w', (p.lines env.text none).2.2) := e
  rw [hr']
  obtain ⟨new, n1, n2, n3⟩ := ran.pub
  exact ⟨rfl, h.parent.1, new, n1, n2, fun q hq => (n3 q hq).2⟩

theorem pub_prefix_run {env : Env} {w : World} (hg : Good env w) (its : List Item) : w.pub <+: (run env w its).pub := by
  induction its generalizing w with
  | nil => exact List.prefix_rfl
  | cons it its ih =>
    refine List.IsPrefix.trans ?_ (ih (hg.item it))
    refine (del_item (env := env) hg.pre it).inv (P := fun d => w.pub <+: d.pub) (fun d d' h s => h.trans ?_) List.prefix_rfl
    cases s with
    | pub s => cases s <;> simp
    | flush s => cases s <;> simp
    | cfg s => cases s <;> simp

/-- Queues that are empty and published upon at most `QUEUE_LIMIT` times are not overfilled. -/
theorem hasRoom_of {env : Env} {w : World} (hg : Good env w) {l : LogId} (ho : OrdInv l w.del) (its : List Item)
    (hm : ∀ it ∈ its, it.Kept) (he : SyncEmpty l w) (hlen : (published (run env w its) l).length ≤ QUEUE_LIMIT) :
    AlongStep env (HasRoom env l) w its := by
  induction its generalizing w with
  | nil => trivial
  | cons it its ih =>
    have hk := hm it List.mem_cons_self
    have ho' := ordInv_item hg.pre hg.q he ho it
    refine ⟨?_, ih (hg.item it) ho' (fun j hj => hm j (List.mem_cons_of_mem _ hj)) (syncEmpty_item hg he it (hk l).2) hlen⟩
    have h1 : (published (stepItem env w it) l).length ≤ QUEUE_LIMIT :=
      Nat.le_trans ((pub_prefix_run (hg.item it) its).sublist.filter _).length_le hlen
    have h2 : (queued w l).length ≤ (published w l).length :=
      Nat.le_trans ((List.sublist_append_right _ _).length_le) (ho 0).length_le
    rw [HasRoom, Nat.add_comm]
    exact Nat.add_le_add h1 h2

theorem viewEv_kind {w : World} {q : Kind × Event} {x : Line} (h : viewEv w q = some x) : x.kind = q.1 := by
  unfold viewEv at h
  split at h
  · cases h
  · split at h
    · cases h; rfl
    · rename_i y hy a ha
      cases e : w.acts a with
      | none => rw [e] at h; cases h
      | some z => rw [e] at h; cases h; rfl

theorem filter_view (w : World) (hook : SinkId → Kind → Bool) (s : SinkId) {new : List (Kind × Event)} {ls : List Line}
    (h : new.map (viewEv w) = ls.map some) :
    (new.filter fun q => hook s q.1).map (viewEv w) = (ls.filter fun x => hook s x.kind).map some := by
  induction new generalizing ls with
  | nil => cases ls with
    | nil => rfl
    | cons x ls => simp at h
  | cons q new ih => cases ls with
    | nil => simp at h
    | cons x ls =>
      simp only [List.map_cons, List.cons.injEq] at h
      rw [List.filter_cons, List.filter_cons, viewEv_kind h.1]
      split
      · rw [List.map_cons, List.map_cons, h.1, ih h.2]
      · exact ih h.2

/-- A transcript has no lines of kind `exception`. -/
theorem lines_kind (text : Exc → String → Bool → String) (p : Script) (b : Option Blk) :
    ∀ x ∈ (p.lines text b).1, x.kind ≠ .exception := by
  induction p generalizing b with
  | skip => simp [Script.lines]
  | raise e => simp [Script.lines]
  | warn m => cases b <;> simp [Script.lines]
  | set k v => simp [Script.lines]
  | finish g m => simp [Script.lines]
  | comment m => simp [Script.lines]
  | seq p q ihp ihq =>
    simp only [Script.lines]
    split
    · rename_i ls b' e he; have := ihp b; rw [he] at this; exact this
    · rename_i ls b' he
      have := ihp b; rw [he] at this
      intro x hx
      rcases List.mem_append.1 hx with h | h
      · exact this x h
      · exact ihq _ x h
  | «catch» p q ihp ihq =>
    simp only [Script.lines]
    split
    · rename_i ls b' he; have := ihp b; rw [he] at this; exact this
    · rename_i ls b' e he
      have := ihp b; rw [he] at this
      intro x hx
      rcases List.mem_append.1 hx with h | h
      · exact this x h
      · exact ihq _ x h
  | block lv n d sw p ih =>
    simp only [Script.lines]
    intro x hx
    have := ih (some ⟨n, b.map Blk.name, !d.isEmpty, none⟩)
    simp only [List.cons_append, List.mem_cons, List.mem_append, List.not_mem_nil, or_false] at hx
    rcases hx with rfl | h | rfl
    · simp
    · exact this x h
    · simp

/-- **C113**, what any sink gets.  On a logger that nothing has been published on yet, synchronous or not: after the script and a
flush every sink has received exactly the lines of the transcript that it has a hook for, in order, if the transcript is not longer
than the queue. -/
theorem C113_received {env : Env} (hc : env.Calm) {w : World} (hr : Reachable env w) {l : LogId} {L : Log}
    (hL : w.logs l = some L) (hnew : published w l = []) (ha : w.active l = none) {p : Script} (hp : p.Ok)
    (hlen : (p.lines env.text none).1.length ≤ QUEUE_LIMIT) {s : SinkId} (hs : s ∈ L.sinks) :
    let r := exec env (p.compile l none Prog.leave) w
    let f := (step env r.1 (.flush l)).1
    (step env r.1 (.flush l)).2 = .ok ∧
      (ofLogger l (received s f.trace)).map (viewEv f) = ((p.lines env.text none).1.filter fun x => env.hasHook s x.kind).map some := by
  intro r f
  have hl : (w.logs l).isSome := by rw [hL]; rfl
  obtain ⟨w', e, h, ran⟩ := script_ran hc p hr.good hl hp (show At w l none none from ha) Prog.leave
  rw [exec_leave] at e
  have hr1 : r.1 = w' := congrArg Prod.fst e
  obtain ⟨new, n1, n2, n3⟩ := ran.pub
  obtain ⟨its, hits, hkept⟩ := ran.its
  obtain ⟨M, hM⟩ := Option.isSome_iff_exists.1 ran.log
  have hg' := hr.good.run its
  have hreach : Reachable env w' := by
    obtain ⟨i, rfl⟩ := hr
    exact ⟨i ++ its, by rw [hits, run_append]⟩
  have hpubl : published w' l = new := by
    simp only [published] at hnew ⊢
    rw [n1, ofLogger, List.filter_append]
    rw [show List.filter _ w.pub = [] from hnew, List.nil_append]
    exact List.filter_eq_self.2 fun q hq => by simp [n3 q hq]
  have hnl : new.length = (p.lines env.text none).1.length := by
    have := congrArg List.length n2
    simpa using this
  obtain ⟨-, hq0⟩ := hr.fresh_log hnew s
  have hse : SyncEmpty l w := by
    intro L' h' _
    simp only [queued, h'] at hq0
    exact hq0
  have hord : OrdInv l w.del := by
    intro i
    obtain ⟨g1, g2⟩ := hr.fresh_log hnew i
    change ofLogger l (received i w.trace) ++ queued w l <+ ofLogger l w.pub
    rw [g1, g2]
    exact List.nil_sublist _
  have hflush := flush_quiet hc.quiet hM fun k e hm => by
    have := (hreach.qInv.q l k e (by simp only [Del.queue, World.del, hM]; exact hm))
    exact this.2.2.1
  have hrun : f = run env w (its ++ [.op (.flush l)]) := by
    rw [run_append, ← hits, ← hr1]; rfl
  have hstep : (step env w' (.flush l)).2 = .ok ∧ queued (step env w' (.flush l)).1 l = [] ∧
      published (step env w' (.flush l)).1 l = published w' l := by
    simp only [step, hflush, ret]
    refine ⟨rfl, ?_, rfl⟩
    simp [queued, World.setLog]
  have hkept' : ∀ it ∈ its ++ [Item.op (.flush l)], it.Kept := by
    intro it hit
    rcases List.mem_append.1 hit with h | h
    · exact hkept it h
    · rw [List.mem_singleton.1 h]; exact fun _ => ⟨trivial, trivial⟩
  have hpf : published f l = new := by
    rw [← hpubl, ← hstep.2.2, ← hr1]
  have hfifo := sink_fifo hc.quiet hr hL hnew (its ++ [.op (.flush l)]) (fun it h => (hkept' it h l).1)
    (syncEmpty_along hr.good hse _ fun it h => (hkept' it h l).2)
    (hasRoom_of hr.good hord _ hkept' hse (by rw [← hrun, hpf, hnl]; exact hlen)) hs
  rw [← hrun, hpf, show queued f l = [] by rw [← hstep.2.1, ← hr1], List.filter_nil, List.append_nil] at hfifo
  rw [hfifo]
  refine ⟨by rw [hr1]; exact hstep.1, ?_⟩
  have hview : ∀ q ∈ new, viewEv f q = viewEv w' q := by
    intro q hq
    have hm : viewEv w' q ∈ (p.lines env.text none).1.map some := by rw [← n2]; exact List.mem_map_of_mem hq
    obtain ⟨ln, -, e⟩ := List.mem_map.1 hm
    rw [← e]
    have hf : f = run env w' [.op (.flush l)] := by rw [← hr1]; rfl
    rw [hf]
    exact viewEv_run hreach.good _ e.symm
  rw [List.map_congr_left fun q hq => hview q (List.mem_of_mem_filter hq)]
  exact filter_view w' env.hasHook s n2

/-- **C113**, what sinks get: one that has a hook for beginnings, warnings, ends and comments has received the whole transcript,
line by line. -/
theorem C113_delivered {env : Env} (hc : env.Calm) {w : World} (hr : Reachable env w) {l : LogId} {L : Log}
    (hL : w.logs l = some L) (hnew : published w l = []) (ha : w.active l = none) {p : Script} (hp : p.Ok)
    (hlen : (p.lines env.text none).1.length ≤ QUEUE_LIMIT) {s : SinkId} (hs : s ∈ L.sinks) (hh : ∀ k, k ≠ .exception → env.hasHook s k) :
    let r := exec env (p.compile l none Prog.leave) w
    let f := (step env r.1 (.flush l)).1
    (step env r.1 (.flush l)).2 = .ok ∧
      (ofLogger l (received s f.trace)).map (viewEv f) = (p.lines env.text none).1.map some := by
  intro r f
  obtain ⟨h1, h2⟩ := C113_received hc hr hL hnew ha hp hlen hs
  refine ⟨h1, ?_⟩
  rw [h2, List.filter_eq_self.2 fun x hx => hh x.kind (lines_kind env.text p none x hx)]

namespace Sample

/-- A script: an outer action with an inner one that warns and fails with an exception, which the outer one notices. -/
def visit : Script :=
  .seq (.comment "starting")
    (.block 20 "outer" [] false
      (.seq (.catch (.block 10 "inner" [("n", .bool true)] false (.seq (.warn "careful") (.raise boom))) (.comment "noticed"))
        (.finish false (some "gave up"))))

end Sample

/-- its transcript -/
example : visit.lines quiet.text none =
    ([⟨.comment, .comment, "_comment", none, "starting"⟩, ⟨.begin, .begin, "outer", none, "outer beginning"⟩,
      ⟨.begin, .begin, "inner", some "outer", "inner beginning"⟩, ⟨.warn, .warning, "inner", some "outer", "careful"⟩,
      ⟨.end_, .exception, "inner", some "outer", "raised"⟩,
      ⟨.comment, .comment, "_comment", some "outer", "noticed"⟩, ⟨.end_, .failure, "outer", none, "gave up"⟩], none, none) := by
  decide +kernel

/-- the hypotheses of `C113_delivered` -/
example : quiet.Calm ∧ ((run quiet World.init setupAsync).logs 0).isSome ∧ published (run quiet World.init setupAsync) 0 = [] ∧
    (run quiet World.init setupAsync).active 0 = none ∧ visit.Ok ∧ (visit.lines quiet.text none).1.length ≤ QUEUE_LIMIT := by
  exact ⟨quiet_calm, rfl, rfl, rfl, ⟨trivial, ⟨by simp, ⟨⟨by simp, trivial, trivial⟩, trivial⟩, trivial⟩⟩, by unfold QUEUE_LIMIT; decide⟩

end Verif
