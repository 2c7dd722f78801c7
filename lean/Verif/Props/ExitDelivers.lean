import Verif.Props.Exit
import Verif.Props.Async
/-!
# C84: what the exit handlers deliver
-/
namespace Verif.Exit
attribute [local irreducible] QUEUE_LIMIT

/-- The calls an exit handler makes. -/
def Reg.calls : Reg → List Item
  | .user its => its
  | .disable => [.op (.disableAsync true)]
  | .reissue => []

theorem handled_world (env : Env) (rs : List Reg) (p : Proc) :
    (rs.foldl (handle env) p).world = run env p.world (rs.flatMap Reg.calls) := by
  induction rs generalizing p with
  | nil => rfl
  | cons r rs ih =>
    rw [List.foldl_cons, ih, List.flatMap_cons, run_append]
    congr 1
    cases r <;> rfl

theorem syncEmpty_calls {env : Env} (hq : env.Quiet) {l : LogId} (its : List Item)
    (hn : ∀ it ∈ its, it ≠ .op (.removeLogger l) ∧ (it.keepsMode l ∨ it = .op (.disableAsync true))) {w : World}
    (hr : Reachable env w) (hl : l ∈ w.ctxLoggers) (hs : (w.logs l).isSome) (he : SyncEmpty l w) :
    SyncEmpty l (run env w its) := by
  induction its generalizing w with
  | nil => exact he
  | cons it its ih =>
    have hit := hn it List.mem_cons_self
    refine ih (fun j hj => hn j (List.mem_cons_of_mem _ hj)) (hr.item it) (mem_ctx_item hl it hit.1)
      (logs_run hr hs [it]) ?_
    rcases hit.2 with h | rfl
    · exact syncEmpty_item hr.good he it h
    · obtain ⟨L, hL⟩ := Option.isSome_iff_exists.1 hs
      obtain ⟨_, _, _, L', h1, h2, h3⟩ := disable_async_delivers hq hr hl hL
      intro M hM _
      have : (Verif.step env w (.disableAsync true)).1.logs l = some M := hM
      rw [h1] at this
      cases this
      exact h3

/-- **C84, nothing is lost at the end.**  If async mode was ever enabled and sinks do not raise, then at the end of the process,
by exit or by a SIGTERM that lithoxyl's handler takes, exactly the events that were queued on a registered logger and those that
the exit handlers published on it have been handed to its sinks since, each once, in that order.  The application's own exit
handlers may log, before and after `disable_async`, as long as they neither unregister the logger nor change its sinks or its
mode nor overfill its queue. -/
theorem C84_delivered {env : Env} (hq : env.Quiet) {evs : List Ev} (hp : (life env evs).ended = none)
    (hen : Enabled evs) {e : Last} (he : e = .sigterm → (life env evs).disp = .ours) {l : LogId}
    (hl : l ∈ (life env evs).world.ctxLoggers) {L : Log} (hL : (life env evs).world.logs l = some L)
    (hse : SyncEmpty l (life env evs).world)
    (hn : ∀ its, Ev.atexit its ∈ evs → ∀ it ∈ its, Leaves l it ∧ it.keepsMode l)
    (hroom : AlongStep env (HasRoom env l) (life env evs).world ((last env (life env evs) e).ran.flatMap Reg.calls)) :
    ∃ new, published (last env (life env evs) e).world l = published (life env evs).world l ++ new ∧
      deliveries l (last env (life env evs) e).world.trace =
        deliveries l (life env evs).world.trace ++ callsFor env L.sinks (queued (life env evs).world l ++ new) := by
  have hq0 := (C84_flushed hq hp hen he hl hL fun its h it hi => (hn its h it hi).1).1
  have hi := inv_life hp
  obtain ⟨rs, hrs, hl'⟩ := last_eq (env := env) hp he
  have hran : (last env (life env evs) e).ran = rs := by
    rw [hl']
    show (rs.foldl (handle env) { life env evs with stack := [] }).ran = rs
    rw [(handle_ran _ _ _).1]
    show (life env evs).ran ++ rs = rs
    rw [hi.ran]; rfl
  have hworld : (last env (life env evs) e).world = run env (life env evs).world (rs.flatMap Reg.calls) := by
    rw [hl']
    exact handled_world env rs _
  rw [hran] at hroom
  have hcalls : ∀ it ∈ rs.flatMap Reg.calls, it ≠ .op (.removeLogger l) ∧ it.keepsSinks l ∧
      (it.keepsMode l ∨ it = .op (.disableAsync true)) := by
    intro it hit
    obtain ⟨r, hr, hit⟩ := List.mem_flatMap.1 hit
    cases r with
    | user its =>
      have h1 : its ∈ users rs := by
        simp only [users, List.mem_filterMap]; exact ⟨_, hr, rfl⟩
      have h2 : users rs = users (life env evs).stack := by
        rcases hrs with rfl | rfl <;> simp [users]
      rw [h2, hi.users, List.mem_reverse, List.mem_flatMap] at h1
      obtain ⟨ev, hev, h1⟩ := h1
      cases ev <;> simp only [Ev.reg, List.mem_singleton, List.not_mem_nil] at h1
      subst h1
      obtain ⟨g1, g2⟩ := hn _ hev it hit
      exact ⟨g1.1, g1.2.2, .inl g2⟩
    | disable =>
      simp only [Reg.calls, List.mem_singleton] at hit
      subst hit
      exact ⟨by simp, trivial, .inr rfl⟩
    | reissue => simp [Reg.calls] at hit
  have halong : Along env (SyncEmpty l) (life env evs).world (rs.flatMap Reg.calls) := by
    intro pre hpre
    exact syncEmpty_calls hq pre (fun it h => ⟨(hcalls it (hpre.subset h)).1, (hcalls it (hpre.subset h)).2.2⟩) hi.reach hl
      (by rw [hL]; rfl) hse
  have hf := full_run hq hi.reach.good hL _ halong (fun it h => (hcalls it h).2.1) hroom
  obtain ⟨T, N, h1, h2, h3⟩ := (hf.toFlow (hi.reach.qInv.reg l L hL)).flow
  rw [hworld] at hq0 ⊢
  rw [hq0] at h3
  refine ⟨N, h2, ?_⟩
  rw [h1]
  congr 1
  simpa [callsFor] using h3

/-- The sample process: one event is queued, its exit handler publishes another; both arrive. -/
example : ∃ new, published (last Sample.quiet (life Sample.quiet sample) .sigterm).world 0 =
      published (life Sample.quiet sample).world 0 ++ new ∧
    deliveries 0 (last Sample.quiet (life Sample.quiet sample) .sigterm).world.trace =
      deliveries 0 (life Sample.quiet sample).world.trace ++
        callsFor Sample.quiet [0, 1] (queued (life Sample.quiet sample).world 0 ++ new) :=
  C84_delivered (evs := sample) (e := .sigterm) (l := 0) Sample.quiet_calm.quiet (by decide +kernel) ⟨true, true, by simp [sample]⟩ (fun _ => by decide +kernel)
    (L := _) (by decide +kernel) rfl (by
      intro M hM ha
      have h : ((life Sample.quiet sample).world.logs 0).map (·.async) = some true := by decide +kernel
      rw [hM] at h
      simp [ha] at h) (by
      intro its h it hit
      simp [sample] at h; subst h
      simp [Sample.mk] at hit
      rcases hit with rfl | rfl <;> exact ⟨⟨by simp, trivial, trivial⟩, trivial⟩) (by
      refine ⟨?_, ?_, ?_, trivial⟩ <;> unfold HasRoom <;> decide +kernel)

end Verif.Exit
