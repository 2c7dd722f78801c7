import Verif.Props.Concurrent
import Verif.Lemmas.Parts
import Verif.Spec.Samples
/-!
# The flush of `Model/Logger.lean` is one of the schedules of `Model/Concurrent.lean`

The two models of `Logger.flush` agree: whatever sinks, hooks and note handlers do (raising included), a flush of the sequential
model is what one thread does in the concurrent model when no other thread moves, step for step with the same calls and the same
queue afterwards.  What is proved of all schedules is therefore also true of the sequential model.
-/
namespace Verif.Conc

/-- The calls into sinks and preflush hooks: what there is without the internal notes, which the concurrent model leaves out. -/
def noNotes (tr : List Obs) : List Obs := tr.filter fun o => match o with | .note .. => false | _ => true

theorem noNotes_append (a b : List Obs) : noNotes (a ++ b) = noNotes a ++ noNotes b := List.filter_append ..

/-- Thread `t` goes on any number of times. -/
def Goes (c : Conf) (t : Tid) (s s' : Sys) : Prop := ∃ n, run c s (List.replicate n (t, .go)) = s'

theorem run_append (c : Conf) (s : Sys) (a b : List (Tid × Act)) : run c s (a ++ b) = run c (run c s a) b :=
  List.foldl_append ..

theorem Goes.refl (c : Conf) (t : Tid) (s : Sys) : Goes c t s s := ⟨0, rfl⟩

theorem Goes.one (c : Conf) (t : Tid) (s : Sys) : Goes c t s (step c s t .go) := ⟨1, rfl⟩

theorem Goes.trans {c : Conf} {t : Tid} {s s' s'' : Sys} (h : Goes c t s s') (h' : Goes c t s' s'') : Goes c t s s'' := by
  obtain ⟨n, rfl⟩ := h
  obtain ⟨m, rfl⟩ := h'
  exact ⟨n + m, by rw [List.replicate_add, run_append]⟩

/-- The concurrent system that looks like the world `w`, with thread `t` at `p` and the lock in its hands if need be. -/
def look (w : World) (q : List (Kind × Event)) (t : Tid) (p : PC) : Sys :=
  { queue := q, owner := if p.locked then some t else none, pc := fun t' => if t' = t then p else .idle,
    trace := noNotes w.trace, pub := w.pub }

/-- How a call ends for the thread: it goes on at `p`, or an exception takes it out of `flush`. -/
def After (c : Conf) (w : World) (q : List (Kind × Event)) (t : Tid) (p : PC) (r : Option Exc) (s : Sys) : Prop :=
  match r with
  | none => Goes c t s (look w q t p)
  | some _ => ∃ s', Goes c t s s' ∧ step c s' t .raise = look w q t .idle

theorem After.from {c : Conf} {w : World} {q : List (Kind × Event)} {t : Tid} {p : PC} {r : Option Exc} {s s0 : Sys}
    (h : After c w q t p r s) (g : Goes c t s0 s) : After c w q t p r s0 := by
  cases r with
  | none => exact g.trans h
  | some x => obtain ⟨s', h', hs⟩ := h; exact ⟨s', g.trans h', hs⟩

theorem look_at (w w' : World) (q : List (Kind × Event)) (t : Tid) (p p' : PC) (hp : p.locked = p'.locked)
    (ht : noNotes w.trace = noNotes w'.trace) (hpub : w.pub = w'.pub) :
    (look w q t p).at t p' = look w' q t p' := by
  simp only [look, Sys.at, hp, ht, hpub, Sys.mk.injEq, true_and, and_true]
  funext t'; split <;> rfl

/-- The same with a call made on the way. -/
theorem look_call (w : World) (q : List (Kind × Event)) (t : Tid) (p p' : PC) (o : Obs) (hp : p.locked = p'.locked)
    (ho : noNotes [o] = [o]) :
    { look w q t p with trace := (look w q t p).trace ++ [o] }.at t p' =
      look { w with trace := w.trace ++ [o] } q t p' := by
  simp only [look, Sys.at, hp, noNotes_append, ho, Sys.mk.injEq, true_and, and_true]
  funext t'; split <;> rfl

theorem look_leave (w w' : World) (q : List (Kind × Event)) (t : Tid) (p : PC)
    (ht : noNotes w.trace = noNotes w'.trace) (hpub : w.pub = w'.pub) :
    (look w q t p).leave t = look w' q t .idle := by
  simp only [look, Sys.leave, Sys.at, ht, hpub, Sys.mk.injEq, true_and, and_true]
  refine ⟨rfl, ?_⟩
  funext t'; split <;> rfl

theorem look_pc (w : World) (q : List (Kind × Event)) (t : Tid) (p : PC) : (look w q t p).pc t = p := by
  simp [look]

theorem raise_look {c : Conf} {w w' : World} {q : List (Kind × Event)} {t : Tid} {p : PC} (hp : p.locked = true)
    (ht : noNotes w.trace = noNotes w'.trace) (hpub : w.pub = w'.pub) :
    step c (look w q t p) t .raise = look w' q t .idle := by
  have := look_leave w w' q t p ht hpub
  simp only [step, look_pc]
  cases p <;> first | exact this | simp [PC.locked] at hp

/-- Calling the hooks of a popped event. -/
theorem call_sim (env : Env) (c : Conf) (t : Tid) (q : List (Kind × Event)) (k : Kind) (e : Event) :
    ∀ (is : List SinkId) (w : World),
      After c (callAll env (is.map fun i => Obs.hook i k e) w).1 q t .loop
        (callAll env (is.map fun i => Obs.hook i k e) w).2 (look w q t (.calling k e is))
  | [], w => by
    refine ⟨1, ?_⟩
    show step c (look w q t (.calling k e [])) t .go = _
    simp only [step, look_pc]
    exact look_at w w q t _ _ rfl rfl rfl
  | i :: is, w => by
    simp only [List.map_cons, callAll, callback]
    have h1 : Goes c t (look w q t (.calling k e (i :: is)))
        (look { w with trace := w.trace ++ [Obs.hook i k e] } q t (.inHook k e is)) := by
      refine ⟨1, ?_⟩
      show step c (look w q t (.calling k e (i :: is))) t .go = _
      simp only [step, look_pc]
      exact look_call w q t _ _ _ rfl rfl
    cases hr : env.raises w.trace (Obs.hook i k e) with
    | some x => exact ⟨_, h1, raise_look rfl rfl rfl⟩
    | none =>
      dsimp only
      have h2 : Goes c t (look { w with trace := w.trace ++ [Obs.hook i k e] } q t (.inHook k e is))
          (look { w with trace := w.trace ++ [Obs.hook i k e] } q t (.calling k e is)) := by
        refine ⟨1, ?_⟩
        show step c (look _ q t (.inHook k e is)) t .go = _
        simp only [step, look_pc]
        exact look_at _ _ q t _ _ rfl rfl rfl
      exact (call_sim env c t q k e is { w with trace := w.trace ++ [Obs.hook i k e] }).from (h1.trans h2)

/-- Internal notes are not seen. -/
theorem noteAll_noNotes (env : Env) (name : String) (w : World) :
    noNotes (noteAll env name w).1.trace = noNotes w.trace ∧ (noteAll env name w).1.pub = w.pub ∧
      (noteAll env name w).1.logs = w.logs := by
  simp only [noteAll]
  generalize w.noteHandlers = hs
  induction hs generalizing w with
  | nil => simp [callAll]
  | cons h hs ih =>
    simp only [List.map_cons, callAll, callback]
    cases env.raises w.trace (Obs.note h name) with
    | some x => simp [noNotes]
    | none =>
      dsimp only
      obtain ⟨h1, h2, h3⟩ := ih { w with trace := w.trace ++ [Obs.note h name] }
      exact ⟨by rw [h1, noNotes_append]; simp [noNotes], h2, h3⟩

/-- The preflush hooks. -/
theorem preflush_sim (env : Env) (c : Conf) (t : Tid) (q : List (Kind × Event)) :
    ∀ (hs : List Nat) (w : World),
      After c (runPreflush env c.logger hs w).1 q t .loop (runPreflush env c.logger hs w).2
          (look w q t (.pre false hs)) ∧
        (runPreflush env c.logger hs w).1.logs = w.logs
  | [], w => by
    refine ⟨⟨1, ?_⟩, rfl⟩
    show step c (look w q t (.pre false [])) t .go = _
    simp only [step, look_pc]
    exact look_at w w q t _ _ rfl rfl rfl
  | h :: hs, w => by
    simp only [runPreflush, callback]
    have h1 : Goes c t (look w q t (.pre false (h :: hs)))
        (look { w with trace := w.trace ++ [Obs.preflush c.logger h] } q t (.pre true hs)) := by
      refine ⟨1, ?_⟩
      show step c (look w q t (.pre false (h :: hs))) t .go = _
      simp only [step, look_pc]
      exact look_call w q t _ _ _ rfl rfl
    have h2 : ∀ w' : World, noNotes (w.trace ++ [Obs.preflush c.logger h]) = noNotes w'.trace → w.pub = w'.pub →
        Goes c t (look { w with trace := w.trace ++ [Obs.preflush c.logger h] } q t (.pre true hs))
          (look w' q t (.pre false hs)) := by
      intro w' a b
      refine ⟨1, ?_⟩
      show step c (look _ q t (.pre true hs)) t .go = _
      simp only [step, look_pc]
      exact look_at _ _ q t _ _ rfl a b
    cases hr : env.raises w.trace (Obs.preflush c.logger h) with
    | none =>
      dsimp only
      obtain ⟨i1, i2⟩ := preflush_sim env c t q hs { w with trace := w.trace ++ [Obs.preflush c.logger h] }
      exact ⟨i1.from (h1.trans (h2 _ rfl rfl)), i2⟩
    | some x =>
      dsimp only
      cases x.cls with
      | baseOnly => exact ⟨⟨_, h1, raise_look rfl rfl rfl⟩, rfl⟩
      | ordinary =>
        dsimp only
        obtain ⟨n1, n2, n3⟩ := noteAll_noNotes env "preflush" { w with trace := w.trace ++ [Obs.preflush c.logger h] }
        cases hn : noteAll env "preflush" { w with trace := w.trace ++ [Obs.preflush c.logger h] } with
        | mk w' r =>
          rw [hn] at n1 n2 n3
          cases r with
          | some y => exact ⟨⟨_, h1, raise_look rfl n1.symm n2.symm⟩, n3⟩
          | none =>
            dsimp only
            obtain ⟨i1, i2⟩ := preflush_sim env c t q hs w'
            exact ⟨i1.from (h1.trans (h2 w' n1.symm n2.symm)), i2.trans n3⟩

/-- The queue of a logger. -/
def queueOf (w : World) (l : LogId) : List (Kind × Event) := ((w.logs l).map (·.queue)).getD []

theorem callAll_logs (env : Env) : ∀ (os : List Obs) (w : World), (callAll env os w).1.logs = w.logs
  | [], _ => rfl
  | o :: os, w => by
    simp only [callAll, callback]
    cases env.raises w.trace o with
    | some x => rfl
    | none => exact callAll_logs env os _

/-- The loop over the queue. -/
theorem drain_sim (env : Env) (c : Conf) (t : Tid) (L : Log) (hh : c.hooks = L.hooks) :
    ∀ (q : List (Kind × Event)) (w : World), (∀ p ∈ q, p.1 ≠ .exception) →
      After c (drain env c.logger L q w).1 (queueOf (drain env c.logger L q w).1 c.logger) t .idle
        (drain env c.logger L q w).2 (look w q t .loop)
  | [], w, _ => by
    refine ⟨1, ?_⟩
    show step c (look w [] t .loop) t .go = _
    have hq : queueOf (drain env c.logger L [] w).1 c.logger = [] := by simp [drain, queueOf, World.setLog]
    rw [hq]
    simp only [step, look_pc, drain]
    rw [if_pos (show (look w [] t .loop).queue = [] from rfl)]
    exact look_leave w _ [] t _ rfl rfl
  | (k, e) :: q, w, hk => by
    have h1 : Goes c t (look w ((k, e) :: q) t .loop)
        (look (w.setLog c.logger { L with queue := q }) q t (.calling k e (c.hooks k))) := by
      have g1 : Goes c t (look w ((k, e) :: q) t .loop) (look w ((k, e) :: q) t .popping) := by
        refine ⟨1, ?_⟩
        show step c (look w ((k, e) :: q) t .loop) t .go = _
        simp only [step, look_pc]
        rw [if_neg (by simp [look])]
        exact look_at w w _ t _ _ rfl rfl rfl
      refine g1.trans ⟨1, ?_⟩
      show step c (look w ((k, e) :: q) t .popping) t .go = _
      simp only [step, look_pc]
      show ({ look w ((k, e) :: q) t .popping with queue := q }).at t _ = _
      simp only [look, Sys.at, Sys.mk.injEq, true_and]
      refine ⟨rfl, ?_, rfl, rfl⟩
      funext t'; split <;> rfl
    have hd : deliver env L k e (w.setLog c.logger { L with queue := q }) =
        callAll env ((c.hooks k).map fun i => Obs.hook i k e) (w.setLog c.logger { L with queue := q }) := by
      have := hk (k, e) (by simp)
      rw [hh]
      cases k <;> first | rfl | exact absurd rfl this
    simp only [drain, hd]
    have h2 := call_sim env c t q k e (c.hooks k) (w.setLog c.logger { L with queue := q })
    have h3 := callAll_logs env ((c.hooks k).map fun i => Obs.hook i k e) (w.setLog c.logger { L with queue := q })
    cases hr : callAll env ((c.hooks k).map fun i => Obs.hook i k e) (w.setLog c.logger { L with queue := q }) with
    | mk w' r =>
      rw [hr] at h2 h3
      cases r with
      | none => exact (drain_sim env c t L hh q w' (fun p hp => hk p (by simp [hp]))).from (h1.trans h2)
      | some x =>
        have hq : queueOf w' c.logger = q := by
          dsimp only at h3
          simp [queueOf, h3, World.setLog]
        dsimp only
        rw [hq]
        exact After.from (r := some x) h2 h1

/-- **C23**: a flush of the sequential model, whatever sinks, preflush hooks and note handlers do, is what a thread of the
concurrent model does that calls `flush` and is left alone: it makes the same calls in the same order, leaves the same queue, gives
the lock back, and gets out by an exception if the sequential one does. -/
theorem C23_sequential (env : Env) (w : World) (hr : Reachable env w) (l : LogId) (L : Log) (hL : w.logs l = some L)
    (t : Tid) :
    ∃ n, run ⟨l, L.hooks, L.preflush⟩ (look w L.queue t .idle)
        ((t, .flush) :: List.replicate n (t, .go) ++ if (flush env w l).2.isSome then [(t, .raise)] else []) =
      look (flush env w l).1 (queueOf (flush env w l).1 l) t .idle := by
  have hk : ∀ p ∈ L.queue, p.1 ≠ .exception := fun p hp => hr.qInv.kinds hL p.1 p.2 hp
  have hstart : Goes ⟨l, L.hooks, L.preflush⟩ t (step ⟨l, L.hooks, L.preflush⟩ (look w L.queue t .idle) t .flush)
      (look w L.queue t (.pre false L.preflush)) := by
    have e1 : step ⟨l, L.hooks, L.preflush⟩ (look w L.queue t .idle) t .flush = look w L.queue t .waiting := by
      simp only [step, look_pc, if_true]
      exact look_at w w _ t _ _ rfl rfl rfl
    rw [e1]
    refine ⟨1, ?_⟩
    show step _ (look w L.queue t .waiting) t .go = _
    simp only [step, look_pc]
    rw [if_pos (by simp [look, PC.locked])]
    simp only [look, Sys.at, Sys.mk.injEq, true_and, and_true]
    refine ⟨rfl, ?_⟩
    funext t'; split <;> rfl
  have key : After ⟨l, L.hooks, L.preflush⟩ (flush env w l).1 (queueOf (flush env w l).1 l) t .idle (flush env w l).2
      (step ⟨l, L.hooks, L.preflush⟩ (look w L.queue t .idle) t .flush) := by
    obtain ⟨p1, p2⟩ := preflush_sim env ⟨l, L.hooks, L.preflush⟩ t L.queue L.preflush w
    simp only [flush, hL]
    dsimp only at p1 p2
    cases hp : runPreflush env l L.preflush w with
    | mk w1 r1 =>
      rw [hp] at p1 p2
      dsimp only at p2
      cases r1 with
      | some x =>
        have hq : queueOf w1 l = L.queue := by simp [queueOf, p2, hL]
        dsimp only
        rw [hq]
        exact After.from (r := some x) p1 hstart
      | none =>
        dsimp only
        have d1 := drain_sim env ⟨l, L.hooks, L.preflush⟩ t L rfl L.queue w1 hk
        dsimp only at d1
        cases hd : drain env l L L.queue w1 with
        | mk w2 r2 =>
          rw [hd] at d1
          have d2 := d1.from (hstart.trans p1)
          cases r2 with
          | some x => exact d2
          | none =>
            have hq0 : queueOf w2 l = [] := by
              have : ∀ (q : List (Kind × Event)) (v : World), (drain env l L q v).2 = none →
                  queueOf (drain env l L q v).1 l = [] := by
                intro q
                induction q with
                | nil => intro v _; simp [drain, queueOf, World.setLog]
                | cons a q ih =>
                  intro v hv
                  obtain ⟨k, e⟩ := a
                  simp only [drain] at hv ⊢
                  cases hx : deliver env L k e (v.setLog l { L with queue := q }) with
                  | mk v' r =>
                    rw [hx] at hv
                    cases r with
                    | none => exact ih v' hv
                    | some y => cases hv
              have := this L.queue w1 (by rw [hd])
              rwa [hd] at this
            dsimp only
            have hq1 : queueOf (w2.tick.setLog l { L with queue := [], lastFlush := w2.now env }) l = [] := by
              simp [queueOf, World.setLog]
            rw [hq1]
            dsimp only at d2
            rw [hq0] at d2
            exact d2
  simp only [List.cons_append]
  show ∃ n, run _ (step _ (look w L.queue t .idle) t .flush) _ = _
  unfold After at key
  cases hr : (flush env w l).2 with
  | none =>
    rw [hr] at key
    obtain ⟨n, hn⟩ := key
    exact ⟨n, by simpa using hn⟩
  | some x =>
    rw [hr] at key
    obtain ⟨s', ⟨n, hn⟩, hs⟩ := key
    refine ⟨n, ?_⟩
    rw [Option.isSome_some, if_pos rfl, run_append, hn]
    exact hs

/-! ### A case -/

open Verif.Sample in
/-- An asynchronous logger with three events queued, and a sink that raises at the end event. -/
def seqWorld : World :=
  Verif.run (badSink 0 .end_) World.init
    (setupAsync ++ [mk "a", .op (.begin 0 none [] []), .op (.success 0 none [] []), .op (.comment 0 "c" [] [])])

open Verif.Sample in
example : ∃ (L : Log) (n : Nat), run ⟨0, L.hooks, L.preflush⟩ (look seqWorld L.queue 7 .idle)
      ((7, .flush) :: List.replicate n (7, .go) ++ [(7, .raise)]) =
    look (flush (badSink 0 .end_) seqWorld 0).1 (queueOf (flush (badSink 0 .end_) seqWorld 0).1 0) 7 .idle ∧
    (queueOf (flush (badSink 0 .end_) seqWorld 0).1 0).length = 1 := by
  obtain ⟨L, hL⟩ : ∃ L, seqWorld.logs 0 = some L := Option.isSome_iff_exists.1 (by decide +kernel)
  obtain ⟨n, hn⟩ := C23_sequential (badSink 0 .end_) seqWorld (Reachable.run (Reachable.init _) _) 0 L hL 7
  have hx : (flush (badSink 0 .end_) seqWorld 0).2.isSome = true := by decide +kernel
  rw [hx] at hn
  exact ⟨L, n, hn, by decide +kernel⟩

end Verif.Conc
