import Verif.Lemmas.Parts
import Verif.Spec.Env
/-!
# Flushing when only sinks and preflush hooks fail, and only with ordinary exceptions
-/
namespace Verif
open scoped List
attribute [local irreducible] QUEUE_LIMIT

@[simp] theorem isNote_preflush (l : LogId) (h : Nat) : (Obs.preflush l h).isNote = false := rfl
@[simp] theorem isNote_note (h : Nat) (n : String) : (Obs.note h n).isNote = true := rfl
@[simp] theorem isNote_hook (s : SinkId) (k : Kind) (e : Event) : (Obs.hook s k e).isNote = false := rfl

theorem noteAll_notesQuiet {env : Env} (h : env.NotesQuiet) (n : String) (w : World) :
    noteAll env n w = (w.logged (w.noteHandlers.map fun h => Obs.note h n), none) := by
  simp only [noteAll]
  generalize w.noteHandlers = hs
  induction hs generalizing w with
  | nil => simp [callAll, World.logged]
  | cons x xs ih =>
    simp only [List.map_cons, callAll, callback]
    rw [h]; dsimp only; rw [ih]; simp [World.logged]

theorem runPreflush_ordinary {env : Env} (hn : env.NotesQuiet) (ho : env.Ordinary) (l : LogId)
    (hs : List Nat) (w : World) :
    ∃ t, runPreflush env l hs w = (w.logged t, none) ∧
      t.filter (fun o => !o.isNote) = hs.map (Obs.preflush l) := by
  induction hs generalizing w with
  | nil => exact ⟨[], by simp [runPreflush, World.logged], rfl⟩
  | cons h hs ih =>
    simp only [runPreflush, callback]
    cases hr : env.raises w.trace (.preflush l h) with
    | none =>
      dsimp only
      obtain ⟨t, h1, h2⟩ := ih (w.logged [.preflush l h])
      refine ⟨.preflush l h :: t, ?_, ?_⟩
      · rw [show ({ w with trace := w.trace ++ [Obs.preflush l h] } : World) = w.logged [.preflush l h]
          from rfl, h1]
        simp [World.logged]
      · simp [h2]
    | some e =>
      have := ho _ _ _ hr
      dsimp only
      rw [this]
      dsimp only
      rw [noteAll_notesQuiet hn]
      dsimp only
      generalize hN : (List.map (fun h => Obs.note h "preflush") w.noteHandlers) = N
      obtain ⟨t, h1, h2⟩ := ih ((w.logged [.preflush l h]).logged N)
      have hNf : N.filter (fun o => !o.isNote) = [] := by
        rw [← hN, List.filter_eq_nil_iff]; intro o ho
        simp only [List.mem_map] at ho; obtain ⟨_, _, rfl⟩ := ho; simp
      refine ⟨.preflush l h :: (N ++ t), ?_, ?_⟩
      · rw [show ({ w with trace := w.trace ++ [Obs.preflush l h] } : World).logged N =
          (w.logged [.preflush l h]).logged N from rfl, h1]
        simp [World.logged]
      · simp [h2, hNf]

/-- Everything a flush does. -/
structure FlushRun (env : Env) (l : LogId) (L : Log) (w w' : World) (pre post : List Obs) : Prop where
  trace : w'.trace = w.trace ++ pre ++ post
  pre : pre.filter (fun o => !o.isNote) = L.preflush.map (Obs.preflush l)
  others : ∀ m, m ≠ l → w'.logs m = w.logs m

theorem flush_run {env : Env} (hn : env.NotesQuiet) (ho : env.Ordinary) {w : World} {l : LogId} {L : Log}
    (hL : w.logs l = some L) (hi : QInv env w.del) :
    ∃ pre post, FlushRun env l L w (flush env w l).1 pre post ∧
    (((flush env w l).2 = none ∧ post = expand L L.queue ∧
        ∃ t, (flush env w l).1.logs l = some { L with queue := [], lastFlush := t }) ∨
     ∃ x done p rest t, (flush env w l).2 = some x ∧ L.queue = done ++ p :: rest ∧
       post = expand L done ++ t ∧ t <+: expand L [p] ∧ t ≠ [] ∧
       (flush env w l).1.logs l = some { L with queue := rest }) := by
  obtain ⟨pre, hp, hpre⟩ := runPreflush_ordinary hn ho l L.preflush w
  have hoth : ∀ m, m ≠ l → (flush env w l).1.logs m = w.logs m := fun m hm => flush_other hm
  simp only [flush, hL, hp] at hoth ⊢
  rcases drain_spec (env := env) l L L.queue (hi.kinds hL) (w.logged pre) with
    ⟨h1, h2, h3⟩ | ⟨x, dn, k', e', rest, t, h1, h2, h3, h4, h4', h5⟩
  · cases hd : drain env l L L.queue (w.logged pre) with
    | mk w2 y =>
      rw [hd] at h1 h2 h3 hoth
      dsimp only at h1 h2 h3
      subst h1
      refine ⟨pre, expand L L.queue, ⟨h2, hpre, hoth⟩, .inl ⟨rfl, rfl, _, updLog_same ..⟩⟩
  · cases hd : drain env l L L.queue (w.logged pre) with
    | mk w2 y =>
      rw [hd] at h1 h3 h5 hoth
      dsimp only at h1 h3 h5
      subst h1
      refine ⟨pre, expand L dn ++ t, ⟨?_, hpre, hoth⟩,
        .inr ⟨x, dn, (k', e'), rest, t, rfl, h2, rfl, ?_, h4', h5⟩⟩
      · dsimp only; rw [h3]; simp [World.logged]
      · simpa [expand] using h4

theorem flush_none_eq {env : Env} {w : World} {l : LogId} (h : w.logs l = none) :
    flush env w l = (w, none) := by simp [flush, h]

/-- Exceptions that come out of a flush are exceptions some hook raised. -/
theorem drain_raises {env : Env} (l : LogId) (L : Log) (q : List (Kind × Event))
    (hq : ∀ k e, (k, e) ∈ q → k ≠ .exception) (w : World) {x : Exc}
    (hx : (drain env l L q w).2 = some x) :
    ∃ t s k e, (k, e) ∈ q ∧ env.raises t (.hook s k e) = some x := by
  induction q generalizing w with
  | nil => simp [drain] at hx
  | cons p q ih =>
    obtain ⟨k, e⟩ := p
    have hk : k ≠ .exception := hq k e (by simp)
    have hd : deliver env L k e (w.setLog l { L with queue := q }) =
        callAll env (hookCalls L k e) (w.setLog l { L with queue := q }) := by
      cases k <;> first | rfl | exact absurd rfl hk
    simp only [drain, hd, callAll_eq] at hx
    cases hr : (ran env (hookCalls L k e) (w.setLog l { L with queue := q }).trace).2 with
    | none =>
      rw [hr] at hx
      obtain ⟨t, s, k', e', h1, h2⟩ := ih (fun k e h => hq k e (by simp [h])) _ hx
      exact ⟨t, s, k', e', by simp [h1], h2⟩
    | some y =>
      rw [hr] at hx; dsimp only at hx; cases hx
      obtain ⟨pre, o, post, h1, _, h3⟩ := ran_split hr
      have : o ∈ hookCalls L k e := by rw [h1]; simp
      simp only [hookCalls, List.mem_map] at this
      obtain ⟨s, _, rfl⟩ := this
      exact ⟨_, s, k, e, by simp, h3⟩

theorem flush_raises {env : Env} (hn : env.NotesQuiet) (ho : env.Ordinary) {w : World} {l : LogId}
    {L : Log} (hL : w.logs l = some L) (hi : QInv env w.del) {x : Exc}
    (hx : (flush env w l).2 = some x) :
    ∃ t s k e, e.logger = l ∧ env.raises t (.hook s k e) = some x := by
  obtain ⟨pre, hp, hpre⟩ := runPreflush_ordinary hn ho l L.preflush w
  simp only [flush, hL, hp] at hx
  cases hd : drain env l L L.queue (w.logged pre) with
  | mk w2 y =>
    rw [hd] at hx
    cases y with
    | none => cases hx
    | some y =>
      dsimp only at hx; cases hx
      obtain ⟨t, s, k, e, h1, h2⟩ := drain_raises (env := env) l L L.queue (hi.kinds hL) (w.logged pre)
        (x := x) (by rw [hd])
      exact ⟨t, s, k, e, (hi.q l k e (by simpa [Del.queue, World.del, hL] using h1)).1, h2⟩

theorem qInv_flush {env : Env} {w : World} (hi : QInv env w.del) (l : LogId) :
    QInv env (flush env w l).1.del :=
  (fl_flush (env := env) w l).inv (P := QInv env) (fun _ _ h s => qInv_step h (.flush s)) hi

theorem qInv_notes {env : Env} {w : World} (hi : QInv env w.del) (hs : List Nat) (n : String) :
    QInv env (w.logged (hs.map fun h => Obs.note h n)).del := by
  refine qInv_step hi (.flush (.other w.del _ ?_))
  intro o ho; simp only [List.mem_map] at ho; obtain ⟨_, _, rfl⟩ := ho; rfl

/-- One round of `LithoxylContext.flush`: the flush of `l` and the notes about its failure. -/
def ctxRound (env : Env) (w : World) (l : LogId) : World :=
  match (flush env w l).2 with
  | none => (flush env w l).1
  | some _ => (flush env w l).1.logged
      ((flush env w l).1.noteHandlers.map fun h => Obs.note h "context_flush")

theorem ctxFlush_eq {env : Env} (hn : env.NotesQuiet) (ho : env.Ordinary) (ls : List LogId) (w : World)
    (hi : QInv env w.del) : ctxFlush env ls w = (ls.foldl (ctxRound env) w, none) := by
  induction ls generalizing w with
  | nil => rfl
  | cons l ls ih =>
    have hq := qInv_flush hi l
    simp only [ctxFlush, List.foldl_cons]
    have hcls : ∀ x, (flush env w l).2 = some x → x.cls = .ordinary := by
      intro x hx
      cases hL : w.logs l with
      | none => rw [flush_none_eq hL] at hx; cases hx
      | some L =>
        obtain ⟨t, s, k, e, _, h⟩ := flush_raises hn ho hL hi hx
        exact ho _ _ _ h
    cases hf : flush env w l with
    | mk w' y =>
      rw [hf] at hq hcls
      cases y with
      | none =>
        dsimp only
        rw [ih w' hq]; simp [ctxRound, hf]
      | some x =>
        dsimp only
        rw [hcls x rfl]
        dsimp only
        rw [noteAll_notesQuiet hn]
        dsimp only
        rw [ih]
        · simp [ctxRound, hf]
        · exact qInv_notes hq _ _

theorem ctxRound_qInv {env : Env} {w : World} (hi : QInv env w.del) (l : LogId) :
    QInv env (ctxRound env w l).del := by
  have := qInv_flush hi l
  simp only [ctxRound]; split
  · exact this
  · exact qInv_notes this _ _

theorem ctxRound_other {env : Env} {w : World} {l m : LogId} (h : m ≠ l) :
    (ctxRound env w l).logs m = w.logs m := by
  simp only [ctxRound]; split
  · exact flush_other h
  · exact flush_other h

/-- The calls of one round: hooks and preflush hooks of `l` only, and notes. -/
theorem ctxRound_trace {env : Env} (hn : env.NotesQuiet) (ho : env.Ordinary) {w : World}
    (hi : QInv env w.del) (l : LogId) :
    ∃ t, (ctxRound env w l).trace = w.trace ++ t ∧ ∀ o ∈ t, o.log? = some l ∨ o.isNote = true := by
  have hf : ∃ t, (flush env w l).1.trace = w.trace ++ t ∧
      ∀ o ∈ t, o.log? = some l ∨ o.isNote = true := by
    cases hL : w.logs l with
    | none => exact ⟨[], by rw [flush_none_eq hL]; simp, by simp⟩
    | some L =>
      obtain ⟨pre, post, h, h'⟩ := flush_run hn ho hL hi
      refine ⟨pre ++ post, by rw [h.trace]; simp, ?_⟩
      intro o ho
      rcases List.mem_append.1 ho with ho | ho
      · by_cases hnn : o.isNote
        · exact .inr hnn
        · have : o ∈ pre.filter (fun o => !o.isNote) := List.mem_filter.2 ⟨ho, by simp [hnn]⟩
          rw [h.pre] at this
          simp only [List.mem_map] at this
          obtain ⟨i, _, rfl⟩ := this
          exact .inl rfl
      · have hsub : o ∈ expand L L.queue := by
          rcases h' with ⟨_, rfl, _⟩ | ⟨x, dn, p, rest, t, _, hq, rfl, ht, _⟩
          · exact ho
          · rw [hq, show dn ++ p :: rest = dn ++ ([p] ++ rest) from rfl, expand_append, expand_append]
            rcases List.mem_append.1 ho with ho | ho
            · exact List.mem_append_left _ ho
            · exact List.mem_append_right _ (List.mem_append_left _ (ht.subset ho))
        simp only [expand, hookCalls, List.mem_flatMap, List.mem_map] at hsub
        obtain ⟨p, hp, s, _, rfl⟩ := hsub
        left
        have := (hi.q l p.1 p.2 (by simpa [Del.queue, World.del, hL] using hp)).1
        simp [Obs.log?, this]
  obtain ⟨t, h1, h2⟩ := hf
  simp only [ctxRound]; split
  · exact ⟨t, h1, h2⟩
  · refine ⟨t ++ (flush env w l).1.noteHandlers.map (fun h => Obs.note h "context_flush"), ?_, ?_⟩
    · simp [World.logged, h1]
    · intro o ho
      rcases List.mem_append.1 ho with ho | ho
      · exact h2 o ho
      · simp only [List.mem_map] at ho; obtain ⟨_, _, rfl⟩ := ho; exact .inr rfl

theorem deliveries_of_other {l : LogId} {t : List Obs} (h : ∀ o ∈ t, o.log? ≠ some l) :
    deliveries l t = [] := by
  rw [deliveries, List.filter_eq_nil_iff]
  intro o ho
  cases o with
  | hook s k e => have := h _ ho; simp [Obs.log?] at this; simp [this]
  | _ => simp

theorem ctxRound_self {env : Env} (hn : env.NotesQuiet) (ho : env.Ordinary) {w : World}
    (hi : QInv env w.del) {l : LogId} {L : Log} (hL : w.logs l = some L) :
    FlushOutcome env l L.sinks L.queue w.trace (ctxRound env w l).trace
      (queued (ctxRound env w l) l) ∧
    (env.QuietFor l → deliveries l (ctxRound env w l).trace =
        deliveries l w.trace ++ callsFor env L.sinks L.queue ∧ queued (ctxRound env w l) l = []) := by
  have hreg := hi.reg l L hL
  have hd : deliveries l (ctxRound env w l).trace = deliveries l (flush env w l).1.trace ∧
      queued (ctxRound env w l) l = queued (flush env w l).1 l := by
    simp only [ctxRound]; split
    · exact ⟨rfl, rfl⟩
    · refine ⟨?_, rfl⟩
      simp only [World.logged, deliveries_append]
      rw [deliveries_of_other (l := l) (t := List.map _ _), List.append_nil]
      intro o ho; simp only [List.mem_map] at ho; obtain ⟨_, _, rfl⟩ := ho; simp [Obs.log?]
  rw [FlushOutcome, hd.1, hd.2]
  have hs := flush_spec (env := env) hL hi
  simp only [expand_callsFor hreg] at hs
  rcases hs with ⟨h1, h2, h3⟩ | ⟨x, h1, h2, h3⟩ | ⟨x, dn, p, rest, t, h1, h2, h3, h4, h5, h6⟩
  · exact ⟨.inl ⟨h2, h3⟩, fun _ => ⟨h2, h3⟩⟩
  · exfalso
    obtain ⟨pre, post, h, h' | ⟨x, dn, p, rest, t, h1', hq, hpost, ht, hne, hl⟩⟩ := flush_run hn ho hL hi
    · rw [h'.1] at h1; cases h1
    · rw [queued, hl] at h3
      dsimp only at h3
      have := congrArg List.length (h3.trans hq)
      simp at this; omega
  · refine ⟨.inr ⟨dn, p, t, by rw [h6]; exact h2, h4, h5, h3⟩, fun hqf => ?_⟩
    obtain ⟨t', s, k, e, he, hx⟩ := flush_raises hn ho hL hi h1
    rw [hqf t' s k e he] at hx; cases hx

theorem ctxRounds_other {env : Env} (hn : env.NotesQuiet) (ho : env.Ordinary) (ls : List LogId)
    {w : World} (hi : QInv env w.del) {l : LogId} (hl : l ∉ ls) :
    (ls.foldl (ctxRound env) w).logs l = w.logs l ∧
    deliveries l (ls.foldl (ctxRound env) w).trace = deliveries l w.trace := by
  induction ls generalizing w with
  | nil => exact ⟨rfl, rfl⟩
  | cons m ls ih =>
    simp only [List.mem_cons, not_or] at hl
    obtain ⟨h1, h2⟩ := ih (ctxRound_qInv hi m) hl.2
    simp only [List.foldl_cons]
    rw [h1, h2, ctxRound_other hl.1]
    refine ⟨rfl, ?_⟩
    obtain ⟨t, ht, hall⟩ := ctxRound_trace hn ho hi m
    rw [ht, deliveries_append, deliveries_of_other (l := l) (t := t), List.append_nil]
    intro o ho hlo
    rcases hall o ho with h | h
    · rw [h] at hlo; cases hlo; exact hl.1 rfl
    · cases o <;> simp [Obs.isNote] at h
      simp [Obs.log?] at hlo

theorem ctxRounds_self {env : Env} (hn : env.NotesQuiet) (ho : env.Ordinary) {ls : List LogId}
    (hnd : ls.Nodup) {w : World} (hi : QInv env w.del) {l : LogId} (hl : l ∈ ls) {L : Log}
    (hL : w.logs l = some L) :
    FlushOutcome env l L.sinks L.queue w.trace (ls.foldl (ctxRound env) w).trace
      (queued (ls.foldl (ctxRound env) w) l) ∧
    (env.QuietFor l → deliveries l (ls.foldl (ctxRound env) w).trace =
        deliveries l w.trace ++ callsFor env L.sinks L.queue ∧
        queued (ls.foldl (ctxRound env) w) l = []) := by
  induction ls generalizing w with
  | nil => cases hl
  | cons m ls ih =>
    obtain ⟨hm, hnd⟩ := List.nodup_cons.1 hnd
    simp only [List.foldl_cons]
    by_cases h : l = m
    · subst h
      obtain ⟨h1, h2⟩ := ctxRounds_other hn ho ls (ctxRound_qInv hi l) hm
      have := ctxRound_self hn ho hi hL
      rw [queued, ← h1] at this
      rw [FlushOutcome, ← h2] at this
      exact this
    · have hl' : l ∈ ls := by simpa [h] using hl
      have := ih hnd (ctxRound_qInv hi m) hl' (by rw [ctxRound_other h]; exact hL)
      obtain ⟨t, ht, hall⟩ := ctxRound_trace hn ho hi m
      have hd : deliveries l (ctxRound env w m).trace = deliveries l w.trace := by
        rw [ht, deliveries_append, deliveries_of_other (l := l) (t := t), List.append_nil]
        intro o ho hlo
        rcases hall o ho with h' | h'
        · rw [h'] at hlo; cases hlo; exact h rfl
        · cases o <;> simp [Obs.isNote] at h'
          simp [Obs.log?] at hlo
      rw [FlushOutcome, hd] at this
      exact this

theorem ctxRounds_segs {env : Env} (hn : env.NotesQuiet) (ho : env.Ordinary) (ls : List LogId)
    {w : World} (hi : QInv env w.del) :
    ∃ segs, (ls.foldl (ctxRound env) w).trace = w.trace ++ segs.flatten ∧
      List.Forall₂ (fun l seg => ∀ o ∈ seg, o.log? = some l ∨ o.isNote = true) ls segs := by
  induction ls generalizing w with
  | nil => exact ⟨[], by simp, .nil⟩
  | cons l ls ih =>
    obtain ⟨t, ht, hall⟩ := ctxRound_trace hn ho hi l
    obtain ⟨segs, h1, h2⟩ := ih (ctxRound_qInv hi l)
    refine ⟨t :: segs, ?_, .cons hall h2⟩
    simp only [List.foldl_cons]
    rw [h1, ht]; simp

end Verif
