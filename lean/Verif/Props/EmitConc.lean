import Verif.Model.EmitConc
import Mathlib.Data.List.Infix
import Mathlib.Algebra.BigOperators.Group.Finset.Basic
/-!
# Threads can share a stream emitter (C145)
-/
namespace Verif.Spec.EmitConc

open Verif.EmitConc

variable {B : Type}

/-- The bytes of some entries, one after the other. -/
def bytes (es : List (Tid × List B)) : List B := (es.map (·.2)).flatten

/-- What thread `t` did, in order. -/
def of (t : Tid) (es : List (Tid × List B)) : List (List B) := (es.filter (fun x => x.1 = t)).map (·.2)

/-- The stream never goes stale. -/
def NotStale : Act B → Prop
  | .go (.err true) _ _ => False
  | _ => True

/-- Flushing works. -/
def FlushesOk : Act B → Prop
  | .go _ (.err _) _ => False
  | _ => True

/-- A write takes the data over whole, at once or later, or not at all: it does not leave the file with a part of an entry. -/
def Whole : Act B → Prop
  | .go (.ok (_ + 1)) _ _ => False
  | _ => True

/-- No write fails, and the emitter is not closed. -/
def Lands : Act B → Prop
  | .go (.err _) _ _ => False
  | .close => False
  | _ => True

/-- What a thread does next goes well up to staleness: a write fails only as stale and only at the first attempt of a call,
reopening works, and the emitter is not closed. -/
def Retries (s : Sys B) (t : Tid) : Act B → Prop
  | .close => False
  | .go w _ openOk => openOk = true ∧ ∀ st, w = .err st → st = true ∧ ∀ h d, s.pc t ≠ .write h d true
  | _ => True

/-- Every step of a schedule satisfies `P`, in the state it is made in. -/
def Every (P : Sys B → Tid → Act B → Prop) : Sys B → List (Tid × Act B) → Prop
  | _, [] => True
  | s, x :: rest => P s x.1 x.2 ∧ Every P (step s x.1 x.2) rest

end Verif.Spec.EmitConc

namespace Verif.Props.EmitConc

open Verif.EmitConc Verif.Spec.EmitConc
open Verif.Emit (FlushOut)

variable {B : Type}

theorem bytes_append (a b : List (Tid × List B)) : bytes (a ++ b) = bytes a ++ bytes b := by simp [bytes]

theorem bytes_one (t : Tid) (d : List B) : bytes [(t, d)] = d := by simp [bytes]

theorem of_append (t : Tid) (a b : List (Tid × List B)) : of t (a ++ b) = of t a ++ of t b := by simp [of]

/-! ## What the parts of a step leave alone -/

@[simp] theorem at_pc (s : Sys B) (t p) : (s.at t p).pc = Function.update s.pc t p := rfl
@[simp] theorem at_file (s : Sys B) (t p) : (s.at t p).file = s.file := rfl
@[simp] theorem at_buf (s : Sys B) (t p) : (s.at t p).buf = s.buf := rfl
@[simp] theorem at_closed (s : Sys B) (t p) : (s.at t p).closed = s.closed := rfl
@[simp] theorem at_next (s : Sys B) (t p) : (s.at t p).next = s.next := rfl
@[simp] theorem at_cur (s : Sys B) (t p) : (s.at t p).cur = s.cur := rfl
@[simp] theorem at_called (s : Sys B) (t p) : (s.at t p).called = s.called := rfl
@[simp] theorem at_wrote (s : Sys B) (t p) : (s.at t p).wrote = s.wrote := rfl
@[simp] theorem at_threads (s : Sys B) (t p) : (s.at t p).threads = s.threads := rfl
@[simp] theorem at_reopen (s : Sys B) (t p) : (s.at t p).reopen = s.reopen := rfl

@[simp] theorem out_pc (s : Sys B) (h n) : (s.out h n).pc = s.pc := by cases n <;> rfl
@[simp] theorem out_closed (s : Sys B) (h n) : (s.out h n).closed = s.closed := by cases n <;> rfl
@[simp] theorem out_next (s : Sys B) (h n) : (s.out h n).next = s.next := by cases n <;> rfl
@[simp] theorem out_cur (s : Sys B) (h n) : (s.out h n).cur = s.cur := by cases n <;> rfl
@[simp] theorem out_called (s : Sys B) (h n) : (s.out h n).called = s.called := by cases n <;> rfl
@[simp] theorem out_wrote (s : Sys B) (h n) : (s.out h n).wrote = s.wrote := by cases n <;> rfl
@[simp] theorem out_threads (s : Sys B) (h n) : (s.out h n).threads = s.threads := by cases n <;> rfl

@[simp] theorem shut_pc (s : Sys B) (h f) : (s.shut h f).pc = s.pc := by simp [Sys.shut]
@[simp] theorem shut_next (s : Sys B) (h f) : (s.shut h f).next = s.next := by simp [Sys.shut]
@[simp] theorem shut_cur (s : Sys B) (h f) : (s.shut h f).cur = s.cur := by simp [Sys.shut]
@[simp] theorem shut_called (s : Sys B) (h f) : (s.shut h f).called = s.called := by simp [Sys.shut]
@[simp] theorem shut_wrote (s : Sys B) (h f) : (s.shut h f).wrote = s.wrote := by simp [Sys.shut]
@[simp] theorem shut_threads (s : Sys B) (h f) : (s.shut h f).threads = s.threads := by simp [Sys.shut]
@[simp] theorem shut_closed (s : Sys B) (h f) : (s.shut h f).closed = Function.update s.closed h true := by simp [Sys.shut]

theorem release_keeps (s : Sys B) (h f) : (s.release h f).pc = s.pc ∧ (s.release h f).next = s.next ∧
    (s.release h f).cur = s.cur ∧ (s.release h f).called = s.called ∧ (s.release h f).wrote = s.wrote ∧
    (s.release h f).threads = s.threads := by
  cases h with
  | none => simp [Sys.release]
  | some h => simp only [Sys.release]; split <;> simp

@[simp] theorem release_pc (s : Sys B) (h f) : (s.release h f).pc = s.pc := (release_keeps s h f).1
@[simp] theorem release_next (s : Sys B) (h f) : (s.release h f).next = s.next := (release_keeps s h f).2.1
@[simp] theorem release_cur (s : Sys B) (h f) : (s.release h f).cur = s.cur := (release_keeps s h f).2.2.1
@[simp] theorem release_called (s : Sys B) (h f) : (s.release h f).called = s.called := (release_keeps s h f).2.2.2.1
@[simp] theorem release_wrote (s : Sys B) (h f) : (s.release h f).wrote = s.wrote := (release_keeps s h f).2.2.2.2.1
@[simp] theorem release_threads (s : Sys B) (h f) : (s.release h f).threads = s.threads := (release_keeps s h f).2.2.2.2.2

/-- A failed write only moves the thread. -/
theorem failed_eq (s : Sys B) (t d r st) :
    ∃ p, s.failed t d r st = s.at t p ∧ (p = .idle ∨ (p = .opening d ∧ st = true)) := by
  unfold Sys.failed
  by_cases h1 : r = true
  · exact ⟨_, by rw [if_pos h1], Or.inl rfl⟩
  · by_cases h2 : st = true ∧ s.reopen = true
    · exact ⟨_, by rw [if_neg h1, if_pos (by simpa using h2)], Or.inr ⟨rfl, h2.1⟩⟩
    · exact ⟨_, by rw [if_neg h1, if_neg (by simpa using h2)], Or.inl rfl⟩

/-- Steps of one thread, all going well; what is written stays in the buffer until it is flushed. -/
def go (t : Tid) (n : Nat) : List (Tid × Act B) := List.replicate n (t, .go (.ok 0) .ok true)

/-- Two threads: thread 1 writes between the write and the flush of thread 0, and thread 0 has begun its second entry. -/
def shared : List (Tid × Act Nat) :=
  [(0, .emit [1]), (1, .emit [2])] ++ go 0 1 ++ go 1 1 ++ go 0 1 ++ go 1 1 ++ go 0 2 ++ [(0, .emit [3])] ++ go 0 2

/-- The rest of it, with a last call of `close`. -/
def finish : List (Tid × Act Nat) := go 1 2 ++ go 0 2 ++ [(1, .close)] ++ go 1 5

/-! ## Each call lands at most once, in its place -/

/-- What a thread still has to write. -/
def pending : Pc B → List (List B)
  | .load d _ | .write _ d _ | .opening d | .assign _ d => [d]
  | _ => []

/-- The writes of a thread are some of its calls, and what it has to write comes after. -/
def Once (s : Sys B) : Prop := ∀ t, ((of t s.wrote) ++ pending (s.pc t)).Sublist (of t s.called)

/-- Moving a thread on keeps `Once` if what it has left is part of what it had. -/
theorem once_move {s s' : Sys B} {t : Tid} {p : Pc B} (hI : Once s) (hpc : s'.pc = Function.update s.pc t p)
    (hw : s'.wrote = s.wrote) (hc : s'.called = s.called) (hp : (pending p).Sublist (pending (s.pc t))) : Once s' := by
  intro u
  rw [hpc, hw, hc]
  by_cases hu : u = t
  · subst hu; rw [Function.update_self]; exact (List.Sublist.append_left hp _).trans (hI u)
  · rw [Function.update_of_ne hu]; exact hI u

theorem once_write {s s' : Sys B} {t : Tid} {p : Pc B} {d : List B} (hI : Once s) (hpc : s'.pc = Function.update s.pc t p)
    (hw : s'.wrote = s.wrote ++ [(t, d)]) (hc : s'.called = s.called) (hp : pending p = []) (hd : pending (s.pc t) = [d]) :
    Once s' := by
  intro u
  rw [hpc, hw, hc, of_append]
  have h := hI u
  by_cases hu : u = t
  · subst hu; rw [Function.update_self, hp]; rw [hd] at h; simpa [of] using h
  · rw [Function.update_of_ne hu]
    have : of u [(t, d)] = [] := by simp [of, Ne.symm hu]
    rw [this]; simpa using h

theorem once_step (s : Sys B) (t : Tid) (a : Act B) (hI : Once s) : Once (step s t a) := by
  unfold step
  split
  · exact hI
  cases a with
  | emit e =>
    cases hp : s.pc t with
    | idle =>
      intro u
      by_cases hu : u = t
      · subst hu
        have h := hI u
        simp only [at_pc, at_wrote, Function.update_self, pending, of_append]
        rw [hp] at h
        have : (of u s.wrote).Sublist (of u s.called) := by simpa [pending] using h
        have h3 : of u [(u, (if s.sep = [] then e else e ++ s.sep))] = [if s.sep = [] then e else e ++ s.sep] := by simp [of]
        rw [h3]
        exact this.append (List.Sublist.refl _)
      · simp only [at_pc, at_wrote, Function.update_of_ne hu, of_append]
        exact (hI u).trans (List.sublist_append_left _ _)
    | _ => exact hI
  | flush =>
    cases hp : s.pc t with
    | idle => exact once_move hI rfl rfl rfl (by simp [pending])
    | _ => exact hI
  | close =>
    cases hp : s.pc t with
    | idle => simp only; split; exacts [hI, once_move hI rfl rfl rfl (by simp [pending])]
    | _ => exact hI
  | go w f o =>
    cases hp : s.pc t with
    | idle => exact hI
    | load d r => exact once_move hI rfl rfl rfl (by simp [pending, hp])
    | write h d r =>
      have hfail : ∀ st, Once (s.failed t d r st) := by
        intro st
        obtain ⟨p, h1, h2⟩ := failed_eq s t d r st
        rw [h1]
        refine once_move (p := p) hI rfl rfl rfl ?_
        rcases h2 with rfl | ⟨rfl, -⟩ <;> simp [pending, hp]
      cases h with
      | none => exact hfail false
      | some h =>
        simp only
        split
        · exact hfail false
        · cases w with
          | err st =>
            have := hfail st
            intro u
            simpa using this u
          | ok n => exact once_write (t := t) (p := .loadFlush false) (d := d) hI (by simp) (by simp) (by simp) rfl (by simp [hp, pending])
          | all => exact once_write (t := t) (p := .loadFlush false) (d := d) hI (by simp) (by simp) (by simp) rfl (by simp [hp, pending])
    | loadFlush c => exact once_move hI rfl rfl rfl (by simp [pending])
    | flush h c =>
      refine once_move (t := t) (p := if c then .loadClose else .idle) hI ?_ ?_ ?_ (by cases c <;> simp [pending])
      all_goals (cases h <;> simp only [release_pc, release_wrote, release_called, at_pc, at_wrote, at_called])
      all_goals (split <;> simp)
    | opening d =>
      simp only
      split
      · exact once_move (t := t) (p := .assign s.next d) hI rfl rfl rfl (by simp [pending, hp])
      · exact once_move (t := t) (p := .idle) hI rfl rfl rfl (by simp [pending])
    | assign h d => exact once_move (t := t) (p := .load d true) hI (by simp) (by simp) (by simp) (by simp [pending, hp])
    | loadClose =>
      simp only
      cases s.cur with
      | none => exact once_move (t := t) (p := .idle) hI rfl rfl rfl (by simp [pending])
      | some h => exact once_move (t := t) (p := .close h) hI rfl rfl rfl (by simp [pending])
    | close h =>
      simp only
      split
      · exact once_move (t := t) (p := .setNone) hI rfl rfl rfl (by simp [pending])
      · cases f with
        | ok => exact once_move (t := t) (p := .setNone) hI (by simp) (by simp) (by simp) (by simp [pending])
        | err n => exact once_move (t := t) (p := .idle) hI (by simp) (by simp) (by simp) (by simp [pending])
    | setNone => exact once_move (t := t) (p := .idle) hI (by simp) (by simp) (by simp) (by simp [pending])

theorem run_induction {P : Sys B → Prop} {A : Act B → Prop} (hs : ∀ s t a, P s → A a → P (step s t a)) :
    ∀ (sched : List (Tid × Act B)) (s : Sys B), P s → (∀ x ∈ sched, A x.2) → P (run s sched)
  | [], _, h, _ => h
  | x :: rest, s, h, ha => by
    have := run_induction hs rest (step s x.1 x.2) (hs s x.1 x.2 h (ha x (by simp))) (fun y hy => ha y (by simp [hy]))
    simpa [run] using this

/-- **C145 (no duplicates).** However threads share an emitter, close it and reopen its stream, and whatever the operating system
answers: the entries of a thread that were written are some of those it emitted, each written at most once and in the order in
which it emitted them. -/
theorem C145_once (sep old : List B) (reopen : Bool) (threads : Nat) (sched : List (Tid × Act B)) (t : Tid) :
    (of t (run (init sep reopen threads old) sched).wrote).Sublist (of t (run (init sep reopen threads old) sched).called) := by
  have h : Once (run (init sep reopen threads old) sched) :=
    run_induction (A := fun _ => True) (fun s t a h _ => once_step s t a h) sched _ (by intro t; simp [init, of, pending])
      (by simp)
  exact (List.sublist_append_left _ _).trans (h t)

example : of 0 (run (init [10] true 2 [7]) shared).wrote = [[1, 10], [3, 10]] ∧
    of 0 (run (init [10] true 2 [7]) shared).called = [[1, 10], [3, 10]] := by decide +kernel

/-- Only the threads there are do anything. -/
theorem quiet_of (s : Sys B) (sched : List (Tid × Act B)) (h : ∀ t, s.threads ≤ t → s.pc t = .idle)
    (hq : ∀ t < s.threads, (run s sched).pc t = .idle) (t : Tid) : (run s sched).pc t = .idle := by
  by_cases ht : t < s.threads
  · exact hq t ht
  · have key := run_induction (P := fun s' : Sys B => s'.threads = s.threads ∧ ∀ t, s.threads ≤ t → s'.pc t = .idle)
      (A := fun _ => True) (fun s' u a hI _ => by
        by_cases hu : s'.threads ≤ u
        · simpa [step, hu] using hI
        · have hmove : ∀ p t, s.threads ≤ t → Function.update s'.pc u p t = .idle := by
            intro p t ht
            rw [Function.update_of_ne (by rintro rfl; exact hu (by rw [hI.1]; exact ht))]
            exact hI.2 t ht
          have hf : ∀ d r st, (s'.failed u d r st).threads = s.threads ∧
              ∀ t, s.threads ≤ t → (s'.failed u d r st).pc t = .idle := by
            intro d r st
            obtain ⟨p, h1, -⟩ := failed_eq s' u d r st
            rw [h1]; exact ⟨hI.1, hmove p⟩
          unfold step
          rw [if_neg hu]
          cases a <;> cases hp : s'.pc u <;> simp only <;> repeat' split
          all_goals first
            | exact hI
            | exact hf _ _ _
            | (simp only [release_pc, release_threads]; exact hf _ _ _)
            | (refine ⟨by simp [hI.1], ?_⟩
               simp only [release_pc, at_pc, out_pc, shut_pc]
               exact hmove _)) sched s ⟨rfl, h⟩ (by simp)
    exact key.2 t (Nat.le_of_not_lt ht)

/-! ## While the stream does not go stale there is one stream -/

/-- A thread works with stream 0 at most, and reopens nothing. -/
def Okay : Pc B → Prop
  | .write h _ _ | .flush h _ => h = none ∨ h = some 0
  | .opening _ | .assign _ _ => False
  | .close h => h = 0
  | _ => True

/-- The one stream; what is in the file and in its buffer is what was written, in the order of the writes. -/
structure One (old : List B) (s : Sys B) : Prop where
  cur : s.cur = none ∨ s.cur = some 0
  pcs : ∀ t, Okay (s.pc t)
  opn : s.closed 0 = false → s.file ++ s.buf 0 = old ++ bytes s.wrote
  pre : s.file <+: old ++ bytes s.wrote

theorem okay_move {s : Sys B} {t : Tid} {p : Pc B} (h : ∀ u, Okay (s.pc u)) (hp : Okay p) :
    ∀ u, Okay (Function.update s.pc t p u) := by
  intro u
  by_cases hu : u = t
  · subst hu; rwa [Function.update_self]
  · rw [Function.update_of_ne hu]; exact h u

theorem one_at {old : List B} {s : Sys B} (h : One old s) (t : Tid) {p : Pc B} (hp : Okay p) : One old (s.at t p) :=
  ⟨h.cur, okay_move h.pcs hp, h.opn, h.pre⟩

theorem out_sum (s : Sys B) (h : Nat) (n : Option Nat) : (s.out h n).file ++ (s.out h n).buf h = s.file ++ s.buf h := by
  cases n <;> simp [Sys.out]

theorem out_pre (s : Sys B) (h : Nat) (n : Option Nat) : (s.out h n).file <+: s.file ++ s.buf h :=
  ⟨_, out_sum s h n⟩

theorem out_grows (s : Sys B) (h : Nat) (n : Option Nat) : s.file <+: (s.out h n).file := by
  cases n <;> simp [Sys.out]

theorem one_out {old : List B} {s : Sys B} (h : One old s) (ho : s.closed 0 = false) (n : Option Nat) :
    One old (s.out 0 n) := by
  refine ⟨by simpa using h.cur, by simpa using h.pcs, ?_, ?_⟩
  · intro _; rw [out_sum, out_wrote]; exact h.opn ho
  · rw [out_wrote, ← h.opn ho]; exact out_pre s 0 n

theorem one_shut {old : List B} {s : Sys B} (h : One old s) (ho : s.closed 0 = false) (f : FlushOut) :
    One old (s.shut 0 f) := by
  have h1 := one_out h ho (through f)
  exact ⟨by simpa using h.cur, by simpa using h.pcs, by simp, by simpa [Sys.shut] using h1.pre⟩

theorem one_release {old : List B} {s : Sys B} (h : One old s) {k : Option Nat} (hk : k = none ∨ k = some 0) (f : FlushOut) :
    One old (s.release k f) := by
  rcases hk with rfl | rfl
  · exact h
  · simp only [Sys.release]
    split
    · exact h
    · rename_i hn
      exact one_shut h (by simpa using fun hc => hn (Or.inr (Or.inr hc))) f

theorem one_write {old : List B} {s : Sys B} (h : One old s) (ho : s.closed 0 = false) (t : Tid) (d : List B) :
    One old { s with buf := Function.update s.buf 0 (s.buf 0 ++ d), wrote := s.wrote ++ [(t, d)] } := by
  refine ⟨h.cur, h.pcs, ?_, ?_⟩
  · intro _
    simp only [Function.update_self, bytes_append, bytes_one]
    rw [← List.append_assoc, h.opn ho, List.append_assoc]
  · simp only [bytes_append, ← List.append_assoc]
    exact h.pre.trans (List.prefix_append _ _)

theorem one_step {old : List B} (s : Sys B) (t : Tid) (a : Act B) (hI : One old s) (ha : NotStale a) : One old (step s t a) := by
  unfold step
  split
  · exact hI
  cases a with
  | emit e =>
    cases hp : s.pc t with
    | idle => exact ⟨hI.cur, okay_move hI.pcs (by simp [Okay]), hI.opn, hI.pre⟩
    | _ => exact hI
  | flush =>
    cases hp : s.pc t with
    | idle => exact one_at hI t (by simp [Okay])
    | _ => exact hI
  | close =>
    cases hp : s.pc t with
    | idle => simp only; split; exacts [hI, one_at hI t (by simp [Okay])]
    | _ => exact hI
  | go w f o =>
    have hok := hI.pcs t
    cases hp : s.pc t with
    | idle => exact hI
    | load d r => exact one_at hI t hI.cur
    | write h d r =>
      have hfail : One old (s.failed t d r false) := by
        obtain ⟨p, h1, h2⟩ := failed_eq s t d r false
        rw [h1]
        rcases h2 with rfl | ⟨_, h3⟩
        · exact one_at hI t (by simp [Okay])
        · simp at h3
      rw [hp] at hok
      rcases hok with rfl | rfl
      · exact hfail
      · simp only
        split
        · exact hfail
        · rename_i hc
          have hc : s.closed 0 = false := by simpa using hc
          cases w with
          | err st =>
            cases st with
            | true => exact ha.elim
            | false => exact one_release hfail (Or.inr rfl) f
          | ok n => exact one_release (one_at (one_out (one_write hI hc t d) hc _) t (by simp [Okay])) (Or.inr rfl) f
          | all => exact one_release (one_at (one_out (one_write hI hc t d) hc _) t (by simp [Okay])) (Or.inr rfl) f
    | loadFlush c => exact one_at hI t hI.cur
    | flush h c =>
      rw [hp] at hok
      have hq : Okay (if c then (.loadClose : Pc B) else .idle) := by cases c <;> simp [Okay]
      rcases hok with rfl | rfl
      · exact one_release (one_at hI t hq) (Or.inl rfl) f
      · refine one_release (one_at ?_ t hq) (Or.inr rfl) f
        show One old (if s.closed 0 = true then s else s.out 0 (through f))
        split
        · exact hI
        · rename_i hc
          exact one_out hI (by simpa using hc) _
    | opening d => rw [hp] at hok; exact hok.elim
    | assign h d => rw [hp] at hok; exact hok.elim
    | loadClose =>
      simp only
      rcases hI.cur with h | h <;> rw [h]
      · exact one_at hI t (by simp [Okay])
      · exact one_at hI t (by simp [Okay])
    | close h =>
      rw [hp] at hok
      have : h = 0 := hok
      subst this
      simp only
      split
      · exact one_at hI t (by simp [Okay])
      · rename_i hc
        exact one_at (one_shut hI (by simpa using hc) f) t (by cases f <;> simp [Okay])
    | setNone =>
      refine one_release ?_ hI.cur f
      exact ⟨Or.inl rfl, okay_move hI.pcs (by simp [Okay]), hI.opn, hI.pre⟩

theorem one_init (sep old : List B) (reopen : Bool) (threads : Nat) : One old (init sep reopen threads old) :=
  ⟨Or.inr rfl, by intro t; simp [init, Okay], by intro _; simp [init, bytes], by simp [init, bytes]⟩

/-- **C145 (whole entries, in order).** As long as the stream does not go stale, and however flushing and closing it go: the file
holds what it held before and then the bytes of the entries in the order of the writes, without anything between or inside them, up
to some point. -/
theorem C145_order (sep old : List B) (reopen : Bool) (threads : Nat) (sched : List (Tid × Act B))
    (hs : ∀ x ∈ sched, NotStale x.2) :
    (run (init sep reopen threads old) sched).file <+: old ++ bytes (run (init sep reopen threads old) sched).wrote :=
  (run_induction one_step sched _ (one_init sep old reopen threads) hs).pre

example : (∀ x ∈ shared, NotStale x.2) ∧ (run (init [10] true 2 [7]) shared).file = [7, 1, 10, 2, 10] ∧
    (run (init [10] true 2 [7]) shared).wrote = [(0, [1, 10]), (1, [2, 10]), (0, [3, 10])] :=
  ⟨by simp [shared, go, NotStale], by decide +kernel, by decide +kernel⟩

/-! ## Who is back from `emit_entry` has its entries in the file -/

/-- A thread about to flush stream 0. -/
def Flushing : Pc B → Prop
  | .loadFlush _ => True
  | .flush h _ => h = some 0
  | _ => False

/-- A thread that has seen that the stream was closed. -/
def SawNone : Pc B → Prop
  | .flush none _ | .setNone => True
  | _ => False

structure Dur (old : List B) (s : Sys B) : Prop where
  one : One old s
  gone : s.closed 0 = true → s.file = old ++ bytes s.wrote
  none : s.cur = none → s.closed 0 = true
  pcs : ∀ t, SawNone (s.pc t) → s.closed 0 = true
  dur : s.closed 0 = false → ∃ k, k ≤ s.wrote.length ∧ old ++ bytes (s.wrote.take k) <+: s.file ∧
    ∀ x ∈ s.wrote.drop k, Flushing (s.pc x.1)

theorem saw_move {s : Sys B} {t : Tid} {p : Pc B} {c : Prop} (h : ∀ u, SawNone (s.pc u) → c) (hp : SawNone p → c) :
    ∀ u, SawNone (Function.update s.pc t p u) → c := by
  intro u
  by_cases hu : u = t
  · subst hu; rwa [Function.update_self]
  · rw [Function.update_of_ne hu]; exact h u

theorem dur_at {old : List B} {s : Sys B} (h : Dur old s) (t : Tid) {p : Pc B} (hp : Okay p)
    (hs : SawNone p → s.closed 0 = true) (hf : s.closed 0 = false → Flushing (s.pc t) → Flushing p) : Dur old (s.at t p) := by
  refine ⟨one_at h.one t hp, h.gone, h.none, saw_move h.pcs hs, ?_⟩
  intro ho
  obtain ⟨k, h1, h2, h3⟩ := h.dur ho
  refine ⟨k, h1, h2, ?_⟩
  intro x hx
  have := h3 x hx
  show Flushing (Function.update s.pc t p x.1)
  by_cases hu : x.1 = t
  · rw [hu, Function.update_self]; rw [hu] at this; exact hf ho this
  · rwa [Function.update_of_ne hu]

/-- All that was written is in the file. -/
theorem dur_all {old : List B} {s : Sys B} (h : One old s) (hf : s.file = old ++ bytes s.wrote)
    (hn : s.cur = none → s.closed 0 = true) (hp : ∀ t, SawNone (s.pc t) → s.closed 0 = true) : Dur old s :=
  ⟨h, fun _ => hf, hn, hp, fun _ => ⟨s.wrote.length, le_refl _, by rw [List.take_length, hf], by simp⟩⟩

theorem dur_shut {old : List B} {s : Sys B} (h : Dur old s) (ho : s.closed 0 = false) : Dur old (s.shut 0 .ok) :=
  dur_all (one_shut h.one ho _) (by simpa [Sys.shut, Sys.out, through] using h.one.opn ho) (by simp) (by simp)

theorem dur_release {old : List B} {s : Sys B} (h : Dur old s) {k : Option Nat} (hk : k = none ∨ k = some 0) :
    Dur old (s.release k .ok) := by
  rcases hk with rfl | rfl
  · exact h
  · simp only [Sys.release]
    split
    · exact h
    · rename_i hn
      exact dur_shut h (by simpa using fun hc => hn (Or.inr (Or.inr hc)))

/-- Flushing, by a thread that then goes on anywhere. -/
theorem dur_flush {old : List B} {s : Sys B} (h : Dur old s) (ho : s.closed 0 = false) (t : Tid) {p : Pc B} (hp : Okay p)
    (hs : ¬ SawNone p) : Dur old ((s.out 0 none).at t p) := by
  refine dur_all (one_at (one_out h.one ho none) t hp) ?_ (by simpa using h.none) ?_
  · simpa [Sys.out] using h.one.opn ho
  · exact saw_move (by simpa using h.pcs) (fun h => (hs h).elim)

/-- A write, by a thread that then goes on to flush. -/
theorem dur_write {old : List B} {s : Sys B} (h : Dur old s) (ho : s.closed 0 = false) (t : Tid) (d : List B) (n : Option Nat) :
    Dur old ((({ s with buf := Function.update s.buf 0 (s.buf 0 ++ d), wrote := s.wrote ++ [(t, d)] }.out 0 n).at t
      (.loadFlush false))) := by
  refine ⟨one_at (one_out (one_write h.one ho t d) ho n) t (by simp [Okay]), ?_, by simpa using h.none,
    saw_move (by simpa using h.pcs) (by simp [SawNone]), ?_⟩
  · intro hc; simp [ho] at hc
  · intro _
    obtain ⟨k, h1, h2, h3⟩ := h.dur ho
    refine ⟨k, by simp; omega, ?_, ?_⟩
    · simp only [at_wrote, out_wrote, List.take_append_of_le_length h1]
      exact h2.trans (out_grows { s with buf := Function.update s.buf 0 (s.buf 0 ++ d), wrote := s.wrote ++ [(t, d)] } 0 n)
    · intro x hx
      simp only [at_wrote, out_wrote, List.drop_append_of_le_length h1, List.mem_append, List.mem_singleton] at hx
      simp only [at_pc, out_pc]
      by_cases hu : x.1 = t
      · rw [hu, Function.update_self]; simp [Flushing]
      · rw [Function.update_of_ne hu]
        rcases hx with hx | hx
        · exact h3 x hx
        · exact absurd (by rw [hx]) hu

theorem dur_step {old : List B} (s : Sys B) (t : Tid) (a : Act B) (hI : Dur old s) (ha : NotStale a ∧ FlushesOk a) :
    Dur old (step s t a) := by
  unfold step
  split
  · exact hI
  cases a with
  | emit e =>
    cases hp : s.pc t with
    | idle =>
      have h := dur_at hI t (p := .load (if s.sep = [] then e else e ++ s.sep) false) (by simp [Okay]) (by simp [SawNone])
        (by simp [hp, Flushing])
      exact ⟨⟨h.one.cur, h.one.pcs, h.one.opn, h.one.pre⟩, h.gone, h.none, h.pcs, h.dur⟩
    | _ => exact hI
  | flush =>
    cases hp : s.pc t with
    | idle => exact dur_at hI t (by simp [Okay]) (by simp [SawNone]) (by simp [Flushing])
    | _ => exact hI
  | close =>
    cases hp : s.pc t with
    | idle => simp only; split; exacts [hI, dur_at hI t (by simp [Okay]) (by simp [SawNone]) (by simp [Flushing])]
    | _ => exact hI
  | go w f o =>
    have hok := hI.one.pcs t
    have hf : f = .ok := by
      cases f with
      | ok => rfl
      | err n => exact ha.2.elim
    subst hf
    cases hp : s.pc t with
    | idle => exact hI
    | load d r => exact dur_at hI t hI.one.cur (by simp [SawNone]) (by simp [hp, Flushing])
    | write h d r =>
      have hfail : Dur old (s.failed t d r false) := by
        obtain ⟨p, h1, h2⟩ := failed_eq s t d r false
        rw [h1]
        rcases h2 with rfl | ⟨_, h3⟩
        · exact dur_at hI t (by simp [Okay]) (by simp [SawNone]) (by simp [hp, Flushing])
        · simp at h3
      rw [hp] at hok
      rcases hok with rfl | rfl
      · exact hfail
      · simp only
        split
        · exact hfail
        · rename_i hc
          have hc : s.closed 0 = false := by simpa using hc
          cases w with
          | err st =>
            cases st with
            | true => exact ha.1.elim
            | false => exact dur_release hfail (Or.inr rfl)
          | ok n => exact dur_release (dur_write hI hc t d _) (Or.inr rfl)
          | all => exact dur_release (dur_write hI hc t d _) (Or.inr rfl)
    | loadFlush c =>
      refine dur_at hI t hI.one.cur ?_ ?_
      · intro h
        cases hcur : s.cur with
        | none => exact hI.none hcur
        | some k => simp [hcur, SawNone] at h
      · intro ho _
        rcases hI.one.cur with h | h
        · simp [hI.none h] at ho
        · simp [h, Flushing]
    | flush h c =>
      rw [hp] at hok
      have hq : Okay (if c then (.loadClose : Pc B) else .idle) := by cases c <;> simp [Okay]
      have hn : ¬ SawNone (if c then (.loadClose : Pc B) else .idle) := by cases c <;> simp [SawNone]
      rcases hok with rfl | rfl
      · exact dur_release (dur_at hI t hq (fun h => (hn h).elim) (by simp [hp, Flushing])) (Or.inl rfl)
      · refine dur_release ?_ (Or.inr rfl)
        show Dur old ((if s.closed 0 = true then s else s.out 0 none).at t _)
        split
        · rename_i hc
          exact dur_at hI t hq (fun h => (hn h).elim) (by simp [hc])
        · rename_i hc
          exact dur_flush hI (by simpa using hc) t hq hn
    | opening d => rw [hp] at hok; exact hok.elim
    | assign h d => rw [hp] at hok; exact hok.elim
    | loadClose =>
      simp only
      rcases hI.one.cur with h | h <;> rw [h]
      · exact dur_at hI t (by simp [Okay]) (by simp [SawNone]) (by simp [hp, Flushing])
      · exact dur_at hI t (by simp [Okay]) (by simp [SawNone]) (by simp [hp, Flushing])
    | close h =>
      rw [hp] at hok
      have : h = 0 := hok
      subst this
      simp only
      split
      · rename_i hc
        exact dur_at hI t (by simp [Okay]) (fun _ => hc) (by simp [hp, Flushing])
      · rename_i hc
        exact dur_at (dur_shut hI (by simpa using hc)) t (by simp [Okay]) (by simp) (by simp)
    | setNone =>
      refine dur_release ?_ hI.one.cur
      have hc : s.closed 0 = true := hI.pcs t (by simp [hp, SawNone])
      refine dur_all ⟨Or.inl rfl, okay_move hI.one.pcs (by simp [Okay]), hI.one.opn, hI.one.pre⟩ (hI.gone hc) (fun _ => hc)
        (fun _ _ => hc)

theorem dur_init (sep old : List B) (reopen : Bool) (threads : Nat) : Dur old (init sep reopen threads old) :=
  dur_all (one_init sep old reopen threads) (by simp [init, bytes]) (by simp [init]) (by simp [init, SawNone])

/-- **C145 (in the file on return).** As long as the stream does not go stale and flushing it works: everything that was written is
in the file, in the order of the writes, up to some entry; and the threads of all entries after it are still inside `emit_entry` or
`flush`. -/
theorem C145_durable (sep old : List B) (reopen : Bool) (threads : Nat) (sched : List (Tid × Act B))
    (hs : ∀ x ∈ sched, NotStale x.2 ∧ FlushesOk x.2) :
    ∃ k, old ++ bytes ((run (init sep reopen threads old) sched).wrote.take k) <+: (run (init sep reopen threads old) sched).file ∧
      ∀ x ∈ (run (init sep reopen threads old) sched).wrote.drop k, (run (init sep reopen threads old) sched).pc x.1 ≠ .idle := by
  have h := run_induction dur_step sched _ (dur_init sep old reopen threads) hs
  generalize run (init sep reopen threads old) sched = s at h ⊢
  by_cases hc : s.closed 0 = true
  · exact ⟨s.wrote.length, by rw [List.take_length, h.gone hc], by simp⟩
  · obtain ⟨k, _, h2, h3⟩ := h.dur (by simpa using hc)
    refine ⟨k, h2, ?_⟩
    intro x hx he
    have := h3 x hx
    rw [he] at this
    exact this

example : ∀ x ∈ shared, NotStale x.2 ∧ FlushesOk x.2 := by simp [shared, go, NotStale, FlushesOk]

/-- **C145 (complete).** When no thread is inside the emitter, the file holds exactly what was written. -/
theorem C145_quiet (sep old : List B) (reopen : Bool) (threads : Nat) (sched : List (Tid × Act B))
    (hs : ∀ x ∈ sched, NotStale x.2 ∧ FlushesOk x.2) (hq : ∀ t, (run (init sep reopen threads old) sched).pc t = .idle) :
    (run (init sep reopen threads old) sched).file = old ++ bytes (run (init sep reopen threads old) sched).wrote := by
  obtain ⟨k, h1, h2⟩ := C145_durable sep old reopen threads sched hs
  have h0 := C145_order sep old reopen threads sched (fun x hx => (hs x hx).1)
  generalize run (init sep reopen threads old) sched = s at h0 h1 h2 hq ⊢
  have hd : s.wrote.drop k = [] := List.eq_nil_iff_forall_not_mem.mpr (fun x hx => h2 x hx (hq x.1))
  have ht : s.wrote.take k = s.wrote := by
    have := List.take_append_drop k s.wrote
    rwa [hd, List.append_nil] at this
  rw [ht] at h1
  exact List.IsPrefix.eq_of_length_le h0 (List.IsPrefix.length_le h1)

example : (∀ x ∈ shared ++ finish, NotStale x.2 ∧ FlushesOk x.2) ∧
    (∀ t, (run (init [10] true 2 [7]) (shared ++ finish)).pc t = .idle) ∧
    (run (init [10] true 2 [7]) (shared ++ finish)).file = [7, 1, 10, 2, 10, 3, 10] := by
  refine ⟨by simp [shared, finish, go, NotStale, FlushesOk], ?_, by decide +kernel⟩
  exact quiet_of _ _ (fun _ _ => rfl) (by decide +kernel)

/-! ## Every call lands -/

/-- A thread works with stream 0 and does not close it. -/
def Fine : Pc B → Prop
  | .idle | .load _ _ | .loadFlush false | .flush (some 0) false | .write (some 0) _ _ => True
  | _ => False

structure All (s : Sys B) : Prop where
  cur : s.cur = some 0
  opn : s.closed 0 = false
  pcs : ∀ t, Fine (s.pc t)
  all : ∀ t, of t s.wrote ++ pending (s.pc t) = of t s.called

theorem all_move {s s' : Sys B} (hI : All s) (t : Tid) {p : Pc B} (hp : Fine p) (hd : pending p = pending (s.pc t))
    (hcur : s'.cur = s.cur) (hc : s'.closed = s.closed) (hpc : s'.pc = Function.update s.pc t p) (hw : s'.wrote = s.wrote)
    (hcl : s'.called = s.called) : All s' := by
  refine ⟨by rw [hcur, hI.cur], by rw [hc, hI.opn], ?_, ?_⟩
  · intro u
    rw [hpc]
    by_cases hu : u = t
    · subst hu; rwa [Function.update_self]
    · rw [Function.update_of_ne hu]; exact hI.pcs u
  · intro u
    rw [hpc, hw, hcl]
    by_cases hu : u = t
    · subst hu; rw [Function.update_self, hd]; exact hI.all u
    · rw [Function.update_of_ne hu]; exact hI.all u

theorem all_release {s : Sys B} (h : s.cur = some 0) (f : FlushOut) : s.release (some 0) f = s := by
  simp [Sys.release, h]

theorem all_write {s : Sys B} (hI : All s) (t : Tid) (d : List B) (hd : pending (s.pc t) = [d]) (n : Option Nat) :
    All (({ s with buf := Function.update s.buf 0 (s.buf 0 ++ d), wrote := s.wrote ++ [(t, d)] }.out 0 n).at t
      (.loadFlush false)) := by
  refine ⟨by simp [hI.cur], by simp [hI.opn], ?_, ?_⟩
  · intro u
    by_cases hu : u = t
    · subst hu; simp [Fine]
    · simp only [at_pc, out_pc, Function.update_of_ne hu]; exact hI.pcs u
  · intro u
    have h := hI.all u
    simp only [at_pc, at_wrote, at_called, out_pc, out_wrote, out_called, of_append]
    by_cases hu : u = t
    · subst hu; rw [Function.update_self]; rw [hd] at h; rw [← h]; simp [of, pending]
    · rw [Function.update_of_ne hu]
      have : of u [(t, d)] = [] := by simp [of, Ne.symm hu]
      rw [this]; simpa using h

theorem all_step (s : Sys B) (t : Tid) (a : Act B) (hI : All s) (ha : Lands a) : All (step s t a) := by
  unfold step
  split
  · exact hI
  cases a with
  | emit e =>
    cases hp : s.pc t with
    | idle =>
      refine ⟨hI.cur, hI.opn, ?_, ?_⟩
      · intro u
        by_cases hu : u = t
        · subst hu; simp [Fine]
        · simp only [at_pc, Function.update_of_ne hu]; exact hI.pcs u
      · intro u
        have h := hI.all u
        simp only [at_pc, at_wrote, of_append]
        by_cases hu : u = t
        · subst hu; rw [Function.update_self]; rw [hp] at h; simp only [pending, List.append_nil] at h
          rw [h]; simp [of, pending]
        · rw [Function.update_of_ne hu]
          have : ∀ d : List B, of u [(t, d)] = [] := by intro d; simp [of, Ne.symm hu]
          rw [this]; simpa using h
    | _ => exact hI
  | flush =>
    cases hp : s.pc t with
    | idle => exact all_move hI t (p := .loadFlush false) (by simp [Fine]) (by simp [hp, pending]) rfl rfl rfl rfl rfl
    | _ => exact hI
  | close => exact ha.elim
  | go w f o =>
    have hok := hI.pcs t
    cases hp : s.pc t with
    | idle => exact hI
    | load d r =>
      exact all_move hI t (p := .write s.cur d r) (by simp [Fine, hI.cur]) (by simp [hp, pending]) rfl rfl rfl rfl rfl
    | write h d r =>
      rw [hp] at hok
      match h, hok with
      | some 0, _ =>
        simp only [hI.opn]
        cases w with
        | err st => exact ha.elim
        | ok n => have := all_write hI t d (by simp [hp, pending]) (some n); simpa [all_release this.cur] using this
        | all => have := all_write hI t d (by simp [hp, pending]) none; simpa [all_release this.cur] using this
    | loadFlush c =>
      rw [hp] at hok
      match c, hok with
      | false, _ =>
        exact all_move hI t (p := .flush s.cur false) (by simp [Fine, hI.cur]) (by simp [hp, pending]) rfl rfl rfl rfl rfl
    | flush h c =>
      rw [hp] at hok
      match h, c, hok with
      | some 0, false, _ =>
        have : All ((s.out 0 (through f)).at t .idle) :=
          all_move hI t (p := .idle) (by simp [Fine]) (by simp [hp, pending]) (by simp) (by simp) (by simp) (by simp) (by simp)
        simpa [hI.opn, all_release this.cur] using this
    | opening d => rw [hp] at hok; exact hok.elim
    | assign h d => rw [hp] at hok; exact hok.elim
    | loadClose => rw [hp] at hok; exact hok.elim
    | close h => rw [hp] at hok; exact hok.elim
    | setNone => rw [hp] at hok; exact hok.elim

/-- **C145 (every entry).** If no write fails and nobody closes the emitter, the entries that were written by a thread that is back
from its calls are exactly those it emitted. -/
theorem C145_lands (sep old : List B) (reopen : Bool) (threads : Nat) (sched : List (Tid × Act B))
    (hs : ∀ x ∈ sched, Lands x.2) (t : Tid) (ht : (run (init sep reopen threads old) sched).pc t = .idle) :
    of t (run (init sep reopen threads old) sched).wrote = of t (run (init sep reopen threads old) sched).called := by
  have h := run_induction all_step sched (init sep reopen threads old)
    ⟨rfl, rfl, by intro t; simp [init, Fine], by intro t; simp [init, of, pending]⟩ hs
  have := h.all t
  rw [ht] at this
  simpa [pending] using this

example : (∀ x ∈ shared ++ go 1 2 ++ go 0 2, Lands x.2) ∧
    (run (init [10] true 2 [7]) (shared ++ go 1 2 ++ go 0 2)).pc 0 = .idle ∧
    of 0 (run (init [10] true 2 [7]) (shared ++ go 1 2 ++ go 0 2)).called = [[1, 10], [3, 10]] :=
  ⟨by simp [shared, go, Lands], by decide +kernel, by decide +kernel⟩

/-! ## Stale streams -/

/-- A thread about to flush the stream that is then `h`. -/
def FlushingOf (h : Nat) : Pc B → Prop
  | .loadFlush _ => True
  | .flush k _ => k = some h
  | _ => False

/-- The entries in the file and in the buffers. -/
structure Content (old : List B) (s : Sys B) (es : List (Tid × List B)) (bes : Nat → List (Tid × List B)) : Prop where
  file : s.file = old ++ bytes es
  buf : ∀ h, s.buf h = bytes (bes h)
  sum : (es : Multiset (Tid × List B)) + ∑ h ∈ Finset.range s.next, (bes h : Multiset (Tid × List B)) = s.wrote

/-- Who refers to which stream: one with something in its buffer is open and referred to (unless it is `ex`, about to be released),
and if it is the current one, some thread is about to flush it. -/
structure Refs (ex : Option Nat) (s : Sys B) (bes : Nat → List (Tid × List B)) : Prop where
  cur : ∀ h, s.cur = some h → h < s.next
  pcs : ∀ u h, (s.pc u).holds h = true → h < s.next
  far : ∀ h, s.next ≤ h → bes h = []
  opn : ∀ h, bes h ≠ [] → s.closed h = false
  ref : ∀ h, ex ≠ some h → bes h ≠ [] → s.cur = some h ∨ ∃ u < s.threads, (s.pc u).holds h = true
  will : ∀ h, s.cur = some h → bes h ≠ [] → ∃ u < s.threads, FlushingOf h (s.pc u)
  fresh : ∀ u n d, s.pc u = .assign n d → s.cur ≠ some n ∧ bes n = [] ∧ ∀ v ≠ u, (s.pc v).holds n = false

structure Inv (old : List B) (ex : Option Nat) (s : Sys B) (es : List (Tid × List B)) (bes : Nat → List (Tid × List B)) : Prop where
  con : Content old s es bes
  refs : Refs ex s bes

theorem sum_update (n h : Nat) (hh : h < n) (bes : Nat → List (Tid × List B)) (x : List (Tid × List B)) :
    ∑ k ∈ Finset.range n, (Function.update bes h x k : Multiset (Tid × List B)) + (bes h : Multiset (Tid × List B)) =
      ∑ k ∈ Finset.range n, (bes k : Multiset (Tid × List B)) + (x : Multiset (Tid × List B)) := by
  have hm : h ∈ Finset.range n := Finset.mem_range.mpr hh
  rw [← Finset.add_sum_erase _ _ hm, ← Finset.add_sum_erase (Finset.range n) (fun k => (bes k : Multiset (Tid × List B))) hm]
  have : ∑ k ∈ (Finset.range n).erase h, (Function.update bes h x k : Multiset (Tid × List B)) =
      ∑ k ∈ (Finset.range n).erase h, (bes k : Multiset (Tid × List B)) := by
    apply Finset.sum_congr rfl
    intro k hk
    rw [Function.update_of_ne (Finset.ne_of_mem_erase hk)]
  rw [this, Function.update_self]
  ac_rfl

theorem content_out {old : List B} {s : Sys B} {es bes} (h : Content old s es bes) {k : Nat} (hk : k < s.next) :
    Content old (s.out k none) (es ++ bes k) (Function.update bes k []) := by
  refine ⟨?_, ?_, ?_⟩
  · simp [Sys.out, h.file, h.buf, bytes_append]
  · intro j
    simp only [Sys.out]
    by_cases hj : j = k
    · subst hj; simp [bytes]
    · rw [Function.update_of_ne hj, Function.update_of_ne hj]; exact h.buf j
  · rw [out_next, out_wrote, ← h.sum, ← Multiset.coe_add, add_assoc]
    congr 1
    have := sum_update s.next k hk bes []
    simp only [Multiset.coe_nil, add_zero] at this
    rw [← this]; ac_rfl

theorem content_write {old : List B} {s : Sys B} {es bes} (h : Content old s es bes) {k : Nat} (hk : k < s.next) (t : Tid)
    (d : List B) : Content old { s with buf := Function.update s.buf k (s.buf k ++ d), wrote := s.wrote ++ [(t, d)] } es
      (Function.update bes k (bes k ++ [(t, d)])) := by
  refine ⟨h.file, ?_, ?_⟩
  · intro j
    by_cases hj : j = k
    · subst hj; simp [h.buf, bytes_append, bytes_one]
    · simp only [Function.update_of_ne hj]; exact h.buf j
  · have := sum_update s.next k hk bes (bes k ++ [(t, d)])
    rw [← Multiset.coe_add, ← add_assoc, add_right_comm] at this
    have := add_right_cancel this
    simp only
    rw [this, ← add_assoc, h.sum, Multiset.coe_add]

/-- Emptying a buffer keeps the references right. -/
theorem refs_empty {ex : Option Nat} {s s' : Sys B} {bes} (h : Refs ex s bes) (k : Nat) (hc : s'.cur = s.cur) (hp : s'.pc = s.pc)
    (hn : s'.next = s.next) (ht : s'.threads = s.threads) (hcl : ∀ j ≠ k, s'.closed j = s.closed j) :
    Refs ex s' (Function.update bes k []) := by
  have hne : ∀ j, Function.update bes k [] j ≠ [] → j ≠ k ∧ bes j ≠ [] := by
    intro j hj
    by_cases he : j = k
    · subst he; simp at hj
    · rw [Function.update_of_ne he] at hj; exact ⟨he, hj⟩
  refine ⟨by rw [hc, hn]; exact h.cur, by rw [hp, hn]; exact h.pcs, ?_, ?_, ?_, ?_, ?_⟩
  · intro j hj
    by_contra hx
    rw [hn] at hj
    exact (hne j hx).2 (h.far j hj)
  · intro j hj
    rw [hcl j (hne j hj).1]; exact h.opn j (hne j hj).2
  · intro j hx hj
    rw [hc, hp, ht]; exact h.ref j hx (hne j hj).2
  · intro j hx hj
    rw [hp, ht]; rw [hc] at hx; exact h.will j hx (hne j hj).2
  · intro u n d hu
    rw [hp] at hu
    obtain ⟨h1, h2, h3⟩ := h.fresh u n d hu
    refine ⟨by rw [hc]; exact h1, ?_, by rw [hp]; exact h3⟩
    by_contra hx
    exact (hne n hx).2 h2

theorem inv_out {old : List B} {ex : Option Nat} {s : Sys B} {es bes} (h : Inv old ex s es bes) {k : Nat} (hk : k < s.next) :
    Inv old ex (s.out k none) (es ++ bes k) (Function.update bes k []) :=
  ⟨content_out h.con hk, refs_empty h.refs k (by simp) (by simp) (by simp) (by simp) (by simp)⟩

theorem inv_shut {old : List B} {ex : Option Nat} {s : Sys B} {es bes} (h : Inv old ex s es bes) {k : Nat} (hk : k < s.next) :
    Inv old ex (s.shut k .ok) (es ++ bes k) (Function.update bes k []) := by
  refine ⟨?_, refs_empty h.refs k (by simp) (by simp) (by simp) (by simp) ?_⟩
  · have := content_out h.con hk
    exact ⟨this.file, by simpa [Sys.shut, Sys.out, through] using this.buf, this.sum⟩
  · intro j hj; simp [hj]

theorem inv_release {old : List B} {k : Option Nat} {s : Sys B} {es bes} (h : Inv old k s es bes)
    (hk : ∀ j, k = some j → j < s.next) : ∃ es' bes', Inv old none (s.release k .ok) es' bes' := by
  have key : ∀ {s' : Sys B} {bes'}, Refs k s' bes' → (∀ j, k = some j → bes' j ≠ [] → s'.cur = some j ∨
      ∃ u < s'.threads, (s'.pc u).holds j = true) → Refs none s' bes' := by
    intro s' bes' h1 h2
    refine ⟨h1.cur, h1.pcs, h1.far, h1.opn, ?_, h1.will, h1.fresh⟩
    intro j _ hj
    by_cases he : k = some j
    · exact h2 j he hj
    · exact h1.ref j he hj
  cases k with
  | none => exact ⟨es, bes, h⟩
  | some k =>
    simp only [Sys.release]
    split
    · rename_i hc
      refine ⟨es, bes, h.con, key h.refs ?_⟩
      intro j hj hb
      obtain rfl : k = j := by simpa using hj
      rcases hc with hc | hc | hc
      · exact Or.inl hc
      · right
        simp only [List.any_eq_true, List.mem_range] at hc
        exact hc
      · rw [h.refs.opn k hb] at hc; simp at hc
    · have := inv_shut h (hk k rfl)
      refine ⟨_, _, this.con, key this.refs ?_⟩
      intro j hj hb
      obtain rfl : k = j := by simpa using hj
      simp at hb

/-- Moving thread `t` on. -/
theorem inv_at {old : List B} {ex : Option Nat} {s : Sys B} {es bes} (h : Inv old none s es bes) (t : Tid) (ht : t < s.threads)
    (p : Pc B) (hb : ∀ k, p.holds k = true → k < s.next)
    (hf : ∀ u ≠ t, ∀ n d, s.pc u = .assign n d → p.holds n = false)
    (ha : ∀ n d, p = .assign n d → s.cur ≠ some n ∧ bes n = [] ∧ ∀ v ≠ t, (s.pc v).holds n = false)
    (hw : ∀ k, s.cur = some k → bes k ≠ [] → FlushingOf k (s.pc t) → FlushingOf k p)
    (hx : ∀ k, (s.pc t).holds k = true → p.holds k = true ∨ ex = some k ∨ bes k = []) :
    Inv old ex (s.at t p) es bes := by
  refine ⟨⟨h.con.file, h.con.buf, h.con.sum⟩, h.refs.cur, ?_, h.refs.far, h.refs.opn, ?_, ?_, ?_⟩
  · intro u k hk
    by_cases hu : u = t
    · subst hu; rw [at_pc, Function.update_self] at hk; exact hb k hk
    · rw [at_pc, Function.update_of_ne hu] at hk; exact h.refs.pcs u k hk
  · intro k hk hne
    rcases h.refs.ref k (by simp) hne with h1 | ⟨u, hu, h1⟩
    · exact Or.inl h1
    · by_cases he : u = t
      · subst he
        rcases hx k h1 with h2 | h2 | h2
        · exact Or.inr ⟨u, hu, by rw [at_pc, Function.update_self]; exact h2⟩
        · exact (hk h2).elim
        · exact (hne h2).elim
      · exact Or.inr ⟨u, hu, by rw [at_pc, Function.update_of_ne he]; exact h1⟩
  · intro k hk hne
    obtain ⟨u, hu, h1⟩ := h.refs.will k hk hne
    refine ⟨u, hu, ?_⟩
    by_cases he : u = t
    · subst he; rw [at_pc, Function.update_self]; exact hw k hk hne h1
    · rw [at_pc, Function.update_of_ne he]; exact h1
  · intro u n d hu
    rw [at_pc] at hu ⊢
    by_cases he : u = t
    · subst he
      rw [Function.update_self] at hu
      obtain ⟨h1, h2, h3⟩ := ha n d hu
      exact ⟨h1, h2, fun v hv => by rw [Function.update_of_ne hv]; exact h3 v hv⟩
    · rw [Function.update_of_ne he] at hu
      obtain ⟨h1, h2, h3⟩ := h.refs.fresh u n d hu
      refine ⟨h1, h2, ?_⟩
      intro v hv
      by_cases hvt : v = t
      · subst hvt; rw [Function.update_self]; exact hf u he n d hu
      · rw [Function.update_of_ne hvt]; exact h3 v hv

/-- Moving thread `t` on to where it holds nothing and is not about to flush, from where it was not about to flush. -/
theorem inv_at_plain {old : List B} {ex : Option Nat} {s : Sys B} {es bes} (h : Inv old none s es bes) (t : Tid)
    (ht : t < s.threads) (p : Pc B) (hp : ∀ k, p.holds k = false)
    (hw : ∀ k, s.cur = some k → bes k ≠ [] → FlushingOf k (s.pc t) → FlushingOf k p)
    (hx : ∀ k, (s.pc t).holds k = true → ex = some k ∨ bes k = []) : Inv old ex (s.at t p) es bes := by
  refine inv_at h t ht p (by simp [hp]) (by simp [hp]) ?_ hw (fun k hk => Or.inr (hx k hk))
  rintro n d rfl
  have := hp n
  simp [Pc.holds] at this

theorem inv_next {old : List B} {ex : Option Nat} {s : Sys B} {es bes} (h : Inv old ex s es bes) :
    Inv old ex { s with next := s.next + 1 } es bes := by
  refine ⟨⟨h.con.file, h.con.buf, ?_⟩, fun k hk => Nat.lt_succ_of_lt (h.refs.cur k hk),
    fun u k hk => Nat.lt_succ_of_lt (h.refs.pcs u k hk), fun k hk => h.refs.far k (by have : s.next + 1 ≤ k := hk; omega),
    h.refs.opn, h.refs.ref, h.refs.will, h.refs.fresh⟩
  simp only [Finset.sum_range_succ, h.refs.far s.next (le_refl _), Multiset.coe_nil, add_zero]
  exact h.con.sum

theorem out_zero (s : Sys B) (k : Nat) : s.out k (some 0) = s := by
  simp [Sys.out]

/-- A write of thread `t` to the stream it looked up, going on to flush. -/
theorem inv_write {old : List B} {s : Sys B} {es bes} (h : Inv old none s es bes) (t : Tid) (ht : t < s.threads) {k : Nat}
    {d : List B} {r : Bool} (hp : s.pc t = .write (some k) d r) (ho : s.closed k = false) :
    Inv old (some k) ({ s with buf := Function.update s.buf k (s.buf k ++ d), wrote := s.wrote ++ [(t, d)] }.at t
      (.loadFlush false)) es (Function.update bes k (bes k ++ [(t, d)])) := by
  have hk : k < s.next := h.refs.pcs t k (by simp [hp, Pc.holds])
  have hc := content_write h.con hk t d
  have hof : ∀ j ≠ k, Function.update bes k (bes k ++ [(t, d)]) j = bes j := fun j hj => Function.update_of_ne hj _ _
  refine ⟨⟨hc.file, hc.buf, hc.sum⟩, h.refs.cur, ?_, ?_, ?_, ?_, ?_, ?_⟩
  · intro u j hj
    rw [at_pc] at hj
    by_cases hu : u = t
    · subst hu; rw [Function.update_self] at hj; simp [Pc.holds] at hj
    · rw [Function.update_of_ne hu] at hj; exact h.refs.pcs u j hj
  · intro j hj
    have hj : s.next ≤ j := hj
    rw [hof j (by omega)]; exact h.refs.far j hj
  · intro j hj
    by_cases he : j = k
    · subst he; exact ho
    · rw [hof j he] at hj; exact h.refs.opn j hj
  · intro j hx hj
    have he : j ≠ k := fun e => hx (by rw [e])
    rw [hof j he] at hj
    rcases h.refs.ref j (by simp) hj with h1 | ⟨u, hu, h1⟩
    · exact Or.inl h1
    · refine Or.inr ⟨u, hu, ?_⟩
      by_cases hut : u = t
      · subst hut; rw [hp] at h1; simp [Pc.holds] at h1; exact (he h1.symm).elim
      · rw [at_pc, Function.update_of_ne hut]; exact h1
  · intro j _ _
    exact ⟨t, ht, by simp [FlushingOf]⟩
  · intro u n e hu
    rw [at_pc] at hu ⊢
    by_cases hut : u = t
    · subst hut; simp at hu
    · rw [Function.update_of_ne hut] at hu
      obtain ⟨h1, h2, h3⟩ := h.refs.fresh u n e hu
      have hne : n ≠ k := by
        rintro rfl
        have := h3 t (fun e => hut e.symm)
        simp [hp, Pc.holds] at this
      refine ⟨h1, by rw [hof n hne]; exact h2, ?_⟩
      intro v hv
      by_cases hvt : v = t
      · subst hvt; simp [Pc.holds]
      · rw [Function.update_of_ne hvt]; exact h3 v hv

/-- The new stream is stored. -/
theorem inv_assign {old : List B} {s : Sys B} {es bes} (h : Inv old none s es bes) (t : Tid) {n : Nat} {d : List B}
    (hp : s.pc t = .assign n d) : Inv old s.cur { s.at t (.load d true) with cur := some n } es bes := by
  obtain ⟨f1, f2, f3⟩ := h.refs.fresh t n d hp
  refine ⟨⟨h.con.file, h.con.buf, h.con.sum⟩, ?_, ?_, h.refs.far, h.refs.opn, ?_, ?_, ?_⟩
  · intro k hk
    obtain rfl : n = k := by simpa using hk
    exact h.refs.pcs t n (by simp [hp, Pc.holds])
  · intro u j hj
    simp only [at_pc] at hj
    by_cases hu : u = t
    · subst hu; rw [Function.update_self] at hj; simp [Pc.holds] at hj
    · rw [Function.update_of_ne hu] at hj; exact h.refs.pcs u j hj
  · intro j hx hj
    rcases h.refs.ref j (by simp) hj with h1 | ⟨u, hu, h1⟩
    · exact (hx h1).elim
    · refine Or.inr ⟨u, hu, ?_⟩
      by_cases hut : u = t
      · subst hut; rw [hp] at h1; simp only [Pc.holds, beq_iff_eq] at h1; subst h1; exact (hj f2).elim
      · simp only [at_pc]; rw [Function.update_of_ne hut]; exact h1
  · intro j hj hne
    obtain rfl : n = j := by simpa using hj
    exact (hne f2).elim
  · intro u m e hu
    simp only [at_pc] at hu ⊢
    by_cases hut : u = t
    · subst hut; simp at hu
    · rw [Function.update_of_ne hut] at hu
      obtain ⟨h1, h2, h3⟩ := h.refs.fresh u m e hu
      refine ⟨?_, h2, ?_⟩
      · intro he
        obtain rfl : n = m := by simpa using he
        have := f3 u hut
        simp [hu, Pc.holds] at this
      · intro v hv
        by_cases hvt : v = t
        · subst hvt; simp [Pc.holds]
        · rw [Function.update_of_ne hvt]; exact h3 v hv

/-- The emitter lets go of its stream. -/
theorem inv_none {old : List B} {s : Sys B} {es bes} (h : Inv old none s es bes) : Inv old s.cur { s with cur := none } es bes := by
  refine ⟨⟨h.con.file, h.con.buf, h.con.sum⟩, by simp, h.refs.pcs, h.refs.far, h.refs.opn, ?_, by simp, ?_⟩
  · intro j hx hj
    rcases h.refs.ref j (by simp) hj with h1 | h1
    · exact (hx h1).elim
    · exact Or.inr h1
  · intro u m e hu
    exact ⟨by simp, (h.refs.fresh u m e hu).2⟩

theorem inv_step {old : List B} (s : Sys B) (t : Tid) (a : Act B) (hI : ∃ es bes, Inv old none s es bes)
    (ha : FlushesOk a ∧ Whole a) : ∃ es bes, Inv old none (step s t a) es bes := by
  obtain ⟨es, bes, hI⟩ := hI
  unfold step
  split
  · exact ⟨es, bes, hI⟩
  rename_i ht
  have ht : t < s.threads := Nat.lt_of_not_le ht
  have hcl : ∀ k, s.closed k = true → bes k = [] := by
    intro k hk
    by_contra hb
    rw [hI.refs.opn k hb] at hk
    simp at hk
  cases a with
  | emit e =>
    cases hp : s.pc t with
    | idle =>
      have := inv_at_plain (ex := none) hI t ht (.load (if s.sep = [] then e else e ++ s.sep) false) (by simp [Pc.holds])
        (by simp [hp, FlushingOf]) (by simp [hp, Pc.holds])
      exact ⟨es, bes, ⟨this.con.file, this.con.buf, this.con.sum⟩, this.refs.cur, this.refs.pcs, this.refs.far, this.refs.opn,
        this.refs.ref, this.refs.will, this.refs.fresh⟩
    | _ => exact ⟨es, bes, hI⟩
  | flush =>
    cases hp : s.pc t with
    | idle =>
      exact ⟨es, bes, inv_at_plain hI t ht _ (by simp [Pc.holds]) (by simp [FlushingOf]) (by simp [hp, Pc.holds])⟩
    | _ => exact ⟨es, bes, hI⟩
  | close =>
    cases hp : s.pc t with
    | idle =>
      simp only
      split
      · exact ⟨es, bes, hI⟩
      · exact ⟨es, bes, inv_at_plain hI t ht _ (by simp [Pc.holds]) (by simp [FlushingOf]) (by simp [hp, Pc.holds])⟩
    | _ => exact ⟨es, bes, hI⟩
  | go w f o =>
    have hf : f = .ok := by
      cases f with
      | ok => rfl
      | err n => exact ha.1.elim
    subst hf
    cases hp : s.pc t with
    | idle => exact ⟨es, bes, hI⟩
    | load d r =>
      refine ⟨es, bes, inv_at hI t ht _ ?_ ?_ (by simp) (by simp [hp, FlushingOf]) (by simp [hp, Pc.holds])⟩
      · intro k hk
        cases hc : s.cur with
        | none => simp [hc, Pc.holds] at hk
        | some j => simp only [hc, Pc.holds, beq_iff_eq] at hk; subst hk; exact hI.refs.cur j hc
      · intro u _ n e hu
        have := (hI.refs.fresh u n e hu).1
        cases hc : s.cur with
        | none => simp [Pc.holds]
        | some j => rw [hc] at this; simpa [Pc.holds] using this
    | write h d r =>
      have hfail : ∀ ex st, (∀ k, h = some k → ex = some k ∨ bes k = []) → Inv old ex (s.failed t d r st) es bes := by
        intro ex st hx
        obtain ⟨p, h1, h2⟩ := failed_eq s t d r st
        rw [h1]
        have hx' : ∀ k, (s.pc t).holds k = true → ex = some k ∨ bes k = [] := by
          intro k hk
          cases h with
          | none => simp [hp, Pc.holds] at hk
          | some j => simp only [hp, Pc.holds, beq_iff_eq] at hk; subst hk; exact hx j rfl
        rcases h2 with rfl | ⟨rfl, -⟩
        · exact inv_at_plain hI t ht _ (by simp [Pc.holds]) (by simp [hp, FlushingOf]) hx'
        · exact inv_at_plain hI t ht _ (by simp [Pc.holds]) (by simp [hp, FlushingOf]) hx'
      cases h with
      | none => exact ⟨es, bes, hfail none false (by simp)⟩
      | some h =>
        have hk : h < s.next := hI.refs.pcs t h (by simp [hp, Pc.holds])
        simp only
        split
        · rename_i hc
          exact ⟨es, bes, hfail none false (by rintro k ⟨⟩; exact Or.inr (hcl h hc))⟩
        · rename_i hc
          have hc : s.closed h = false := by simpa using hc
          have hw := inv_write hI t ht hp hc
          cases w with
          | err st =>
            refine inv_release (hfail (some h) st (by rintro k ⟨⟩; exact Or.inl rfl)) ?_
            rintro j ⟨⟩
            obtain ⟨p, h1, -⟩ := failed_eq s t d r st
            rw [h1]; exact hk
          | ok n =>
            cases n with
            | succ n => exact ha.2.elim
            | zero =>
              simp only [out_zero]
              exact inv_release hw (by rintro j ⟨⟩; exact hk)
          | all =>
            exact inv_release (inv_out hw (k := h) hk) (by rintro j ⟨⟩; exact hk)
    | loadFlush c =>
      refine ⟨es, bes, inv_at hI t ht _ ?_ ?_ (by simp) ?_ (by simp [hp, Pc.holds])⟩
      · intro k hk
        cases hc : s.cur with
        | none => simp [hc, Pc.holds] at hk
        | some j => simp only [hc, Pc.holds, beq_iff_eq] at hk; subst hk; exact hI.refs.cur j hc
      · intro u _ n e hu
        have := (hI.refs.fresh u n e hu).1
        cases hc : s.cur with
        | none => simp [Pc.holds]
        | some j => rw [hc] at this; simpa [Pc.holds] using this
      · intro k hk _ _
        simp [FlushingOf, hk]
    | flush h c =>
      have hq : ∀ k, (if c then (.loadClose : Pc B) else .idle).holds k = false := by cases c <;> simp [Pc.holds]
      cases h with
      | none =>
        exact ⟨es, bes, inv_at_plain hI t ht _ hq (by simp [hp, FlushingOf]) (by simp [hp, Pc.holds])⟩
      | some h =>
        have hk : h < s.next := hI.refs.pcs t h (by simp [hp, Pc.holds])
        have hx : ∀ k, (s.pc t).holds k = true → some h = some k := by
          intro k hk; simpa [hp, Pc.holds] using hk
        simp only
        by_cases hc : s.closed h = true
        · rw [if_pos hc]
          refine inv_release (inv_at_plain hI t ht _ hq ?_ (fun k hk => Or.inl (hx k hk))) (by rintro j ⟨⟩; exact hk)
          intro k _ hb hF
          rw [hp] at hF
          obtain rfl : h = k := by simpa [FlushingOf] using hF
          exact (hb (hcl h hc)).elim
        · rw [if_neg hc]
          refine inv_release (inv_at_plain (inv_out hI hk) t (by simpa using ht) _ hq ?_ (fun k hk => Or.inl (hx k (by simpa using hk)))) (by rintro j ⟨⟩; simpa using hk)
          intro k _ hb hF
          rw [out_pc, hp] at hF
          obtain rfl : h = k := by simpa [FlushingOf] using hF
          simp at hb
    | opening d =>
      simp only
      split
      · have h1 := inv_next hI
        refine ⟨es, bes, inv_at h1 t ht (.assign s.next d) ?_ ?_ ?_ (by simp [hp, FlushingOf]) (by simp [hp, Pc.holds])⟩
        · intro k hk
          simp only [Pc.holds, beq_iff_eq] at hk
          subst hk; exact Nat.lt_succ_self _
        · intro u _ n e hu
          have := hI.refs.pcs u n (by rw [show s.pc u = _ from hu]; simp [Pc.holds])
          simp only [Pc.holds, beq_eq_false_iff_ne]; omega
        · intro n e he
          simp only [Pc.assign.injEq] at he
          obtain ⟨rfl, rfl⟩ := he
          refine ⟨fun hc => absurd (hI.refs.cur _ hc) (by omega), hI.refs.far _ (le_refl _), ?_⟩
          intro v _
          by_contra hv
          exact absurd (hI.refs.pcs v s.next (by simpa using hv)) (by omega)
      · exact ⟨es, bes, inv_at_plain hI t ht _ (by simp [Pc.holds]) (by simp [hp, FlushingOf]) (by simp [hp, Pc.holds])⟩
    | assign n d => exact inv_release (inv_assign hI t hp) (fun j hj => hI.refs.cur j hj)
    | loadClose =>
      simp only
      cases hc : s.cur with
      | none => exact ⟨es, bes, inv_at_plain hI t ht _ (by simp [Pc.holds]) (by simp [hp, FlushingOf]) (by simp [hp, Pc.holds])⟩
      | some h =>
        refine ⟨es, bes, inv_at hI t ht _ ?_ ?_ (by simp) (by simp [hp, FlushingOf]) (by simp [hp, Pc.holds])⟩
        · intro k hk
          simp only [Pc.holds, beq_iff_eq] at hk; subst hk; exact hI.refs.cur h hc
        · intro u _ n e hu
          have := (hI.refs.fresh u n e hu).1
          rw [hc] at this; simpa [Pc.holds] using this
    | close h =>
      have hk : h < s.next := hI.refs.pcs t h (by simp [hp, Pc.holds])
      simp only
      split
      · rename_i hc
        refine ⟨es, bes, inv_at_plain hI t ht _ (by simp [Pc.holds]) (by simp [hp, FlushingOf]) ?_⟩
        intro k hk
        simp only [hp, Pc.holds, beq_iff_eq] at hk
        subst hk; exact Or.inr (hcl h hc)
      · refine ⟨_, _, inv_at_plain (inv_shut hI hk) t (by simpa using ht) _ (by simp [Pc.holds]) (by simp [hp, FlushingOf]) ?_⟩
        intro k hk
        simp only [shut_pc, hp, Pc.holds, beq_iff_eq] at hk
        subst hk; right; simp
    | setNone =>
      have h1 := inv_at_plain (ex := none) hI t ht .idle (by simp [Pc.holds]) (by simp [hp, FlushingOf]) (by simp [hp, Pc.holds])
      exact inv_release (inv_none h1) (fun j hj => hI.refs.cur j hj)

theorem inv_init (sep old : List B) (reopen : Bool) (threads : Nat) :
    ∃ es bes, Inv old none (init sep reopen threads old) es bes := by
  refine ⟨[], fun _ => [], ⟨by simp [init, bytes], by simp [init, bytes], by simp [init]⟩, ?_, ?_, ?_, ?_, ?_, ?_, ?_⟩ <;>
    simp [init, Pc.holds]

/-- **C145 (stale streams, whole entries).** With stale streams that are reopened, and closing, as long as a write takes an entry
over whole or not at all and flushing works: the file holds what it held before and then entries that were written, each whole and
no more often than it was written. -/
theorem C145_stale_whole (sep old : List B) (reopen : Bool) (threads : Nat) (sched : List (Tid × Act B))
    (hs : ∀ x ∈ sched, FlushesOk x.2 ∧ Whole x.2) :
    ∃ es rest, (run (init sep reopen threads old) sched).file = old ++ bytes es ∧
      (es ++ rest).Perm (run (init sep reopen threads old) sched).wrote := by
  obtain ⟨es, bes, h⟩ := run_induction inv_step sched _ (inv_init sep old reopen threads) hs
  generalize run (init sep reopen threads old) sched = s at h ⊢
  refine ⟨es, (∑ k ∈ Finset.range s.next, (bes k : Multiset (Tid × List B))).toList, h.con.file, ?_⟩
  rw [← Multiset.coe_eq_coe, ← h.con.sum, ← Multiset.coe_add, Multiset.coe_toList]

/-- The stream is stale for thread 0, which reopens it, while thread 1 writes to the old one. -/
def reopened : List (Tid × Act Nat) :=
  [(0, .emit [1]), (1, .emit [2])] ++ go 0 1 ++ go 1 1 ++ [(0, .go (.err true) .ok true)] ++ go 0 2 ++ go 1 1 ++ go 0 4 ++ go 1 2

example : (∀ x ∈ reopened, FlushesOk x.2 ∧ Whole x.2) ∧
    (run (init [10] true 2 [7]) reopened).file = [7, 2, 10, 1, 10] ∧ (run (init [10] true 2 [7]) reopened).cur = some 1 :=
  ⟨by simp [reopened, go, FlushesOk, Whole], by decide +kernel, by decide +kernel⟩

/-- **C145 (stale streams, complete).** And when no thread is inside the emitter, the file holds exactly the entries that were
written, each once, in some order.  (Missing: the order of the entries of a thread, and that they are in the file when the thread is
back; `C145_violated` says why.) -/
theorem C145_stale_quiet_partial (sep old : List B) (reopen : Bool) (threads : Nat) (sched : List (Tid × Act B))
    (hs : ∀ x ∈ sched, FlushesOk x.2 ∧ Whole x.2) (hq : ∀ t, (run (init sep reopen threads old) sched).pc t = .idle) :
    ∃ es, (run (init sep reopen threads old) sched).file = old ++ bytes es ∧
      es.Perm (run (init sep reopen threads old) sched).wrote := by
  obtain ⟨es, bes, h⟩ := run_induction inv_step sched _ (inv_init sep old reopen threads) hs
  generalize run (init sep reopen threads old) sched = s at h hq ⊢
  refine ⟨es, h.con.file, ?_⟩
  have hb : ∀ k, bes k = [] := by
    intro k
    by_contra hk
    rcases h.refs.ref k (by simp) hk with h1 | ⟨u, _, h1⟩
    · obtain ⟨u, _, h2⟩ := h.refs.will k h1 hk
      rw [hq u] at h2
      exact h2
    · rw [hq u] at h1; simp [Pc.holds] at h1
  have := h.con.sum
  simp only [hb, Multiset.coe_nil, Finset.sum_const_zero, add_zero] at this
  exact Multiset.coe_eq_coe.mp this

example : ∀ t, (run (init [10] true 2 [7]) reopened).pc t = .idle := by
  exact quiet_of _ _ (fun _ _ => rfl) (by decide +kernel)

/-! ## Stale streams: every call lands -/

/-- A thread works with some stream, and does not close. -/
def Busy : Pc B → Prop
  | .idle | .load _ _ | .loadFlush false | .flush (some _) false | .write (some _) _ _ | .opening _ | .assign _ _ => True
  | _ => False

structure Live (s : Sys B) : Prop where
  reopen : s.reopen = true
  cur : ∃ h, s.cur = some h
  curOpn : ∀ h, s.cur = some h → s.closed h = false ∧ h < s.next
  held : ∀ u < s.threads, ∀ h, (s.pc u).holds h = true → s.closed h = false ∧ h < s.next
  far : ∀ h, s.next ≤ h → s.closed h = false
  pcs : ∀ t, Busy (s.pc t)
  all : ∀ t, of t s.wrote ++ pending (s.pc t) = of t s.called

theorem out_reopen (s : Sys B) (h n) : (s.out h n).reopen = s.reopen := by cases n <;> rfl

theorem live_release {s : Sys B} (hI : Live s) (k : Option Nat) (hk : ∀ j, k = some j → j < s.next) (f : FlushOut) :
    Live (s.release k f) := by
  cases k with
  | none => exact hI
  | some k =>
    simp only [Sys.release]
    split
    · exact hI
    · rename_i hn
      have hk := hk k rfl
      have h1 : s.cur ≠ some k := fun h => hn (Or.inl h)
      have h2 : ∀ u < s.threads, (s.pc u).holds k = false := by
        intro u hu
        by_contra hh
        refine hn (Or.inr (Or.inl ?_))
        simp only [List.any_eq_true, List.mem_range]
        exact ⟨u, hu, by simpa using hh⟩
      have hne : ∀ j ≠ k, (s.shut k f).closed j = s.closed j := by
        intro j hj; simp [hj]
      refine ⟨by simp [Sys.shut, out_reopen, hI.reopen], by simpa using hI.cur, ?_, ?_, ?_, by simpa using hI.pcs,
        by simpa using hI.all⟩
      · intro h hh
        rw [shut_cur] at hh
        rw [hne h (by rintro rfl; exact h1 hh), shut_next]
        exact hI.curOpn h hh
      · intro u hu h hh
        rw [shut_threads] at hu
        rw [shut_pc] at hh
        have : h ≠ k := by
          rintro rfl
          rw [h2 u hu] at hh
          simp at hh
        rw [hne h this, shut_next]
        exact hI.held u hu h hh
      · intro h hh
        rw [shut_next] at hh
        rw [hne h (by omega)]
        exact hI.far h hh

/-- Moving a thread on, with nothing written. -/
theorem live_move {s s' : Sys B} (hI : Live s) (t : Tid) {p : Pc B} (hp : Busy p) (hd : pending p = pending (s.pc t))
    (hh : ∀ h, p.holds h = true → s.closed h = false ∧ h < s.next)
    (hre : s'.reopen = s.reopen) (hth : s'.threads = s.threads) (hn : s'.next = s.next)
    (hcur : s'.cur = s.cur) (hc : s'.closed = s.closed) (hpc : s'.pc = Function.update s.pc t p) (hw : s'.wrote = s.wrote)
    (hcl : s'.called = s.called) : Live s' := by
  refine ⟨by rw [hre, hI.reopen], by rw [hcur]; exact hI.cur, by rw [hcur, hc, hn]; exact hI.curOpn, ?_,
    by rw [hn, hc]; exact hI.far, ?_, ?_⟩
  · intro u hu h h1
    rw [hpc] at h1
    rw [hc, hn]
    by_cases hut : u = t
    · subst hut; rw [Function.update_self] at h1; exact hh h h1
    · rw [Function.update_of_ne hut] at h1; exact hI.held u (by rw [← hth]; exact hu) h h1
  · intro u
    rw [hpc]
    by_cases hu : u = t
    · subst hu; rwa [Function.update_self]
    · rw [Function.update_of_ne hu]; exact hI.pcs u
  · intro u
    rw [hpc, hw, hcl]
    by_cases hu : u = t
    · subst hu; rw [Function.update_self, hd]; exact hI.all u
    · rw [Function.update_of_ne hu]; exact hI.all u

theorem live_write {s : Sys B} (hI : Live s) (t : Tid) (h : Nat) (d : List B) (hd : pending (s.pc t) = [d]) (n : Option Nat) :
    Live (({ s with buf := Function.update s.buf h (s.buf h ++ d), wrote := s.wrote ++ [(t, d)] }.out h n).at t
      (.loadFlush false)) := by
  refine ⟨by simp [out_reopen, hI.reopen], by simpa using hI.cur, by simpa using hI.curOpn, ?_, by simpa using hI.far, ?_, ?_⟩
  · intro u hu k h1
    simp only [at_pc, out_pc, at_closed, out_closed, at_next, out_next, at_threads, out_threads] at *
    by_cases hut : u = t
    · subst hut; simp [Pc.holds] at h1
    · rw [Function.update_of_ne hut] at h1; exact hI.held u hu k h1
  · intro u
    by_cases hu : u = t
    · subst hu; simp [Busy]
    · simp only [at_pc, out_pc, Function.update_of_ne hu]; exact hI.pcs u
  · intro u
    have h := hI.all u
    simp only [at_pc, at_wrote, at_called, out_pc, out_wrote, out_called, of_append]
    by_cases hu : u = t
    · subst hu; rw [Function.update_self]; rw [hd] at h; rw [← h]; simp [of, pending]
    · rw [Function.update_of_ne hu]
      have : of u [(t, d)] = [] := by simp [of, Ne.symm hu]
      rw [this]; simpa using h

theorem live_step (s : Sys B) (t : Tid) (a : Act B) (hI : Live s) (ha : Retries s t a) : Live (step s t a) := by
  unfold step
  split
  · exact hI
  rename_i ht
  have ht : t < s.threads := Nat.lt_of_not_le ht
  obtain ⟨c, hcur⟩ := hI.cur
  cases a with
  | emit e =>
    cases hp : s.pc t with
    | idle =>
      refine ⟨hI.reopen, hI.cur, hI.curOpn, ?_, hI.far, ?_, ?_⟩
      · intro u hu k h1
        simp only [at_pc] at h1
        by_cases hut : u = t
        · subst hut; simp [Pc.holds] at h1
        · rw [Function.update_of_ne hut] at h1; exact hI.held u hu k h1
      · intro u
        by_cases hu : u = t
        · subst hu; simp [Busy]
        · simp only [at_pc, Function.update_of_ne hu]; exact hI.pcs u
      · intro u
        have h := hI.all u
        simp only [at_pc, at_wrote, of_append]
        by_cases hu : u = t
        · subst hu; rw [Function.update_self]; rw [hp] at h; simp only [pending, List.append_nil] at h
          rw [h]; simp [of, pending]
        · rw [Function.update_of_ne hu]
          have : ∀ d : List B, of u [(t, d)] = [] := by intro d; simp [of, Ne.symm hu]
          rw [this]; simpa using h
    | _ => exact hI
  | flush =>
    cases hp : s.pc t with
    | idle =>
      exact live_move hI t (p := .loadFlush false) (by simp [Busy]) (by simp [hp, pending]) (by simp [Pc.holds]) rfl rfl rfl rfl
        rfl rfl rfl rfl
    | _ => exact hI
  | close => exact ha.elim
  | go w f o =>
    have hok := hI.pcs t
    cases hp : s.pc t with
    | idle => exact hI
    | load d r =>
      refine live_move hI t (p := .write s.cur d r) (by simp [Busy, hcur]) (by simp [hp, pending]) ?_ rfl rfl rfl rfl rfl rfl rfl
        rfl
      intro h h1
      rw [hcur] at h1
      exact hI.curOpn h (by rw [hcur]; simpa [Pc.holds] using h1)
    | write h d r =>
      rw [hp] at hok
      match h, hok with
      | some h, _ =>
        have hh := hI.held t ht h (by simp [hp, Pc.holds])
        simp only [hh.1, Bool.false_eq_true, if_false]
        cases w with
        | err st =>
          obtain ⟨rfl, hr⟩ := ha.2 st rfl
          have hr : r = false := by
            cases r with
            | false => rfl
            | true => exact (hr _ _ hp).elim
          subst hr
          have h2 : s.failed t d false true = s.at t (.opening d) := by simp [Sys.failed, hI.reopen]
          simp only [h2]
          refine live_release ?_ _ ?_ f
          · exact live_move hI t (p := .opening d) (by simp [Busy]) (by simp [hp, pending]) (by simp [Pc.holds]) rfl rfl rfl rfl
              rfl rfl rfl rfl
          · rintro j ⟨⟩; exact hh.2
        | ok n => exact live_release (live_write hI t h d (by simp [hp, pending]) _) _ (by rintro j ⟨⟩; simpa using hh.2) f
        | all => exact live_release (live_write hI t h d (by simp [hp, pending]) _) _ (by rintro j ⟨⟩; simpa using hh.2) f
    | loadFlush c' =>
      rw [hp] at hok
      match c', hok with
      | false, _ =>
        refine live_move hI t (p := .flush s.cur false) (by simp [Busy, hcur]) (by simp [hp, pending]) ?_ rfl rfl rfl rfl rfl rfl
          rfl rfl
        intro h h1
        rw [hcur] at h1
        exact hI.curOpn h (by rw [hcur]; simpa [Pc.holds] using h1)
    | flush h c' =>
      rw [hp] at hok
      match h, c', hok with
      | some h, false, _ =>
        have hh := hI.held t ht h (by simp [hp, Pc.holds])
        simp only [hh.1, Bool.false_eq_true, if_false]
        refine live_release ?_ _ (by rintro j ⟨⟩; simpa using hh.2) f
        exact live_move hI t (p := .idle) (by simp [Busy]) (by simp [hp, pending]) (by simp [Pc.holds]) (by simp [out_reopen])
          (by simp) (by simp) (by simp) (by simp) (by simp) (by simp) (by simp)
    | opening d =>
      simp only [ha.1, if_true]
      have hI' : Live { s with next := s.next + 1 } :=
        ⟨hI.reopen, hI.cur, fun h hh => ⟨(hI.curOpn h hh).1, Nat.lt_succ_of_lt (hI.curOpn h hh).2⟩,
          fun u hu h hh => ⟨(hI.held u hu h hh).1, Nat.lt_succ_of_lt (hI.held u hu h hh).2⟩,
          fun h hh => hI.far h (by have : s.next + 1 ≤ h := hh; omega), hI.pcs, hI.all⟩
      refine live_move hI' t (p := .assign s.next d) (by simp [Busy]) (by simp [hp, pending]) ?_ rfl rfl rfl rfl rfl rfl rfl rfl
      intro h h1
      simp only [Pc.holds, beq_iff_eq] at h1
      subst h1
      exact ⟨hI.far _ (le_refl _), Nat.lt_succ_self _⟩
    | assign h d =>
      have hh := hI.held t ht h (by simp [hp, Pc.holds])
      have h1 : Live { s with cur := some h } :=
        ⟨hI.reopen, ⟨h, rfl⟩, by rintro j ⟨⟩; exact hh, hI.held, hI.far, hI.pcs, hI.all⟩
      refine live_release (s := { s.at t (.load d true) with cur := some h }) ?_ s.cur (fun j hj => (hI.curOpn j hj).2) f
      exact live_move h1 t (p := .load d true) (by simp [Busy]) (by simp [hp, pending]) (by simp [Pc.holds]) rfl rfl rfl rfl rfl
        rfl rfl rfl
    | loadClose => rw [hp] at hok; exact hok.elim
    | close h => rw [hp] at hok; exact hok.elim
    | setNone => rw [hp] at hok; exact hok.elim

theorem every_induction {P : Sys B → Prop} {A : Sys B → Tid → Act B → Prop} (hs : ∀ s t a, P s → A s t a → P (step s t a)) :
    ∀ (sched : List (Tid × Act B)) (s : Sys B), P s → Every A s sched → P (run s sched)
  | [], _, h, _ => h
  | x :: rest, s, h, ha => by
    have := every_induction hs rest (step s x.1 x.2) (hs s x.1 x.2 h ha.1) ha.2
    simpa [run] using this

/-- **C145 (stale streams, every entry).** If the stream may be reopened, its first writes fail at most as stale, the retries do
not fail, reopening works and nobody closes the emitter, the entries that were written by a thread that is back from its calls are
exactly those it emitted. -/
theorem C145_stale_lands (sep old : List B) (threads : Nat) (sched : List (Tid × Act B))
    (hs : Every Retries (init sep true threads old) sched) (t : Tid) (ht : (run (init sep true threads old) sched).pc t = .idle) :
    of t (run (init sep true threads old) sched).wrote = of t (run (init sep true threads old) sched).called := by
  have h := every_induction live_step sched (init sep true threads old)
    ⟨rfl, ⟨0, rfl⟩, by simp [init], by simp [init, Pc.holds], by simp [init], by intro t; simp [init, Busy],
      by intro t; simp [init, of, pending]⟩ hs
  have := h.all t
  rw [ht] at this
  simpa [pending] using this

example : Every Retries (init [10] true 2 [7]) reopened ∧ (run (init [10] true 2 [7]) reopened).pc 0 = .idle ∧
    of 0 (run (init [10] true 2 [7]) reopened).called = [[1, 10]] := by
  refine ⟨?_, by decide +kernel, by decide +kernel⟩
  simp [reopened, go, Every, Retries, step, init, Sys.at, Function.update]

/-! ## What stale streams break -/

/-- Three threads.  The stream is stale for threads 0 and 1; thread 0 reopens it and writes; thread 2 looks the new stream up;
thread 1 reopens it once more, and now thread 0 flushes: another stream than it wrote to. -/
def early (a b c : List B) : List (Tid × Act B) :=
  [(0, .emit a), (1, .emit b)] ++ go 0 1 ++ go 1 1 ++
  [(0, .go (.err true) .ok true), (1, .go (.err true) .ok true)] ++
  go 0 4 ++ [(2, .emit c)] ++ go 2 1 ++ go 1 2 ++ go 0 2

/-- Then thread 0 emits again, and all finish. -/
def late (a a' b c : List B) : List (Tid × Act B) :=
  early a b c ++ [(0, .emit a')] ++ go 0 4 ++ go 1 4 ++ go 2 3

set_option maxHeartbeats 4000000 in
/-- **C145 is violated for stale streams.** All flushes work and all entries are written whole, and yet: a call of `emit_entry`
returns although its entry is not in the file, and a later entry of the same thread gets into the file before it. -/
theorem C145_violated (a a' b c : List B) :
    (∀ x ∈ late a a' b c, FlushesOk x.2 ∧ Whole x.2) ∧
    (run (init [] true 3 []) (early a b c)).pc 0 = .idle ∧
    (run (init [] true 3 []) (early a b c)).wrote = [(0, a)] ∧
    (run (init [] true 3 []) (early a b c)).file = [] ∧
    of 0 (run (init [] true 3 []) (late a a' b c)).called = [a, a'] ∧
    (∀ t, (run (init [] true 3 []) (late a a' b c)).pc t = .idle) ∧
    (run (init [] true 3 []) (late a a' b c)).file = a' ++ b ++ a ++ c := by
  refine ⟨by simp [late, early, go, FlushesOk, Whole], ?_⟩
  refine ⟨?_, ?_, ?_, ?_, ?_, ?_⟩
  pick_goal 5
  · refine quiet_of _ _ (fun _ _ => rfl) ?_
    intro t ht
    have ht : t < 3 := ht
    obtain rfl | rfl | rfl : t = 0 ∨ t = 1 ∨ t = 2 := by omega
    all_goals
      simp [late, early, go, run, step, init, Sys.at, Function.update, Sys.failed, Sys.release, Sys.out, Pc.holds, List.range,
        List.range.loop, through, Sys.shut]
  all_goals
    simp [late, early, go, run, step, init, Sys.at, Function.update, Sys.failed, Sys.release, Sys.out, Pc.holds, List.range,
      List.range.loop, through, Sys.shut, of]

/-! ## One thread alone -/

/-- A call of `emit_entry` by a thread that is not disturbed does what `Verif.Emit.emitEntry` (the model of C42) says. -/
theorem C145_alone (s : Sys B) (t : Tid) (ht : t < s.threads) (hp : s.pc t = .idle) (h : Nat) (hcur : s.cur = some h)
    (ho : s.closed h = false) (entry : List B) (n : Nat) (f : FlushOut) :
    let e := (Emit.emitEntry (⟨s.sep, s.reopen, true, true, s.buf h, s.file⟩ : Emit.Em B) (some entry) ⟨.ok n, f, true, .ok 0, .ok⟩).1
    let s' := run s ((t, .emit entry) :: List.replicate 4 (t, .go (.ok n) f true))
    s'.file = e.file ∧ s'.buf h = e.buf ∧ s'.pc t = .idle := by
  have ht' : ¬ s.threads ≤ t := Nat.not_le.mpr ht
  cases f <;> simp [run, step, ht', hp, hcur, ho, Sys.at, Sys.out, Sys.release, Emit.emitEntry, Emit.write, Emit.flush, through]

example : (2 : Nat) < (init [10] true 3 [7]).threads ∧ (init [10] true 3 [7]).pc 2 = .idle := by decide +kernel

end Verif.Props.EmitConc
