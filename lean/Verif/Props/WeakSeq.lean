import Verif.Props.CopyingSeq
import Verif.Props.Weak
import Verif.Lemmas.Full
/-!
# One thread of the model of copying is the model of loggers let go (C101)

With `C109_sequential` and `C99_sequential` this ties `Model/Weak.lean` to the world model.
-/
namespace Verif.Weak

/-- What a program and the garbage collector do in both models. -/
inductive Cmd
  | make (l : LogId)
  | publish (l : LogId) (e : Ev)
  | drop (l : LogId)
  | collect (l : LogId)
  | remove (l : LogId)
  | flush
deriving DecidableEq

/-- Here: a flush is the copy and one step for each logger in it. -/
def Cmd.ops (w : Sys) : Cmd → List Op
  | .make l => [.make l]
  | .publish l e => [.publish l e]
  | .drop l => [.drop l]
  | .collect l => [.collect l]
  | .remove l => [.remove l]
  | .flush => .flush :: List.replicate w.table.length .next

def Cmd.after (w : Sys) (c : Cmd) : Sys := run w (c.ops w)

/-- In the model of copying, which does not know the application's references. -/
def Cmd.act : Cmd → Option Copying.Act
  | .make l => some (.new l true)
  | .publish l e => some (.publish l e)
  | .drop _ => none
  | .collect l => some (.collect l)
  | .remove l => some (.remove l)
  | .flush => some .flush

/-- What can happen: a logger is made once, events come from loggers the application has, with room in the queue, and the
garbage collector takes others only. -/
def Cmd.possible (w : Sys) : Cmd → Prop
  | .make l => l ∉ w.table ∧ l ∉ w.refs
  | .publish l _ => l ∈ w.refs ∧ (w.queue l).length < QUEUE_LIMIT
  | .collect l => l ∉ w.refs
  | _ => True

/-- The whole history can happen. -/
def Possible (w : Sys) : List Cmd → Prop
  | [] => True
  | c :: cs => c.possible w ∧ Possible (c.after w) cs

/-- Thread `t` of the model of copying does `c` and comes back. -/
def Does (t : Copying.Tid) (s : Copying.Sys) (c : Cmd) (s' : Copying.Sys) : Prop :=
  match c.act with
  | none => s' = s
  | some a => Copying.Goes t (Copying.step s t a) s'

/-- The same context: loggers, events waiting, events handed over; no thread is in a call. -/
structure Like (t : Copying.Tid) (w : Sys) (s : Copying.Sys) : Prop where
  table : w.table = s.entries
  queue : ∀ l, l ∈ w.table ∨ l ∈ w.refs → w.queue l = s.queue l
  mode : ∀ l, l ∈ w.table ∨ l ∈ w.refs → s.mode l = true
  got : ∀ l, w.got l = s.got l
  snap : w.snap = []
  dead : s.dead = []
  idle : ∀ p ∈ s.pcs, p = .idle
  here : s.pcs[t]? = some .idle

/-- The steps of a flush, in closed form. -/
theorem nexts (ls : List LogId) : ∀ (w : Sys), w.snap = ls → ∃ w', run w (List.replicate ls.length .next) = w' ∧
    w'.table = w.table ∧ w'.refs = w.refs ∧ w'.snap = [] ∧ (∀ l, w'.queue l = if l ∈ ls then [] else w.queue l) ∧
    (∀ l, w'.got l = if l ∈ ls then w.got l ++ w.queue l else w.got l) := by
  induction ls with
  | nil => intro w h; exact ⟨w, rfl, rfl, rfl, h, by simp, by simp⟩
  | cons k ls ih =>
    intro w h
    obtain ⟨w', e, h1, h2, h3, h4, h5⟩ := ih (step w .next) (by simp [step, h])
    refine ⟨w', ?_, ?_, ?_, h3, fun l => ?_, fun l => ?_⟩
    · rw [List.length_cons, List.replicate_succ, run_cons, e]
    · rw [h1]; simp [step, h]
    · rw [h2]; simp [step, h]
    · rw [h4]
      by_cases hk : l = k <;> by_cases hl : l ∈ ls <;> simp [step, h, hk, hl]
    · rw [h5]
      by_cases hk : l = k
      · subst hk; simp [step, h]
      · by_cases hl : l ∈ ls <;> simp [step, h, hk, hl]

theorem not_iterating {s : Copying.Sys} (h : ∀ p ∈ s.pcs, p = .idle) : s.iterating = false := by
  simp only [Copying.Sys.iterating, List.any_eq_false]
  intro p hp
  simp [h p hp]

theorem like_step {t : Copying.Tid} {w : Sys} {s : Copying.Sys} (h : Like t w s) (c : Cmd) (hc : c.possible w) :
    ∃ s', Does t s c s' ∧ Like t (c.after w) s' := by
  have hcall : ∀ a : Copying.Act, a ≠ .go → Copying.step s t a = Copying.call s t a := by
    intro a ha; simp [Copying.step, h.here, ha]
  cases c with
  | make l =>
    obtain ⟨h1, h2⟩ := hc
    have h1' : l ∉ s.entries := by rw [← h.table]; exact h1
    refine ⟨_, by simp only [Does, Cmd.act]; exact Copying.Goes.refl t _, ?_⟩
    rw [hcall _ (by simp)]
    simp only [Cmd.after, Cmd.ops, run, List.foldl, step, Copying.call, h1, h2, h.snap, h1', if_false, or_self, List.not_mem_nil]
    refine ⟨by simp [h.table], fun k hk => ?_, fun k hk => ?_, h.got, rfl, h.dead, h.idle, h.here⟩
    · by_cases e : k = l
      · simp [Copying.upd, e]
      · simp only [Copying.upd, e, if_false]
        exact h.queue k (by simpa [e] using hk)
    · by_cases e : k = l
      · simp [Copying.upd, e]
      · simp only [Copying.upd, e, if_false]
        exact h.mode k (by simpa [e] using hk)
  | publish l e =>
    obtain ⟨h1, h2⟩ := hc
    refine ⟨_, by simp only [Does, Cmd.act]; exact Copying.Goes.refl t _, ?_⟩
    rw [hcall _ (by simp)]
    have hq := h.queue l (.inr h1)
    simp only [Cmd.after, Cmd.ops, run, List.foldl, step, Copying.call, h1, h.mode l (.inr h1), if_true]
    refine ⟨h.table, fun k hk => ?_, h.mode, h.got, h.snap, h.dead, h.idle, h.here⟩
    by_cases e' : k = l
    · simp only [Copying.upd, e', if_true]
      rw [pushBounded_room (by rw [← hq]; omega), hq]
    · simp only [Copying.upd, e', if_false]
      exact h.queue k hk
  | drop l =>
    refine ⟨s, rfl, ?_⟩
    simp only [Cmd.after, Cmd.ops, run, List.foldl, step]
    have hw : ∀ k, k ∈ w.table ∨ k ∈ w.refs.filter (· ≠ l) → k ∈ w.table ∨ k ∈ w.refs := by
      intro k hk
      exact hk.imp id fun h' => (List.mem_filter.1 h').1
    exact ⟨h.table, fun k hk => h.queue k (hw k hk), fun k hk => h.mode k (hw k hk), h.got, h.snap, h.dead, h.idle, h.here⟩
  | collect l =>
    have hc : l ∉ w.refs := hc
    refine ⟨_, by simp only [Does, Cmd.act]; exact Copying.Goes.refl t _, ?_⟩
    rw [hcall _ (by simp)]
    simp only [Cmd.after, Cmd.ops, run, List.foldl, step, Copying.call, hc, h.snap, not_iterating h.idle, List.not_mem_nil,
      or_self, if_false, Bool.false_eq_true]
    have hw : ∀ k, k ∈ w.table.filter (· ≠ l) ∨ k ∈ w.refs → k ≠ l ∧ (k ∈ w.table ∨ k ∈ w.refs) := by
      intro k hk
      rcases hk with hk | hk
      · have := List.mem_filter.1 hk
        exact ⟨by simpa using this.2, .inl this.1⟩
      · exact ⟨fun e => hc (e ▸ hk), .inr hk⟩
    refine ⟨by simp [h.table], fun k hk => ?_, fun k hk => h.mode k (hw k hk).2, h.got, rfl, h.dead, h.idle, h.here⟩
    simp only [(hw k hk).1, if_false]
    exact h.queue k (hw k hk).2
  | remove l =>
    refine ⟨_, by simp only [Does, Cmd.act]; exact Copying.Goes.refl t _, ?_⟩
    rw [hcall _ (by simp)]
    simp only [Cmd.after, Cmd.ops, run, List.foldl, step, Copying.call]
    have hw : ∀ k, k ∈ w.table.filter (· ≠ l) ∨ k ∈ w.refs → k ∈ w.table ∨ k ∈ w.refs := by
      intro k hk
      exact hk.imp (fun h' => (List.mem_filter.1 h').1) id
    exact ⟨by simp [h.table], fun k hk => h.queue k (hw k hk), fun k hk => h.mode k (hw k hk), h.got, h.snap, h.dead, h.idle,
      h.here⟩
  | flush =>
    have g1 := Copying.start_goes (t := t) (s := { s with out := Copying.upd s.out t none }) (nx := .flush false) h.dead h.here
    have hidle : ∀ p ∈ (Copying.Sys.to { s with out := Copying.upd s.out t none } t .idle).pcs, p = .idle := by
      intro p hp
      rcases List.mem_or_eq_of_mem_set hp with hp | hp
      · exact h.idle p hp
      · exact hp
    refine ⟨_, by simp only [Does, Cmd.act]; rw [hcall _ (by simp)]; exact g1, ?_⟩
    simp only [Copying.finish, Copying.to_to,
      Copying.commit_dead (s := Copying.Sys.to { s with out := Copying.upd s.out t none } t .idle) h.dead]
    obtain ⟨w', e, h1, h2, h3, h4, h5⟩ := nexts w.table (step w .flush) (by simp [step, h.snap])
    have ha : Cmd.after w .flush = w' := by
      simp only [Cmd.after, Cmd.ops]
      rw [run_cons, e]
    have ht : w'.table = w.table := by rw [h1]; simp [step, h.snap]
    have hr : w'.refs = w.refs := by rw [h2]; simp [step, h.snap]
    have hq : (step w .flush).queue = w.queue := by simp [step, h.snap]
    have hg : (step w .flush).got = w.got := by simp [step, h.snap]
    rw [ha]
    refine ⟨ht.trans h.table, fun k hk => ?_, fun k hk => h.mode k (by rw [← ht, ← hr]; exact hk), fun k => ?_, h3, h.dead,
      hidle, Copying.set_self h.here _⟩
    · rw [ht, hr] at hk
      rw [h4, hq]
      show _ = if k ∈ s.entries then [] else s.queue k
      rw [h.table, h.queue k hk]
    · rw [h5, hq, hg]
      show _ = if k ∈ s.entries then s.got k ++ s.queue k else s.got k
      rw [h.table, h.got k]
      by_cases hk : k ∈ s.entries
      · simp only [if_pos hk]
        rw [h.queue k (.inl (by rw [h.table]; exact hk))]
      · simp only [if_neg hk]

/-- Thread `t` of the model of copying does the whole history, each call to its end. -/
inductive DoesAll (t : Copying.Tid) : Copying.Sys → List Cmd → Copying.Sys → Prop
  | nil (s) : DoesAll t s [] s
  | cons {s s' s'' c cs} (h : Does t s c s') (h' : DoesAll t s' cs s'') : DoesAll t s (c :: cs) s''

/-- **C101**: every history that can happen, of any length, does in this model what it does in one thread of the model of
copying, where queues are bounded and the table is copied entry by entry: the loggers registered, the events waiting in them
and the events handed over come out the same. -/
theorem C101_sequential {t : Copying.Tid} {n : Nat} (ht : t < n) (cs : List Cmd) (hc : Possible {} cs) :
    ∃ s, DoesAll t (Copying.init n) cs s ∧ (cs.foldl Cmd.after {}).table = s.entries ∧
      (∀ l, (cs.foldl Cmd.after {}).got l = s.got l) ∧
      ∀ l ∈ (cs.foldl Cmd.after {}).table, (cs.foldl Cmd.after {}).queue l = s.queue l := by
  have key : ∀ (cs : List Cmd) (w : Sys) (s : Copying.Sys), Like t w s → Possible w cs →
      ∃ s', DoesAll t s cs s' ∧ Like t (cs.foldl Cmd.after w) s' := by
    intro cs
    induction cs with
    | nil => intro w s h _; exact ⟨s, .nil s, h⟩
    | cons c cs ih =>
      intro w s h hp
      obtain ⟨s1, d1, l1⟩ := like_step h c hp.1
      obtain ⟨s2, d2, l2⟩ := ih _ _ l1 hp.2
      exact ⟨s2, .cons d1 d2, l2⟩
  obtain ⟨s, d, l⟩ := key cs {} (Copying.init n)
    ⟨rfl, fun _ _ => rfl, fun _ h => by simp at h, fun _ => rfl, rfl, rfl, by simp [Copying.init], by simp [Copying.init, ht]⟩ hc
  exact ⟨s, d, l.table, l.got, fun k hk => l.queue k (.inl hk)⟩

/-- A case: one logger is dropped and collected with an event waiting, another is flushed. -/
example : Possible {} [.make 1, .publish 1 5, .make 2, .publish 2 6, .drop 1, .collect 1, .flush] ∧
    ([Cmd.make 1, .publish 1 5, .make 2, .publish 2 6, .drop 1, .collect 1, .flush].foldl Cmd.after {}).got 2 = [6] := by
  constructor
  · simp [Possible, Cmd.possible, Cmd.after, Cmd.ops, run, step, QUEUE_LIMIT]
  · decide +kernel

end Verif.Weak
