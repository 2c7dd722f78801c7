import Verif.Model.SinkConc
import Verif.Props.Modes
/-!
# C111: a rate sink counts the events of all threads
-/
namespace Verif.SinkConc
open Verif.Modes (flatMap_set)
open scoped List

/-! ### The specification -/

/-- The key of the event a thread is in `on_end` with. -/
def keyOf : PC → Option Key
  | .setLog k | .setName k | .look k | .make k | .store k _ | .load k _ | .put k _ _ => some k
  | _ => none

/-- No thread is in `on_end` or `get_total_counts`. -/
def Quiescent (s : Sys) : Prop := ∀ p ∈ s.pcs, p = .idle

/-- At no time are two threads in `on_end` with events of logger `lg`. -/
def OneAtATime (n : Nat) (lg : LogId) (sched : List (Tid × Act)) : Prop :=
  ∀ pre, pre <+: sched → ∀ (t u : Tid) p q k j, (run (init n) pre).pcs[t]? = some p → (run (init n) pre).pcs[u]? = some q →
    keyOf p = some k → keyOf q = some j → k.lg = lg → j.lg = lg → t = u

/-- The number the sink has for events of a key. -/
def val (s : Sys) (k : Key) : Nat := ((s.acc k).map s.total).getD 0

/-- The full claim: whenever no call is under way, the sink has counted every event. -/
def CountsAll : Prop :=
  ∀ (n : Nat) (sched : List (Tid × Act)), Quiescent (run (init n) sched) →
    ∀ k, val (run (init n) sched) k = (run (init n) sched).made.count k

/-- And reading the counts does not raise. -/
def ReadsNeverRaise : Prop :=
  ∀ (n : Nat) (sched : List (Tid × Act)) (t : Tid), (run (init n) sched).res t ≠ some .runtimeError

/-! ### It is false -/

/-- **C111** is false of the code: two threads publish on one logger; both read the count before either writes it. -/
theorem C111_lost_update_violated : ∃ sched, Quiescent (run (init 2) sched) ∧
    (run (init 2) sched).made = [⟨0, 0, 0⟩, ⟨0, 0, 0⟩, ⟨0, 0, 0⟩] ∧ val (run (init 2) sched) ⟨0, 0, 0⟩ = 2 :=
  ⟨[(0, .onEnd ⟨0, 0, 0⟩)] ++ List.replicate 7 (0, .go) ++ [(0, .onEnd ⟨0, 0, 0⟩), (1, .onEnd ⟨0, 0, 0⟩)] ++
    List.replicate 4 (0, .go) ++ List.replicate 4 (1, .go) ++ [(0, .go), (1, .go)],
    by unfold Quiescent; decide, by decide, by decide⟩

/-- Or both make the accumulator, and what is counted in the one that is replaced is lost. -/
theorem C111_lost_accumulator_violated : ∃ sched, Quiescent (run (init 2) sched) ∧
    (run (init 2) sched).made = [⟨0, 0, 0⟩, ⟨0, 0, 0⟩, ⟨0, 0, 0⟩] ∧ val (run (init 2) sched) ⟨0, 0, 0⟩ = 1 :=
  ⟨[(1, .onEnd ⟨0, 0, 0⟩), (1, .go), (1, .go), (1, .go), (1, .go)] ++ [(0, .onEnd ⟨0, 0, 0⟩)] ++ List.replicate 7 (0, .go) ++
    [(0, .onEnd ⟨0, 0, 0⟩)] ++ List.replicate 5 (0, .go) ++ [(1, .go), (1, .go), (1, .go)],
    by unfold Quiescent; decide, by decide, by decide⟩

theorem C111_violated : ¬ CountsAll := by
  intro h
  obtain ⟨sched, h1, h2, h3⟩ := C111_lost_update_violated
  have := h 2 sched h1 ⟨0, 0, 0⟩
  rw [h2, h3] at this
  revert this; decide

/-- A first event of another logger, while the counts are read, makes the reading raise. -/
theorem C111_read_violated : ¬ ReadsNeverRaise := by
  intro h
  exact h 2 ([(0, .onEnd ⟨0, 0, 0⟩)] ++ List.replicate 7 (0, .go) ++
    [(0, .counts), (0, .go), (1, .onEnd ⟨1, 0, 0⟩), (1, .go), (0, .go), (0, .go), (0, .go), (0, .go), (0, .go)]) 0 (by decide)

/-! ### Steps -/

/-- The moves of a thread. -/
inductive Tr (s : Sys) (t : Tid) : PC → PC → Sys → Prop
  | quiet (p q r) (hp : keyOf p = none) (hq : keyOf q = none) : Tr s t p q { s.to t q with res := r }
  | start (k) : Tr s t .idle (.setLog k) { s.to t (.setLog k) with made := s.made ++ [k] }
  | setLog (k) : Tr s t (.setLog k) (.setName k) { s.to t (.setName k) with logs := ins s.logs k.lg }
  | setName (k) : Tr s t (.setName k) (.look k)
      { s.to t (.look k) with names := fun l => if l = k.lg then ins (s.names l) k.nm else s.names l }
  | found (k a) (h : s.acc k = some a) : Tr s t (.look k) (.load k a) (s.to t (.load k a))
  | missing (k) (h : s.acc k = none) : Tr s t (.look k) (.make k) (s.to t (.make k))
  | make (k) : Tr s t (.make k) (.store k s.next) { s.to t (.store k s.next) with next := s.next + 1 }
  | store (k a) : Tr s t (.store k a) (.load k a)
      { s.to t (.load k a) with
        acc := fun j => if j = k then some a else s.acc j
        stats := fun l m => if l = k.lg ∧ m = k.nm then ins (s.stats l m) k.st else s.stats l m }
  | load (k a) : Tr s t (.load k a) (.put k a (s.total a)) (s.to t (.put k a (s.total a)))
  | put (k a v) : Tr s t (.put k a v) .idle { s.to t .idle with total := fun b => if b = a then v + 1 else s.total b }

theorem step_cases (s : Sys) (t : Tid) (a : Act) :
    step s t a = s ∨ ∃ p q, s.pcs[t]? = some p ∧ Tr s t p q (step s t a) := by
  unfold step
  cases hp : s.pcs[t]? with
  | none => exact .inl rfl
  | some p =>
    dsimp only
    split
    · cases p with
      | idle => exact .inl rfl
      | setLog k => exact .inr ⟨_, _, rfl, .setLog k⟩
      | setName k => exact .inr ⟨_, _, rfl, .setName k⟩
      | look k =>
        simp only [go]
        cases h : s.acc k with
        | none => exact .inr ⟨_, _, rfl, .missing k h⟩
        | some b => exact .inr ⟨_, _, rfl, .found k b h⟩
      | make k => exact .inr ⟨_, _, rfl, .make k⟩
      | store k b => exact .inr ⟨_, _, rfl, .store k b⟩
      | load k b => exact .inr ⟨_, _, rfl, .load k b⟩
      | put k b v => exact .inr ⟨_, _, rfl, .put k b v⟩
      | rLog n i out =>
        simp only [go]
        split
        · exact .inr ⟨_, _, rfl, .quiet _ .idle _ rfl rfl⟩
        · split
          · exact .inr ⟨_, _, rfl, .quiet _ .idle _ rfl rfl⟩
          · exact .inr ⟨_, _, rfl, .quiet _ (.rName n (i + 1) _ (s.names _).length 0 out) s.res rfl rfl⟩
      | rName n i lg n' i' out =>
        simp only [go]
        split
        · exact .inr ⟨_, _, rfl, .quiet _ .idle _ rfl rfl⟩
        · split
          · exact .inr ⟨_, _, rfl, .quiet _ (.rLog n i out) s.res rfl rfl⟩
          · exact .inr ⟨_, _, rfl, .quiet _ (.rStat n i lg n' (i' + 1) _ (s.stats lg _).length 0 out) s.res rfl rfl⟩
      | rStat n i lg n' i' nm n'' i'' out =>
        simp only [go]
        split
        · exact .inr ⟨_, _, rfl, .quiet _ .idle _ rfl rfl⟩
        · split
          · exact .inr ⟨_, _, rfl, .quiet _ (.rName n i lg n' i' out) s.res rfl rfl⟩
          · exact .inr ⟨_, _, rfl, .quiet _ (.rStat n i lg n' i' nm n'' (i'' + 1) _) s.res rfl rfl⟩
    · split
      · next hi =>
        subst hi
        cases a with
        | go => exact .inl rfl
        | onEnd k => exact .inr ⟨_, _, rfl, .start k⟩
        | counts => exact .inr ⟨_, _, rfl, .quiet _ (.rLog s.logs.length 0 []) _ rfl rfl⟩
      · exact .inl rfl

theorem Tr.pcs {s s' : Sys} {t : Tid} {p q : PC} (h : Tr s t p q s') : s'.pcs = s.pcs.set t q := by cases h <;> rfl

/-- What a thread finds elsewhere after a move of thread `t`. -/
theorem get_cases {s s' : Sys} {t : Tid} {p q : PC} (h : Tr s t p q s') {u : Tid} {r : PC} (hr : s'.pcs[u]? = some r) :
    u = t ∧ r = q ∨ u ≠ t ∧ s.pcs[u]? = some r := by
  rw [h.pcs, List.getElem?_set] at hr
  split at hr
  · next hu =>
    split at hr
    · exact .inl ⟨hu.symm, (Option.some.inj hr).symm⟩
    · cases hr
  · next hu => exact .inr ⟨fun h => hu h.symm, hr⟩

/-- The accumulator a thread has in hand. -/
def carries : PC → Option (Key × Nat)
  | .store k a | .load k a | .put k a _ => some (k, a)
  | _ => none

/-- Accumulator `a` is one of key `k`, in the table or in the hands of a thread. -/
def Assoc (s : Sys) (k : Key) (a : Nat) : Prop :=
  s.acc k = some a ∨ ∃ (t : Tid) (p : PC), s.pcs[t]? = some p ∧ carries p = some (k, a)

/-- Events whose `on_end` is under way. -/
def inFlight (s : Sys) : List Key := s.pcs.flatMap fun p => (keyOf p).toList

theorem inFlight_set {s s' : Sys} {t : Tid} {p q : PC} (hp : s.pcs[t]? = some p) (h : Tr s t p q s') (k : Key) :
    (inFlight s').count k + (keyOf p).toList.count k = (inFlight s).count k + (keyOf q).toList.count k := by
  obtain ⟨F, hF, hF'⟩ := flatMap_set (fun p => (keyOf p).toList) hp
  have h1 := hF.count_eq k
  have h2 := (hF' q).count_eq k
  rw [List.count_append] at h1 h2
  unfold inFlight
  rw [h.pcs, h1, h2]
  omega

/-- Holds of every state. -/
structure Inv (s : Sys) : Prop where
  bound : ∀ k a, Assoc s k a → a < s.next
  uniq : ∀ k j a, Assoc s k a → Assoc s j a → k = j
  zero : ∀ a, s.next ≤ a → s.total a = 0
  flight : ∀ k, (inFlight s).count k ≤ s.made.count k
  le : ∀ k a, Assoc s k a → s.total a + (inFlight s).count k ≤ s.made.count k
  put : ∀ (t : Tid) k a v, s.pcs[t]? = some (.put k a v) → v + (inFlight s).count k ≤ s.made.count k
  logs : ∀ (t : Tid) p k, s.pcs[t]? = some p → keyOf p = some k → p = .setLog k ∨ k.lg ∈ s.logs
  names : ∀ (t : Tid) p k, s.pcs[t]? = some p → keyOf p = some k → p = .setLog k ∨ p = .setName k ∨ k.nm ∈ s.names k.lg
  stats : ∀ k, s.acc k ≠ none ↔ k.st ∈ s.stats k.lg k.nm
  there : ∀ k, s.acc k ≠ none → k.lg ∈ s.logs ∧ k.nm ∈ s.names k.lg
  stored : ∀ (t : Tid) k a, (s.pcs[t]? = some (.load k a) ∨ ∃ v, s.pcs[t]? = some (.put k a v)) → s.acc k ≠ none
  made : ∀ k ∈ s.made, s.acc k ≠ none ∨ ∃ (t : Tid) (p : PC), s.pcs[t]? = some p ∧ keyOf p = some k
  real : ∀ k, s.acc k ≠ none → k ∈ s.made
  doing : ∀ (t : Tid) p k, s.pcs[t]? = some p → keyOf p = some k → k ∈ s.made
  nlogs : s.logs.Nodup
  nnames : ∀ l, (s.names l).Nodup
  nstats : ∀ l m, (s.stats l m).Nodup

theorem mem_ins {α : Type} [DecidableEq α] (l : List α) (x y : α) : y ∈ ins l x ↔ y ∈ l ∨ y = x := by
  unfold ins; split
  · next h => exact ⟨.inl, fun h' => h'.elim id fun e => e ▸ h⟩
  · simp

theorem nodup_ins {α : Type} [DecidableEq α] {l : List α} (h : l.Nodup) (x : α) : (ins l x).Nodup := by
  unfold ins; split
  · exact h
  · next hx =>
    rw [List.nodup_append]
    exact ⟨h, by simp, fun a ha b hb => by simp at hb; subst hb; exact fun e => hx (e ▸ ha)⟩

theorem carries_key {p : PC} {x : Key × Nat} (h : carries p = some x) : keyOf p = some x.1 := by
  cases p <;> simp_all [carries, keyOf] <;> rw [← h]

/-- Associations after a move: those of before, or a new accumulator's. -/
theorem assoc_cases {s s' : Sys} {t : Tid} {p q : PC} (hp : s.pcs[t]? = some p) (h : Tr s t p q s') {k : Key} {a : Nat}
    (ha : Assoc s' k a) : Assoc s k a ∨ a = s.next ∧ s'.next = s.next + 1 ∧ keyOf p = some k := by
  rcases ha with ha | ⟨u, r, hr, hc⟩
  · cases h with
    | store j b =>
      dsimp only at ha
      split at ha
      · next e =>
        subst e; cases ha
        exact .inl (.inr ⟨t, _, hp, rfl⟩)
      · exact .inl (.inl ha)
    | _ => exact .inl (.inl ha)
  · rcases get_cases h hr with ⟨rfl, rfl⟩ | ⟨_, hr'⟩
    · cases h with
      | quiet _ _ _ _ hq =>
        rw [carries_key hc] at hq; cases hq
      | found j b hb =>
        simp only [carries, Option.some.injEq, Prod.mk.injEq] at hc
        obtain ⟨rfl, rfl⟩ := hc
        exact .inl (.inl hb)
      | make j =>
        simp only [carries, Option.some.injEq, Prod.mk.injEq] at hc
        obtain ⟨rfl, rfl⟩ := hc
        exact .inr ⟨rfl, rfl, rfl⟩
      | store j b => exact .inl (.inr ⟨u, _, hp, hc⟩)
      | load j b => exact .inl (.inr ⟨u, _, hp, hc⟩)
      | _ => simp [carries] at hc
    · exact .inl (.inr ⟨u, r, hr', hc⟩)

theorem flight_mem {s : Sys} {t : Tid} {p : PC} {k : Key} (hp : s.pcs[t]? = some p) (hk : keyOf p = some k) :
    0 < (inFlight s).count k := by
  rw [List.count_pos_iff]
  exact List.mem_flatMap.2 ⟨p, List.mem_of_getElem? hp, by simp [hk]⟩

theorem inv_step {s : Sys} (hI : Inv s) (t : Tid) (a : Act) : Inv (step s t a) := by
  rcases step_cases s t a with h | ⟨p, q, hp, h⟩
  · rw [h]; exact hI
  · generalize step s t a = s' at h
    have hfl := inFlight_set hp h
    have hlen := (List.getElem?_eq_some_iff.mp hp).1
    have hget : s'.pcs[t]? = some q := by rw [h.pcs]; exact List.getElem?_set_self hlen
    -- the key of the thread that moves
    have hkey : keyOf q = keyOf p ∨ (p = .idle ∧ ∃ k, q = .setLog k ∧ s'.made = s.made ++ [k]) ∨
        ∃ k a v, p = .put k a v ∧ q = .idle := by
      cases h with
      | quiet p q r h1 h2 => exact .inl (h2.trans h1.symm)
      | start k => exact .inr (.inl ⟨rfl, k, rfl, rfl⟩)
      | put k a v => exact .inr (.inr ⟨k, a, v, rfl, rfl⟩)
      | _ => exact .inl rfl
    have hmade : s'.made = s.made ∨ ∃ k, p = .idle ∧ q = .setLog k ∧ s'.made = s.made ++ [k] := by
      cases h with
      | start k => exact .inr ⟨k, rfl, rfl, rfl⟩
      | _ => exact .inl rfl
    -- what is under way grows no faster than what was made
    have hgrow : ∀ k, (inFlight s').count k + s.made.count k ≤ (inFlight s).count k + s'.made.count k := by
      intro k
      have h1 := hfl k
      rcases hkey with h2 | ⟨rfl, j, rfl, h2⟩ | ⟨j, b, v, rfl, rfl⟩
      · rw [h2] at h1
        rcases hmade with h3 | ⟨j, rfl, rfl, h3⟩
        · rw [h3]; omega
        · rw [h3, List.count_append]; omega
      · rw [h2, List.count_append]
        simp only [keyOf, Option.toList_none, List.count_nil, Option.toList_some] at h1
        omega
      · rcases hmade with h3 | ⟨i, h3, _⟩
        · rw [h3]
          simp only [keyOf, Option.toList_none, List.count_nil] at h1
          omega
        · cases h3
    have hnext : s.next ≤ s'.next := by cases h <;> first | exact Nat.le_refl _ | exact Nat.le_succ _
    have htot : s'.total = s.total ∨ ∃ k a v, p = .put k a v ∧ s'.total = fun b => if b = a then v + 1 else s.total b := by
      cases h with
      | put k a v => exact .inr ⟨k, a, v, rfl, rfl⟩
      | _ => exact .inl rfl
    have hbound : ∀ k a, Assoc s' k a → a < s'.next := by
      intro k a ha
      rcases assoc_cases hp h ha with h1 | ⟨rfl, h2, _⟩
      · exact Nat.lt_of_lt_of_le (hI.bound k a h1) hnext
      · omega
    have hlogs : ∀ l, l ∈ s.logs → l ∈ s'.logs := by
      intro l hl
      cases h with
      | setLog k => exact (mem_ins _ _ _).2 (.inl hl)
      | _ => exact hl
    have hnames : ∀ l m, m ∈ s.names l → m ∈ s'.names l := by
      intro l m hm
      cases h with
      | setName k =>
        dsimp only
        split
        · exact (mem_ins _ _ _).2 (.inl hm)
        · exact hm
      | _ => exact hm
    have hacc : ∀ k, s.acc k ≠ none → s'.acc k ≠ none := by
      intro k hk
      cases h with
      | store j b => dsimp only; split <;> simp [hk]
      | _ => exact hk
    have hmem : ∀ k, k ∈ s.made → k ∈ s'.made := by
      intro k hk
      rcases hmade with h3 | ⟨j, _, _, h3⟩
      · rw [h3]; exact hk
      · rw [h3]; exact List.mem_append_left _ hk
    refine ⟨hbound, ?_, ?_, ?_, ?_, ?_, ?_, ?_, ?_, ?_, ?_, ?_, ?_, ?_, ?_, ?_, ?_⟩
    · intro k j a hk hj
      rcases assoc_cases hp h hk with h1 | ⟨h1, _, h2⟩ <;> rcases assoc_cases hp h hj with h3 | ⟨h3, _, h4⟩
      · exact hI.uniq k j a h1 h3
      · have := hI.bound k a h1; omega
      · have := hI.bound j a h3; omega
      · rw [h2] at h4; exact Option.some.inj h4
    · intro b hb
      rcases htot with h1 | ⟨k, a, v, rfl, h1⟩
      · rw [h1]; exact hI.zero b (Nat.le_trans hnext hb)
      · rw [h1]
        have := hI.bound k a (.inr ⟨t, _, hp, rfl⟩)
        dsimp only
        rw [if_neg (by omega)]
        exact hI.zero b (Nat.le_trans hnext hb)
    · intro k
      have h1 := hgrow k
      have h2 := hI.flight k
      omega
    · intro k b hb
      have h1 := hgrow k
      rcases assoc_cases hp h hb with h2 | ⟨rfl, h2, h3⟩
      · have h3 := hI.le k b h2
        rcases htot with h4 | ⟨j, a, v, rfl, h4⟩
        · rw [h4]; omega
        · rw [h4]
          dsimp only
          split
          · next hba =>
            subst hba
            have hjk := hI.uniq k j b h2 (.inr ⟨t, _, hp, rfl⟩)
            subst hjk
            have h5 := hI.put t _ _ _ hp
            have h6 := hfl k
            have h7 : q = .idle := by
              cases h with
              | quiet _ _ _ hz _ => cases hz
              | put _ _ _ => rfl
            subst h7
            rcases hmade with h8 | ⟨i, h8, _⟩
            · rw [h8]
              simp [keyOf] at h6
              omega
            · cases h8
          · omega
      · have h4 := hI.flight k
        have h5 := hI.zero s.next (Nat.le_refl _)
        rcases htot with h6 | ⟨j, a, v, rfl, h6⟩
        · rw [h6]; omega
        · exfalso
          cases h with
          | quiet _ _ _ hz _ => cases hz
          | put _ _ _ => dsimp only [Sys.to] at h2; omega
    · intro u k b v hu
      have h1 := hgrow k
      rcases get_cases h hu with ⟨rfl, h2⟩ | ⟨_, h2⟩
      · have : p = .load k b ∧ v = s.total b := by
          subst h2
          cases h with
          | quiet _ _ _ _ hz => cases hz
          | load _ _ => exact ⟨rfl, rfl⟩
        obtain ⟨rfl, rfl⟩ := this
        have := hI.le k b (.inr ⟨u, _, hp, rfl⟩)
        omega
      · have := hI.put u k b v h2
        omega
    · intro u r k hr hk
      rcases get_cases h hr with ⟨rfl, h2⟩ | ⟨_, h2⟩
      · subst h2
        cases h with
        | quiet _ _ _ _ hz => rw [hz] at hk; cases hk
        | start j => simp only [keyOf, Option.some.injEq] at hk; subst hk; exact .inl rfl
        | setLog j => simp only [keyOf, Option.some.injEq] at hk; subst hk; exact .inr ((mem_ins _ _ _).2 (.inr rfl))
        | put _ _ _ => simp [keyOf] at hk
        | _ =>
          rcases hI.logs u _ k hp hk with h3 | h3
          · cases h3
          · exact .inr h3
      · rcases hI.logs u r k h2 hk with h3 | h3
        · exact .inl h3
        · exact .inr (hlogs _ h3)
    · intro u r k hr hk
      rcases get_cases h hr with ⟨rfl, h2⟩ | ⟨_, h2⟩
      · subst h2
        cases h with
        | quiet _ _ _ _ hz => rw [hz] at hk; cases hk
        | start j => simp only [keyOf, Option.some.injEq] at hk; subst hk; exact .inl rfl
        | setLog j => simp only [keyOf, Option.some.injEq] at hk; subst hk; exact .inr (.inl rfl)
        | setName j =>
          simp only [keyOf, Option.some.injEq] at hk; subst hk
          refine .inr (.inr ?_)
          dsimp only
          rw [if_pos rfl]
          exact (mem_ins _ _ _).2 (.inr rfl)
        | put _ _ _ => simp [keyOf] at hk
        | _ =>
          rcases hI.names u _ k hp hk with h3 | h3 | h3
          · cases h3
          · cases h3
          · exact .inr (.inr h3)
      · rcases hI.names u r k h2 hk with h3 | h3 | h3
        · exact .inl h3
        · exact .inr (.inl h3)
        · exact .inr (.inr (hnames _ _ h3))
    · intro k
      cases h with
      | store j b =>
        dsimp only
        by_cases hkj : k = j
        · subst hkj
          simp [mem_ins]
        · rw [if_neg hkj]
          by_cases h1 : k.lg = j.lg ∧ k.nm = j.nm
          · rw [if_pos h1, mem_ins, hI.stats k]
            refine ⟨.inl, fun h2 => h2.elim id fun h3 => absurd ?_ hkj⟩
            cases k; cases j; simp_all
          · rw [if_neg h1]; exact hI.stats k
      | _ => exact hI.stats k
    · intro k hk
      have : s.acc k ≠ none ∨ ∃ b, p = .store k b := by
        cases h with
        | store j b =>
          dsimp only at hk
          by_cases hkj : k = j
          · subst hkj; exact .inr ⟨b, rfl⟩
          · rw [if_neg hkj] at hk; exact .inl hk
        | _ => exact .inl hk
      rcases this with h1 | ⟨b, rfl⟩
      · exact ⟨hlogs _ (hI.there k h1).1, hnames _ _ (hI.there k h1).2⟩
      · refine ⟨hlogs _ ?_, hnames _ _ ?_⟩
        · exact (hI.logs t _ k hp rfl).resolve_left (by simp)
        · exact ((hI.names t _ k hp rfl).resolve_left (by simp)).resolve_left (by simp)
    · intro u k b hu
      have old : (s.pcs[u]? = some (.load k b) ∨ ∃ v, s.pcs[u]? = some (.put k b v)) → s'.acc k ≠ none :=
        fun h1 => hacc k (hI.stored u k b h1)
      rcases hu with hu | ⟨v, hu⟩
      · rcases get_cases h hu with ⟨rfl, h2⟩ | ⟨_, h2⟩
        · subst h2
          cases h with
          | quiet _ _ _ _ hz => cases hz
          | found _ _ h1 => dsimp only [Sys.to]; rw [h1]; simp
          | store _ _ => simp
        · exact old (.inl h2)
      · rcases get_cases h hu with ⟨rfl, h2⟩ | ⟨_, h2⟩
        · subst h2
          cases h with
          | quiet _ _ _ _ hz => cases hz
          | load _ _ => exact hI.stored u k b (.inl hp)
        · exact old (.inr ⟨v, h2⟩)
    · intro k hk
      have hk' : k ∈ s.made ∨ keyOf q = some k := by
        rcases hmade with h3 | ⟨j, _, rfl, h3⟩
        · rw [h3] at hk; exact .inl hk
        · rw [h3] at hk
          rcases List.mem_append.1 hk with h4 | h4
          · exact .inl h4
          · simp at h4; subst h4; exact .inr rfl
      rcases hk' with hk' | hk'
      · rcases hI.made k hk' with h1 | ⟨u, r, hr, hrk⟩
        · exact .inl (hacc k h1)
        · by_cases hu : u = t
          · subst hu
            rw [hp] at hr; cases hr
            rcases hkey with h2 | ⟨rfl, _⟩ | ⟨j, b, v, rfl, rfl⟩
            · exact .inr ⟨u, q, hget, h2.trans hrk⟩
            · simp [keyOf] at hrk
            · simp only [keyOf, Option.some.injEq] at hrk
              subst hrk
              exact .inl (hacc j (hI.stored u j b (.inr ⟨v, hp⟩)))
          · refine .inr ⟨u, r, ?_, hrk⟩
            rw [h.pcs, List.getElem?_set_ne (Ne.symm hu)]
            exact hr
      · exact .inr ⟨t, q, hget, hk'⟩
    · intro k hk
      have : s.acc k ≠ none ∨ ∃ b, p = .store k b := by
        cases h with
        | store j b =>
          dsimp only at hk
          by_cases hkj : k = j
          · subst hkj; exact .inr ⟨b, rfl⟩
          · rw [if_neg hkj] at hk; exact .inl hk
        | _ => exact .inl hk
      rcases this with h1 | ⟨b, rfl⟩
      · exact hmem k (hI.real k h1)
      · exact hmem k (hI.doing t _ k hp rfl)
    · intro u r k hr hk
      rcases get_cases h hr with ⟨rfl, h2⟩ | ⟨_, h2⟩
      · subst h2
        rcases hkey with h2 | ⟨rfl, j, rfl, h2⟩ | ⟨j, b, v, rfl, rfl⟩
        · exact hmem k (hI.doing u p k hp (h2 ▸ hk))
        · simp only [keyOf, Option.some.injEq] at hk
          rw [h2, ← hk]; simp
        · simp [keyOf] at hk
      · exact hmem k (hI.doing u r k h2 hk)
    · cases h with
      | setLog k => exact nodup_ins hI.nlogs _
      | _ => exact hI.nlogs
    · intro l
      cases h with
      | setName k =>
        dsimp only
        split
        · exact nodup_ins (hI.nnames l) _
        · exact hI.nnames l
      | _ => exact hI.nnames l
    · intro l m
      cases h with
      | store k b =>
        dsimp only
        split
        · exact nodup_ins (hI.nstats l m) _
        · exact hI.nstats l m
      | _ => exact hI.nstats l m

theorem init_idle {n : Nat} {t : Tid} {p : PC} (h : (init n).pcs[t]? = some p) : p = .idle :=
  List.eq_of_mem_replicate (List.mem_of_getElem? h)

theorem inv_init (n : Nat) : Inv (init n) := by
  have hno : ∀ k a, ¬ Assoc (init n) k a := by
    rintro k a (h | ⟨t, p, h, h'⟩)
    · simp [init] at h
    · rw [init_idle h] at h'; simp [carries] at h'
  have hfl : inFlight (init n) = [] := by
    unfold inFlight
    rw [List.flatMap_eq_nil_iff]
    intro p hp
    rw [List.eq_of_mem_replicate hp]; rfl
  refine ⟨fun k a h => absurd h (hno k a), fun k j a h => absurd h (hno k a), fun _ _ => rfl, ?_,
    fun k a h => absurd h (hno k a), ?_, ?_, ?_, ?_, ?_, ?_, ?_, ?_, ?_, ?_, ?_, ?_⟩
  · intro k; rw [hfl]; simp
  · intro t k a v h; have := init_idle h; cases this
  · intro t p k h hk; rw [init_idle h] at hk; simp [keyOf] at hk
  · intro t p k h hk; rw [init_idle h] at hk; simp [keyOf] at hk
  · intro k; simp [init]
  · intro k h; exact absurd rfl h
  · rintro t k a (h | ⟨v, h⟩) <;> (have := init_idle h; cases this)
  · intro k h; simp [init] at h
  · intro k h; exact absurd rfl h
  · intro t p k h hk; rw [init_idle h] at hk; simp [keyOf] at hk
  · simp [init]
  · intro l; simp [init]
  · intro l m; simp [init]

theorem inv_run {s : Sys} (h : Inv s) (sched : List (Tid × Act)) : Inv (run s sched) := by
  induction sched generalizing s with
  | nil => exact h
  | cons x sched ih => exact ih (inv_step h x.1 x.2)

/-- **C111**, part: whatever threads do, no event is counted twice: the sink never has a number above that of the events it was
given. -/
theorem C111_never_more_partial (n : Nat) (sched : List (Tid × Act)) (k : Key) :
    val (run (init n) sched) k ≤ (run (init n) sched).made.count k := by
  have h := inv_run (inv_init n) sched
  generalize run (init n) sched = s at h
  unfold val
  cases ha : s.acc k with
  | none => simp
  | some a =>
    have := h.le k a (.inl ha)
    simp only [Option.map_some, Option.getD_some]
    omega

/-- Holds when events of logger `lg` come one at a time. -/
structure Own (lg : LogId) (s : Sys) : Prop where
  sum : ∀ k : Key, k.lg = lg → val s k + (inFlight s).count k = s.made.count k
  load : ∀ (t : Tid) k a, k.lg = lg → s.pcs[t]? = some (.load k a) → s.acc k = some a
  put : ∀ (t : Tid) k a v, k.lg = lg → s.pcs[t]? = some (.put k a v) → s.acc k = some a ∧ s.total a = v
  make : ∀ (t : Tid) k, k.lg = lg → s.pcs[t]? = some (.make k) → s.acc k = none
  store : ∀ (t : Tid) k a, k.lg = lg → s.pcs[t]? = some (.store k a) → s.acc k = none ∧ s.total a = 0

/-- At most one thread is in `on_end` with an event of `lg`. -/
def Excl (lg : LogId) (s : Sys) : Prop :=
  ∀ (t u : Tid) p q k j, s.pcs[t]? = some p → s.pcs[u]? = some q → keyOf p = some k → keyOf q = some j →
    k.lg = lg → j.lg = lg → t = u

theorem own_step {lg : LogId} {s : Sys} (hI : Inv s) (hO : Own lg s) (hE : Excl lg s) (t : Tid) (a : Act) :
    Own lg (step s t a) := by
  rcases step_cases s t a with h | ⟨p, q, hp, h⟩
  · rw [h]; exact hO
  · generalize step s t a = s' at h
    have hfl := inFlight_set hp h
    -- the thread that moves has no event of `lg`, or is the only one that has
    have only : ∀ (u : Tid) r k j, u ≠ t → s.pcs[u]? = some r → keyOf r = some k → k.lg = lg → keyOf p = some j → j.lg ≠ lg :=
      fun u r k j hu hr hk hl hj hjl => hu (hE u t r p k j hr hp hk hj hl hjl)
    -- accumulators of `lg` change only by the thread that has the event
    have accs : ∀ k : Key, k.lg = lg → (∀ j, keyOf p = some j → j ≠ k) → s'.acc k = s.acc k := by
      intro k _ hne
      cases h with
      | store j b => dsimp only; rw [if_neg (hne j rfl).symm]
      | _ => rfl
    have tots : ∀ (k : Key) b, Assoc s k b → (∀ j, keyOf p = some j → j ≠ k) → s'.total b = s.total b := by
      intro k b hb hne
      cases h with
      | put j c v =>
        dsimp only
        rw [if_neg]
        rintro rfl
        exact hne j rfl (hI.uniq j k b (.inr ⟨t, _, hp, rfl⟩) hb)
      | _ => rfl
    have others : ∀ (u : Tid) r k, u ≠ t → s.pcs[u]? = some r → keyOf r = some k → k.lg = lg → ∀ j, keyOf p = some j → j ≠ k :=
      fun u r k hu hr hk hl j hj hjk => only u r k j hu hr hk hl hj (hjk ▸ hl)
    refine ⟨?_, ?_, ?_, ?_, ?_⟩
    · intro k hk
      have h1 := hO.sum k hk
      have h2 := hfl k
      by_cases hpk : keyOf p = some k
      · -- its own event
        cases h with
        | quiet _ _ _ h3 _ => rw [h3] at hpk; cases hpk
        | start j => simp [keyOf] at hpk
        | setLog j =>
          simp only [keyOf, Option.toList_some] at h2
          have h3 : ∀ m, m + List.count k [j] = (inFlight s).count k + List.count k [j] → m = (inFlight s).count k :=
            fun m hm => by omega
          rw [h3 _ h2]; exact h1
        | setName j =>
          simp only [keyOf, Option.toList_some] at h2
          have h3 : ∀ m, m + List.count k [j] = (inFlight s).count k + List.count k [j] → m = (inFlight s).count k :=
            fun m hm => by omega
          rw [h3 _ h2]; exact h1
        | found j b hb =>
          simp only [keyOf, Option.toList_some] at h2
          have h3 : ∀ m, m + List.count k [j] = (inFlight s).count k + List.count k [j] → m = (inFlight s).count k :=
            fun m hm => by omega
          rw [h3 _ h2]; exact h1
        | missing j hb =>
          simp only [keyOf, Option.toList_some] at h2
          have h3 : ∀ m, m + List.count k [j] = (inFlight s).count k + List.count k [j] → m = (inFlight s).count k :=
            fun m hm => by omega
          rw [h3 _ h2]; exact h1
        | make j =>
          simp only [keyOf, Option.toList_some] at h2
          have h3 : ∀ m, m + List.count k [j] = (inFlight s).count k + List.count k [j] → m = (inFlight s).count k :=
            fun m hm => by omega
          rw [h3 _ h2]; exact h1
        | store j b =>
          simp only [keyOf, Option.toList_some] at h2
          have h3 : ∀ m, m + List.count k [j] = (inFlight s).count k + List.count k [j] → m = (inFlight s).count k :=
            fun m hm => by omega
          rw [h3 _ h2]
          simp only [keyOf, Option.some.injEq] at hpk
          subst hpk
          obtain ⟨h4, h5⟩ := hO.store t j b hk hp
          have h6 : val s j = 0 := by unfold val; rw [h4]; rfl
          rw [h6] at h1
          change _ = s.made.count j
          rw [← h1]
          simp [val, h5, Sys.to]
        | load j b =>
          simp only [keyOf, Option.toList_some] at h2
          have h3 : ∀ m, m + List.count k [j] = (inFlight s).count k + List.count k [j] → m = (inFlight s).count k :=
            fun m hm => by omega
          rw [h3 _ h2]; exact h1
        | put j b v =>
          simp only [keyOf, Option.some.injEq] at hpk
          subst hpk
          obtain ⟨h4, h5⟩ := hO.put t j b v hk hp
          have h6 : val s j = v := by unfold val; rw [h4]; simp [h5]
          have h7 : val { s.to t .idle with total := fun c => if c = b then v + 1 else s.total c } j = v + 1 := by
            simp [val, Sys.to, h4]
          rw [h7]
          rw [h6] at h1
          simp [keyOf] at h2
          dsimp only [Sys.to] at h2 ⊢
          omega
      · -- another thread's, or another event of the same
        have hne : ∀ j, keyOf p = some j → j ≠ k := fun j hj hjk => hpk (hjk ▸ hj)
        have h3 : val s' k = val s k := by
          unfold val
          rw [accs k hk hne]
          cases ha : s.acc k with
          | none => rfl
          | some b => simp [tots k b (.inl ha) hne]
        have h4 : (keyOf p).toList.count k = 0 := by
          rw [List.count_eq_zero]
          intro hm
          exact hpk (by simpa using hm)
        rw [h3]
        rw [h4] at h2
        cases h with
        | quiet _ _ _ _ h5 => rw [h5] at h2; simp at h2; rw [h2]; exact h1
        | start j =>
          simp only [keyOf, Option.toList_some, Nat.add_zero] at h2
          rw [h2]
          dsimp only [Sys.to]
          rw [List.count_append]; omega
        | put j b v => simp [keyOf] at h2; rw [h2]; exact h1
        | setLog j =>
          have : (keyOf (.setName j)).toList.count k = 0 := h4
          rw [this] at h2; simp only [Nat.add_zero] at h2; rw [h2]; exact h1
        | setName j =>
          have : (keyOf (.look j)).toList.count k = 0 := h4
          rw [this] at h2; simp only [Nat.add_zero] at h2; rw [h2]; exact h1
        | found j b hb =>
          have : (keyOf (.load j b)).toList.count k = 0 := h4
          rw [this] at h2; simp only [Nat.add_zero] at h2; rw [h2]; exact h1
        | missing j hb =>
          have : (keyOf (.make j)).toList.count k = 0 := h4
          rw [this] at h2; simp only [Nat.add_zero] at h2; rw [h2]; exact h1
        | make j =>
          have : (keyOf (.store j s.next)).toList.count k = 0 := h4
          rw [this] at h2; simp only [Nat.add_zero] at h2; rw [h2]; exact h1
        | store j b =>
          have : (keyOf (.load j b)).toList.count k = 0 := h4
          rw [this] at h2; simp only [Nat.add_zero] at h2; rw [h2]; exact h1
        | load j b =>
          have : (keyOf (.put j b (s.total b))).toList.count k = 0 := h4
          rw [this] at h2; simp only [Nat.add_zero] at h2; rw [h2]; exact h1
    · intro u k b hk hu
      rcases get_cases h hu with ⟨rfl, h2⟩ | ⟨hut, h2⟩
      · subst h2
        cases h with
        | quiet _ _ _ _ hz => cases hz
        | found _ _ h1 => exact h1
        | store _ _ => simp
      · rw [accs k hk (others u _ k hut h2 rfl hk)]
        exact hO.load u k b hk h2
    · intro u k b v hk hu
      rcases get_cases h hu with ⟨rfl, h2⟩ | ⟨hut, h2⟩
      · subst h2
        cases h with
        | quiet _ _ _ _ hz => cases hz
        | load _ _ => exact ⟨hO.load u k b hk hp, rfl⟩
      · have hne := others u _ k hut h2 rfl hk
        rw [accs k hk hne, tots k b (.inr ⟨u, _, h2, rfl⟩) hne]
        exact hO.put u k b v hk h2
    · intro u k hk hu
      rcases get_cases h hu with ⟨rfl, h2⟩ | ⟨hut, h2⟩
      · subst h2
        cases h with
        | quiet _ _ _ _ hz => cases hz
        | missing _ h1 => exact h1
      · rw [accs k hk (others u _ k hut h2 rfl hk)]
        exact hO.make u k hk h2
    · intro u k b hk hu
      rcases get_cases h hu with ⟨rfl, h2⟩ | ⟨hut, h2⟩
      · subst h2
        cases h with
        | quiet _ _ _ _ hz => cases hz
        | make _ => exact ⟨hO.make u k hk hp, hI.zero _ (Nat.le_refl _)⟩
      · have hne := others u _ k hut h2 rfl hk
        rw [accs k hk hne, tots k b (.inr ⟨u, _, h2, rfl⟩) hne]
        exact hO.store u k b hk h2

theorem run_snoc (s : Sys) (a : List (Tid × Act)) (x : Tid × Act) : run s (a ++ [x]) = step (run s a) x.1 x.2 := by
  simp [run, List.foldl_append]

theorem own_run {n : Nat} {lg : LogId} (sched : List (Tid × Act)) (h : OneAtATime n lg sched) : Own lg (run (init n) sched) := by
  have main : ∀ rest pre, pre ++ rest = sched → Own lg (run (init n) pre) → Own lg (run (init n) sched) := by
    intro rest
    induction rest with
    | nil => intro pre hpre h; rw [List.append_nil] at hpre; exact hpre ▸ h
    | cons x rest ih =>
      intro pre hpre hO
      refine ih (pre ++ [x]) (by rw [← hpre]; simp) ?_
      rw [run_snoc]
      exact own_step (inv_run (inv_init n) pre) hO
        (fun t u p q k j h1 h2 h3 h4 h5 h6 => h pre ⟨_, hpre⟩ t u p q k j h1 h2 h3 h4 h5 h6) x.1 x.2
  refine main sched [] rfl ?_
  have hfl : inFlight (init n) = [] := by
    unfold inFlight
    rw [List.flatMap_eq_nil_iff]
    intro p hp
    rw [List.eq_of_mem_replicate hp]; rfl
  refine ⟨fun k _ => ?_, ?_, ?_, ?_, ?_⟩
  · change val (init n) k + (inFlight (init n)).count k = _
    rw [hfl]; simp [val, init, run]
  · intro t k a _ h; have := init_idle h; cases this
  · intro t k a v _ h; have := init_idle h; cases this
  · intro t k _ h; have := init_idle h; cases this
  · intro t k a _ h; have := init_idle h; cases this

/-- **C111**, part: for a logger whose events come one at a time — as those of an asynchronous logger do, which are delivered
under its lock — every event is counted, whatever other loggers and threads do with the sink meanwhile. -/
theorem C111_logger_partial (n : Nat) (sched : List (Tid × Act)) (k : Key) (h : OneAtATime n k.lg sched)
    (hq : ∀ (t : Tid) p j, (run (init n) sched).pcs[t]? = some p → keyOf p = some j → j ≠ k) :
    val (run (init n) sched) k = (run (init n) sched).made.count k := by
  have h1 := (own_run sched h).sum k rfl
  have h2 : (inFlight (run (init n) sched)).count k = 0 := by
    rw [List.count_eq_zero]
    intro hm
    obtain ⟨p, hp, hk⟩ := List.mem_flatMap.1 hm
    obtain ⟨t, ht⟩ := List.getElem?_of_mem hp
    exact hq t p k ht (by simpa using hk) rfl
  omega

/-! ### Reading -/

/-- What a reader that is not disturbed finds. -/
def table (s : Sys) : List (Key × Nat) :=
  s.logs.flatMap fun lg => (s.names lg).flatMap fun nm => (s.stats lg nm).map fun st => (⟨lg, nm, st⟩, val s ⟨lg, nm, st⟩)

/-- Steps of thread `t` alone lead from `s` to `s'`. -/
def Alone (t : Tid) (s s' : Sys) : Prop := ∃ m, run s (List.replicate m (t, .go)) = s'

theorem Alone.trans {t : Tid} {s s' s'' : Sys} (h : Alone t s s') (h' : Alone t s' s'') : Alone t s s'' := by
  obtain ⟨m, rfl⟩ := h
  obtain ⟨m', rfl⟩ := h'
  refine ⟨m + m', ?_⟩
  rw [← List.replicate_append_replicate]
  exact List.foldl_append

theorem alone_step {t : Tid} {s : Sys} (p : PC) (ht : t < s.pcs.length) : Alone t (s.to t p) (go (s.to t p) t p) := by
  refine ⟨1, ?_⟩
  simp only [List.replicate_one, run, List.foldl_cons, List.foldl_nil, step]
  have : (s.to t p).pcs[t]? = some p := List.getElem?_set_self ht
  rw [this]
  exact if_pos trivial

theorem to_to (s : Sys) (t : Tid) (p q : PC) : (s.to t p).to t q = s.to t q := by simp [Sys.to, List.set_set]

theorem read_stat {s : Sys} {t : Tid} (ht : t < s.pcs.length) (n i lg n' i' nm) : ∀ (d i'' : Nat) (out : List (Key × Nat)),
    (s.stats lg nm).length = i'' + d →
    Alone t (s.to t (.rStat n i lg n' i' nm (s.stats lg nm).length i'' out))
      (s.to t (.rName n i lg n' i' (out ++ ((s.stats lg nm).drop i'').map fun st => (⟨lg, nm, st⟩, val s ⟨lg, nm, st⟩)))) := by
  intro d
  induction d with
  | zero =>
    intro i'' out hd
    have h := alone_step (.rStat n i lg n' i' nm (s.stats lg nm).length i'' out) ht
    simp only [go] at h
    change Alone t _ (if (s.stats lg nm).length ≠ (s.stats lg nm).length then _ else match (s.stats lg nm)[i'']? with | none => _ | some _ => _) at h
    rw [if_neg (by simp), List.getElem?_eq_none (by omega), to_to] at h
    rw [List.drop_eq_nil_of_le (by omega), List.map_nil, List.append_nil]
    exact h
  | succ d ih =>
    intro i'' out hd
    have h := alone_step (.rStat n i lg n' i' nm (s.stats lg nm).length i'' out) ht
    simp only [go] at h
    change Alone t _ (if (s.stats lg nm).length ≠ (s.stats lg nm).length then _ else match (s.stats lg nm)[i'']? with | none => _ | some _ => _) at h
    have hlt : i'' < (s.stats lg nm).length := by omega
    rw [if_neg (by simp), List.getElem?_eq_getElem hlt] at h
    dsimp only at h
    rw [to_to] at h
    refine h.trans ?_
    have h2 := ih (i'' + 1) (out ++ [(⟨lg, nm, (s.stats lg nm)[i'']⟩, val s ⟨lg, nm, (s.stats lg nm)[i'']⟩)]) (by omega)
    rw [List.drop_eq_getElem_cons hlt, List.map_cons]
    rw [List.append_assoc, List.singleton_append] at h2
    exact h2

theorem read_name {s : Sys} {t : Tid} (ht : t < s.pcs.length) (n i lg) : ∀ (d i' : Nat) (out : List (Key × Nat)),
    (s.names lg).length = i' + d →
    Alone t (s.to t (.rName n i lg (s.names lg).length i' out))
      (s.to t (.rLog n i (out ++ ((s.names lg).drop i').flatMap fun nm =>
        (s.stats lg nm).map fun st => (⟨lg, nm, st⟩, val s ⟨lg, nm, st⟩)))) := by
  intro d
  induction d with
  | zero =>
    intro i' out hd
    have h := alone_step (.rName n i lg (s.names lg).length i' out) ht
    simp only [go] at h
    change Alone t _ (if (s.names lg).length ≠ (s.names lg).length then _ else match (s.names lg)[i']? with | none => _ | some _ => _) at h
    rw [if_neg (by simp), List.getElem?_eq_none (by omega), to_to] at h
    rw [List.drop_eq_nil_of_le (by omega), List.flatMap_nil, List.append_nil]
    exact h
  | succ d ih =>
    intro i' out hd
    have h := alone_step (.rName n i lg (s.names lg).length i' out) ht
    simp only [go] at h
    change Alone t _ (if (s.names lg).length ≠ (s.names lg).length then _ else match (s.names lg)[i']? with | none => _ | some _ => _) at h
    have hlt : i' < (s.names lg).length := by omega
    rw [if_neg (by simp), List.getElem?_eq_getElem hlt] at h
    dsimp only at h
    rw [to_to] at h
    refine h.trans ((read_stat ht n i lg _ (i' + 1) _ (s.stats lg (s.names lg)[i']).length 0 out (by simp)).trans ?_)
    rw [List.drop_zero]
    have h2 := ih (i' + 1) (out ++ (s.stats lg (s.names lg)[i']).map fun st => (⟨lg, (s.names lg)[i'], st⟩,
      val s ⟨lg, (s.names lg)[i'], st⟩)) (by omega)
    rw [List.drop_eq_getElem_cons hlt, List.flatMap_cons]
    rw [List.append_assoc] at h2
    exact h2

theorem read_log {s : Sys} {t : Tid} (ht : t < s.pcs.length) : ∀ (d i : Nat) (out : List (Key × Nat)), s.logs.length = i + d →
    Alone t (s.to t (.rLog s.logs.length i out))
      (s.ret t (.counts (out ++ (s.logs.drop i).flatMap fun lg => (s.names lg).flatMap fun nm =>
        (s.stats lg nm).map fun st => (⟨lg, nm, st⟩, val s ⟨lg, nm, st⟩)))) := by
  intro d
  induction d with
  | zero =>
    intro i out hd
    have h := alone_step (.rLog s.logs.length i out) ht
    simp only [go] at h
    change Alone t _ (if s.logs.length ≠ s.logs.length then _ else match s.logs[i]? with | none => _ | some _ => _) at h
    rw [if_neg (by simp), List.getElem?_eq_none (by omega)] at h
    rw [List.drop_eq_nil_of_le (by omega), List.flatMap_nil, List.append_nil]
    simp only [Sys.ret, to_to] at h
    exact h
  | succ d ih =>
    intro i out hd
    have h := alone_step (.rLog s.logs.length i out) ht
    simp only [go] at h
    change Alone t _ (if s.logs.length ≠ s.logs.length then _ else match s.logs[i]? with | none => _ | some _ => _) at h
    have hlt : i < s.logs.length := by omega
    rw [if_neg (by simp), List.getElem?_eq_getElem hlt] at h
    dsimp only at h
    rw [to_to] at h
    refine h.trans ((read_name ht _ (i + 1) _ (s.names s.logs[i]).length 0 out (by simp)).trans ?_)
    rw [List.drop_zero]
    have h2 := ih (i + 1) (out ++ (s.names s.logs[i]).flatMap fun nm => (s.stats s.logs[i] nm).map fun st =>
      (⟨s.logs[i], nm, st⟩, val s ⟨s.logs[i], nm, st⟩)) (by omega)
    rw [List.drop_eq_getElem_cons hlt, List.flatMap_cons]
    rw [List.append_assoc] at h2
    exact h2

theorem mem_table {s : Sys} (h : Inv s) (k : Key) (c : Nat) : (k, c) ∈ table s ↔ s.acc k ≠ none ∧ c = val s k := by
  unfold table
  simp only [List.mem_flatMap, List.mem_map, Prod.mk.injEq]
  constructor
  · rintro ⟨lg, _, nm, _, st, h3, rfl, rfl⟩
    exact ⟨(h.stats ⟨lg, nm, st⟩).2 h3, rfl⟩
  · rintro ⟨h1, rfl⟩
    exact ⟨k.lg, (h.there k h1).1, k.nm, (h.there k h1).2, k.st, (h.stats k).1 h1, rfl, rfl⟩

theorem nodup_table {s : Sys} (h : Inv s) : ((table s).map (·.1)).Nodup := by
  have e : (table s).map (·.1) = s.logs.flatMap fun lg => (s.names lg).flatMap fun nm => (s.stats lg nm).map fun st => (⟨lg, nm, st⟩ : Key) := by
    unfold table
    rw [List.map_flatMap]
    congr 1; funext lg
    rw [List.map_flatMap]
    congr 1; funext nm
    rw [List.map_map]; rfl
  rw [e, List.Nodup, List.pairwise_flatMap]
  refine ⟨fun lg _ => ?_, ?_⟩
  · rw [List.pairwise_flatMap]
    refine ⟨fun nm _ => ?_, ?_⟩
    · rw [List.pairwise_map]
      exact (h.nstats lg nm).imp fun hab he => hab (by injection he)
    · refine (h.nnames lg).imp fun hab x hx y hy he => ?_
      obtain ⟨_, _, rfl⟩ := List.mem_map.1 hx
      obtain ⟨_, _, rfl⟩ := List.mem_map.1 hy
      exact hab (by injection he)
  · refine h.nlogs.imp fun hab x hx y hy he => ?_
    obtain ⟨_, _, hx⟩ := List.mem_flatMap.1 hx
    obtain ⟨_, _, hy⟩ := List.mem_flatMap.1 hy
    obtain ⟨_, _, rfl⟩ := List.mem_map.1 hx
    obtain ⟨_, _, rfl⟩ := List.mem_map.1 hy
    exact hab (by injection he)

theorem run_append (s : Sys) (a b : List (Tid × Act)) : run s (a ++ b) = run (run s a) b := by
  simp [run, List.foldl_append]

/-- **C111**, part: if the events of each logger come one at a time and none is being delivered, reading the counts returns, once
for each key an event was given for, the number of these events, and nothing else. -/
theorem C111_read_partial (n : Nat) (sched : List (Tid × Act)) (t : Tid) (ht : t < n) (h : ∀ lg, OneAtATime n lg sched)
    (hq : Quiescent (run (init n) sched)) :
    ∃ m out, (run (init n) (sched ++ (t, .counts) :: List.replicate m (t, .go))).res t = some (.counts out) ∧
      (out.map (·.1)).Nodup ∧ ∀ k c, (k, c) ∈ out ↔ c = (run (init n) sched).made.count k ∧ 0 < c := by
  have hI := inv_run (inv_init n) sched
  have hval : ∀ k, val (run (init n) sched) k = (run (init n) sched).made.count k := by
    intro k
    refine C111_logger_partial n sched k (h k.lg) fun u p j hp hj => ?_
    rw [hq p (List.mem_of_getElem? hp)] at hj
    cases hj
  have hlen : (run (init n) sched).pcs.length = n := by
    have main : ∀ s : Sys, (run s sched).pcs.length = s.pcs.length := by
      clear hval hI hq h
      induction sched with
      | nil => exact fun _ => rfl
      | cons x sched ih =>
        intro s
        refine (ih _).trans ?_
        change (step s x.1 x.2).pcs.length = _
        rcases step_cases s x.1 x.2 with h1 | ⟨p, q, _, h1⟩
        · rw [h1]
        · rw [h1.pcs, List.length_set]
    rw [main]; simp [init]
  simp only [run_append]
  generalize run (init n) sched = s at hI hval hq hlen
  have htl : t < s.pcs.length := by rw [hlen]; exact ht
  have hidle : s.pcs[t]? = some .idle := by
    rw [List.getElem?_eq_getElem htl, hq _ (List.getElem_mem htl)]
  have hst : step s t .counts = { s with res := fun u => if u = t then none else s.res u }.to t (.rLog s.logs.length 0 []) := by
    unfold step; rw [hidle]; simp [call, Sys.to]
  obtain ⟨m, hm⟩ := read_log (s := { s with res := fun u => if u = t then none else s.res u }) htl s.logs.length 0 [] (by simp)
  refine ⟨m, table s, ?_, nodup_table hI, fun k c => ?_⟩
  · change (run (step s t .counts) _).res t = _
    rw [hst, hm, List.drop_zero, List.nil_append]
    simp only [Sys.ret, if_pos rfl]
    rfl
  · rw [mem_table hI, hval]
    constructor
    · rintro ⟨h1, rfl⟩
      exact ⟨rfl, List.count_pos_iff.2 (hI.real k h1)⟩
    · rintro ⟨rfl, h1⟩
      refine ⟨?_, rfl⟩
      rcases hI.made k (List.count_pos_iff.1 h1) with h2 | ⟨u, p, hp, hk⟩
      · exact h2
      · rw [hq p (List.mem_of_getElem? hp)] at hk; cases hk

/-- The sizes a reader has noted are still right; no event under way is the first of its kind. -/
structure Calm (s0 s : Sys) : Prop where
  logs : s.logs = s0.logs
  names : s.names = s0.names
  stats : s.stats = s0.stats
  known : ∀ (t : Tid) p k, s.pcs[t]? = some p → keyOf p = some k → k.lg ∈ s.logs ∧ k.nm ∈ s.names k.lg ∧ s.acc k ≠ none
  late : ∀ (t : Tid) p k, s.pcs[t]? = some p → keyOf p = some k → p ≠ .make k ∧ ∀ a, p ≠ .store k a
  rlog : ∀ (t : Tid) n i out, s.pcs[t]? = some (.rLog n i out) → n = s.logs.length
  rname : ∀ (t : Tid) n i lg n' i' out, s.pcs[t]? = some (.rName n i lg n' i' out) → n = s.logs.length ∧ n' = (s.names lg).length
  rstat : ∀ (t : Tid) n i lg n' i' nm n'' i'' out, s.pcs[t]? = some (.rStat n i lg n' i' nm n'' i'' out) →
    n = s.logs.length ∧ n' = (s.names lg).length ∧ n'' = (s.stats lg nm).length
  res : ∀ t, s0.res t ≠ some .runtimeError → s.res t ≠ some .runtimeError
  acc : ∀ k, s0.acc k ≠ none → s.acc k ≠ none

theorem ins_of_mem {α : Type} [DecidableEq α] {l : List α} {x : α} (h : x ∈ l) : ins l x = l := by unfold ins; rw [if_pos h]

theorem calm_step {s0 s : Sys} (hK : ∀ k, s0.acc k ≠ none → k.lg ∈ s0.logs ∧ k.nm ∈ s0.names k.lg) (h : Calm s0 s) (t : Tid) (a : Act)
    (ha : ∀ k, a = .onEnd k → s0.acc k ≠ none) : Calm s0 (step s t a) := by
  unfold step
  cases hp : s.pcs[t]? with
  | none => exact h
  | some p =>
    dsimp only
    have hlen := (List.getElem?_eq_some_iff.mp hp).1
    -- the thread moves to `q`, the tables stay
    have move : ∀ (s' : Sys) (q : PC), s'.pcs = s.pcs.set t q → s'.logs = s.logs → s'.names = s.names → s'.stats = s.stats →
        (∀ k, s.acc k ≠ none → s'.acc k ≠ none) → (∀ u, s.res u ≠ some .runtimeError → s'.res u ≠ some .runtimeError) →
        (∀ k, keyOf q = some k → (k.lg ∈ s.logs ∧ k.nm ∈ s.names k.lg ∧ s.acc k ≠ none) ∧ q ≠ .make k ∧ ∀ a, q ≠ .store k a) →
        (∀ n i out, q = .rLog n i out → n = s.logs.length) →
        (∀ n i lg n' i' out, q = .rName n i lg n' i' out → n = s.logs.length ∧ n' = (s.names lg).length) →
        (∀ n i lg n' i' nm n'' i'' out, q = .rStat n i lg n' i' nm n'' i'' out →
          n = s.logs.length ∧ n' = (s.names lg).length ∧ n'' = (s.stats lg nm).length) → Calm s0 s' := by
      intro s' q e1 e2 e3 e4 e5 e6 e7 e8 e9 e10
      have get : ∀ {u : Tid} {r : PC}, s'.pcs[u]? = some r → r = q ∨ s.pcs[u]? = some r := by
        intro u r hr
        rw [e1, List.getElem?_set] at hr
        split at hr
        · exact .inl (Option.some.inj hr).symm
        · exact .inr hr
      refine ⟨e2.trans h.logs, e3.trans h.names, e4.trans h.stats, ?_, ?_, ?_, ?_, ?_, fun u hu => e6 u (h.res u hu),
        fun k hk => e5 k (h.acc k hk)⟩
      · intro u r k hr hk
        rw [e2, e3]
        rcases get hr with rfl | hr
        · obtain ⟨⟨x1, x2, x3⟩, _⟩ := e7 k hk
          exact ⟨x1, x2, e5 k x3⟩
        · obtain ⟨x1, x2, x3⟩ := h.known u r k hr hk
          exact ⟨x1, x2, e5 k x3⟩
      · intro u r k hr hk
        rcases get hr with rfl | hr
        · exact (e7 k hk).2
        · exact h.late u r k hr hk
      · intro u n i out hr
        rw [e2]
        rcases get hr with hr | hr
        · exact e8 n i out hr.symm
        · exact h.rlog u n i out hr
      · intro u n i lg n' i' out hr
        rw [e2, e3]
        rcases get hr with hr | hr
        · exact e9 n i lg n' i' out hr.symm
        · exact h.rname u n i lg n' i' out hr
      · intro u n i lg n' i' nm n'' i'' out hr
        rw [e2, e3, e4]
        rcases get hr with hr | hr
        · exact e10 n i lg n' i' nm n'' i'' out hr.symm
        · exact h.rstat u n i lg n' i' nm n'' i'' out hr
    have key : ∀ k, keyOf p = some k → k.lg ∈ s.logs ∧ k.nm ∈ s.names k.lg ∧ s.acc k ≠ none := fun k => h.known t p k hp
    split
    · cases p with
      | idle => exact h
      | setLog k =>
        refine move _ (.setName k) rfl (ins_of_mem (key k rfl).1) rfl rfl (fun _ x => x) (fun _ x => x) ?_ (by simp) (by simp) (by simp)
        intro j hj; cases hj; exact ⟨key k rfl, by simp, by simp⟩
      | setName k =>
        refine move _ (.look k) rfl rfl ?_ rfl (fun _ x => x) (fun _ x => x) ?_ (by simp) (by simp) (by simp)
        · funext l
          simp only [go]
          split
          · next e => subst e; exact ins_of_mem (key k rfl).2.1
          · rfl
        · intro j hj; cases hj; exact ⟨key k rfl, by simp, by simp⟩
      | look k =>
        simp only [go]
        cases hb : s.acc k with
        | none => exact absurd hb (key k rfl).2.2
        | some b =>
          refine move _ (.load k b) rfl rfl rfl rfl (fun _ x => x) (fun _ x => x) ?_ (by simp) (by simp) (by simp)
          intro j hj; cases hj; exact ⟨key k rfl, by simp, by simp⟩
      | make k => exact absurd rfl (h.late t _ k hp rfl).1
      | store k b => exact absurd rfl ((h.late t _ k hp rfl).2 b)
      | load k b =>
        refine move _ (.put k b (s.total b)) rfl rfl rfl rfl (fun _ x => x) (fun _ x => x) ?_ (by simp) (by simp) (by simp)
        intro j hj; cases hj; exact ⟨key k rfl, by simp, by simp⟩
      | put k b v =>
        exact move _ .idle rfl rfl rfl rfl (fun _ x => x) (fun _ x => x) (by simp [keyOf]) (by simp) (by simp) (by simp)
      | rLog n i out =>
        have hn := h.rlog t n i out hp
        simp only [go]
        rw [if_neg (by simp [hn])]
        split
        · refine move _ .idle rfl rfl rfl rfl (fun _ x => x) (fun u x => ?_) (by simp [keyOf]) (by simp) (by simp) (by simp)
          simp only [Sys.ret]; split
          · simp
          · exact x
        · refine move _ (.rName n (i + 1) _ _ 0 out) rfl rfl rfl rfl (fun _ x => x) (fun _ x => x) (by simp [keyOf]) (by simp) ?_ (by simp)
          intro _ _ _ _ _ _ e; cases e; exact ⟨hn, rfl⟩
      | rName n i lg n' i' out =>
        have hn := h.rname t n i lg n' i' out hp
        simp only [go]
        rw [if_neg (by simp [hn.2])]
        split
        · refine move _ (.rLog n i out) rfl rfl rfl rfl (fun _ x => x) (fun _ x => x) (by simp [keyOf]) ?_ (by simp) (by simp)
          intro _ _ _ e; cases e; exact hn.1
        · refine move _ (.rStat n i lg n' (i' + 1) _ _ 0 out) rfl rfl rfl rfl (fun _ x => x) (fun _ x => x) (by simp [keyOf]) (by simp) (by simp) ?_
          intro _ _ _ _ _ _ _ _ _ e; cases e; exact ⟨hn.1, hn.2, rfl⟩
      | rStat n i lg n' i' nm n'' i'' out =>
        have hn := h.rstat t n i lg n' i' nm n'' i'' out hp
        simp only [go]
        rw [if_neg (by simp [hn.2.2])]
        split
        · refine move _ (.rName n i lg n' i' out) rfl rfl rfl rfl (fun _ x => x) (fun _ x => x) (by simp [keyOf]) (by simp) ?_ (by simp)
          intro _ _ _ _ _ _ e; cases e; exact ⟨hn.1, hn.2.1⟩
        · refine move _ (.rStat n i lg n' i' nm n'' (i'' + 1) _) rfl rfl rfl rfl (fun _ x => x) (fun _ x => x) (by simp [keyOf]) (by simp) (by simp) ?_
          intro _ _ _ _ _ _ _ _ _ e; cases e; exact hn
    · split
      · cases a with
        | go => exact h
        | onEnd k =>
          have hk := ha k rfl
          refine move _ (.setLog k) rfl rfl rfl rfl (fun _ x => x) (fun _ x => x) ?_ (by simp) (by simp) (by simp)
          intro j hj; cases hj
          refine ⟨⟨?_, ?_, h.acc k hk⟩, by simp, by simp⟩
          · rw [h.logs]; exact (hK k hk).1
          · rw [h.names]; exact (hK k hk).2
        | counts =>
          refine move _ (.rLog s.logs.length 0 []) rfl rfl rfl rfl (fun _ x => x) (fun u x => ?_) (by simp [keyOf]) ?_ (by simp) (by simp)
          · simp only [call]; split
            · simp
            · exact x
          · intro _ _ _ e; cases e; rfl
      · exact h

/-- **C111**, part: while only events of kinds the sink has seen before are delivered, by any threads at any moment, reading the
counts does not raise. -/
theorem C111_read_calm_partial (n : Nat) (before after : List (Tid × Act)) (t : Tid) (hq : Quiescent (run (init n) before))
    (hk : ∀ x ∈ after, ∀ k, x.2 = .onEnd k → k ∈ (run (init n) before).made)
    (hr : (run (init n) before).res t ≠ some .runtimeError) :
    (run (init n) (before ++ after)).res t ≠ some .runtimeError := by
  have hI := inv_run (inv_init n) before
  rw [run_append]
  generalize run (init n) before = s at hI hq hk hr
  have hidle : ∀ {u : Tid} {p : PC}, s.pcs[u]? = some p → p = .idle := fun hu => hq _ (List.mem_of_getElem? hu)
  have h0 : Calm s s := by
    refine ⟨rfl, rfl, rfl, ?_, ?_, ?_, ?_, ?_, fun _ x => x, fun _ x => x⟩
    · intro u p k hu hk; rw [hidle hu] at hk; cases hk
    · intro u p k hu hk; rw [hidle hu] at hk; cases hk
    · intro u n i out hu; have := hidle hu; cases this
    · intro u n i lg n' i' out hu; have := hidle hu; cases this
    · intro u n i lg n' i' nm n'' i'' out hu; have := hidle hu; cases this
  have hk' : ∀ x ∈ after, ∀ k, x.2 = .onEnd k → s.acc k ≠ none := by
    intro x hx k hxk
    rcases hI.made k (hk x hx k hxk) with h1 | ⟨u, p, hu, hp⟩
    · exact h1
    · rw [hidle hu] at hp; cases hp
  have main : ∀ s', Calm s s' → Calm s (run s' after) := by
    clear hk
    induction after with
    | nil => exact fun _ h => h
    | cons x after ih =>
      intro s' h
      exact ih (fun y hy => hk' y (List.mem_cons_of_mem _ hy)) _
        (calm_step hI.there h x.1 x.2 (fun k e => hk' x List.mem_cons_self k e))
  exact (main s h0).res t hr

/-! ### The hypotheses can be met -/

/-- Two loggers share the sink and are used by two threads at once; then the first thread reads the counts. -/
def two : List (Tid × Act) :=
  [(0, .onEnd ⟨0, 0, 0⟩), (1, .onEnd ⟨1, 0, 0⟩), (0, .go), (1, .go), (0, .go), (1, .go), (0, .go), (1, .go), (0, .go), (1, .go),
   (0, .go), (1, .go), (0, .go), (1, .go), (0, .go), (1, .go), (0, .onEnd ⟨0, 0, 0⟩), (1, .onEnd ⟨1, 0, 1⟩)] ++
  List.replicate 7 (1, .go) ++ List.replicate 5 (0, .go)

/-- Whoever is in `on_end` with an event of logger `k` is thread `k`: a sufficient check. -/
def sorted (s : Sys) : Bool :=
  (List.range s.pcs.length).all fun t => match s.pcs[t]? with
    | some p => match keyOf p with | some k => k.lg == t | none => true
    | none => true

theorem oneAtATime_of {n : Nat} {sched : List (Tid × Act)} (h : ∀ i ≤ sched.length, sorted (run (init n) (sched.take i)) = true)
    (lg : LogId) : OneAtATime n lg sched := by
  have key : ∀ (s : Sys) (t : Tid) p k, sorted s = true → s.pcs[t]? = some p → keyOf p = some k → k.lg = t := by
    intro s t p k hs hp hk
    have h1 := List.all_eq_true.1 hs t (List.mem_range.2 (List.getElem?_eq_some_iff.mp hp).1)
    rw [hp] at h1
    dsimp only at h1
    rw [hk] at h1
    simpa using h1
  intro pre hpre t u p q k j h1 h2 h3 h4 h5 h6
  have h7 := h pre.length hpre.length_le
  rw [← List.prefix_iff_eq_take.1 hpre] at h7
  rw [← key _ t p k h7 h1 h3, ← key _ u q j h7 h2 h4, h5, h6]

example : (∀ lg, OneAtATime 2 lg two) ∧ Quiescent (run (init 2) two) ∧
    (run (init 2) (two ++ (0, .counts) :: List.replicate 12 (0, .go))).res 0 =
      some (.counts [(⟨0, 0, 0⟩, 2), (⟨1, 0, 0⟩, 1), (⟨1, 0, 1⟩, 1)]) := by
  refine ⟨fun lg => oneAtATime_of (by decide +kernel) lg, by unfold Quiescent; decide +kernel, by decide +kernel⟩

/-- A reader and a thread that goes on publishing known kinds of events. -/
example : Quiescent (run (init 2) two) ∧ (run (init 2) two).res 0 = none ∧ ⟨1, 0, 1⟩ ∈ (run (init 2) two).made ∧
    (run (init 2) (two ++ [(0, .counts), (0, .go), (1, .onEnd ⟨1, 0, 1⟩)] ++ List.replicate 5 (1, .go) ++ List.replicate 12 (0, .go))).res 0 =
      some (.counts [(⟨0, 0, 0⟩, 2), (⟨1, 0, 0⟩, 1), (⟨1, 0, 1⟩, 2)]) := by
  refine ⟨by unfold Quiescent; decide +kernel, by decide +kernel, by decide +kernel, by decide +kernel⟩

end Verif.SinkConc
