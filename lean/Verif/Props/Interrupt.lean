import Verif.Model.Interrupt
/-!
# C106: with blocks that are interrupted
-/
namespace Verif.Interrupt

/-- Does it concern action `a`? -/
def Out.about (a : ActId) : Out → Bool
  | .begin b => b = a
  | .fin b _ => b = a

/-- The action of something published. -/
def Out.act : Out → ActId
  | .begin a => a
  | .fin a _ => a

theorem about_iff (a : ActId) (o : Out) : o.about a = true ↔ o.act = a := by cases o <;> simp [Out.about, Out.act]

/-- Everything published about an action: nothing, its begin, or its begin and one end after it. -/
def Whole (a : ActId) (out : List Out) : Prop :=
  out.filter (Out.about a) = [] ∨ out.filter (Out.about a) = [Out.begin a] ∨
    ∃ st, out.filter (Out.about a) = [Out.begin a, Out.fin a st]

/-- Its begin and one end after it. -/
def Complete (a : ActId) (out : List Out) : Prop := ∃ st, out.filter (Out.about a) = [Out.begin a, Out.fin a st]

/-- **The full claim C106**: wherever the exception comes, in whatever program, in the end the active action is what it was
and every action that has begun has ended. -/
def C106_full : Prop :=
  ∀ (p : Prog) (n : Option Nat) (s : S),
    (exec p s none n).s.active = s.active ∧
    ∀ a, Out.begin a ∈ (exec p {} none n).s.out → ∃ st, Out.fin a st ∈ (exec p {} none n).s.out

/-! ### Steps -/

theorem steps_cons (a : Option ActId) (f : S → S) (fs : List (S → S)) (s : S) (n : Option Nat) :
    steps a (f :: fs) s n = if n = some 0 then (s, none, true, a) else steps a fs (f s) (n.map (· - 1)) := by
  cases n with
  | none => simp [steps]
  | some n => cases n <;> simp [steps]

/-- What steps leave behind when they were not interrupted. -/
theorem steps_done (a : Option ActId) (fs : List (S → S)) (s : S) (n : Option Nat) (h : (steps a fs s n).2.2.1 = false) :
    (steps a fs s n).1 = fs.foldl (fun s f => f s) s ∧ (steps a fs s n).2.2.2 = none := by
  induction fs generalizing s n with
  | nil => simp [steps]
  | cons f fs ih =>
    rw [steps_cons] at h ⊢
    split at h
    · simp at h
    · rename_i hn
      rw [if_neg hn]
      exact ih _ _ h

theorem steps_hit (a : Option ActId) (fs : List (S → S)) (s : S) (n : Option Nat) (h : (steps a fs s n).2.2.1 = true) :
    (steps a fs s n).2.2.2 = a := by
  induction fs generalizing s n with
  | nil => simp [steps] at h
  | cons f fs ih =>
    rw [steps_cons] at h ⊢
    split at h
    · rename_i hn; rw [if_pos hn]
    · rename_i hn
      rw [if_neg hn]
      exact ih _ _ h

/-- Steps that only ever do certain things. -/
theorem steps_inv (P : S → Prop) (a : Option ActId) (fs : List (S → S)) (s : S) (n : Option Nat) (h0 : P s)
    (h : ∀ f ∈ fs, ∀ s, P s → P (f s)) : P (steps a fs s n).1 := by
  induction fs generalizing s n with
  | nil => exact h0
  | cons f fs ih =>
    rw [steps_cons]
    split
    · exact h0
    · exact ih _ _ (h f (by simp) s h0) fun g hg => h g (by simp [hg])

/-! ### What a program does -/

/-- The relation between the state before and after, `c`: whether a completed run restores the active action. -/
structure Rel (s : S) (r : Res) : Prop where
  next : s.next ≤ r.s.next
  out : ∃ N, r.s.out = s.out ++ N ∧ (∀ o ∈ N, s.next ≤ o.act ∧ o.act < r.s.next) ∧ (∀ a, Whole a N) ∧
    (∀ a, s.next ≤ a → a < r.s.next → r.hit ≠ some a → Complete a N)
  hitNew : ∀ a, r.hit = some a → s.next ≤ a ∧ a < r.s.next
  hitRaised : r.hit = none ∨ r.fuel = none
  active : r.hit = none → r.s.active = s.active

theorem filter_none {a : ActId} {N : List Out} (h : ∀ o ∈ N, o.act ≠ a) : N.filter (Out.about a) = [] := by
  rw [List.filter_eq_nil_iff]
  intro o ho hb
  exact h o ho ((about_iff a o).1 hb)

theorem Rel.nothing (s : S) (en : Option Status) (n : Option Nat) (b : Bool) : Rel s ⟨s, en, n, b, none⟩ where
  next := Nat.le_refl _
  out := ⟨[], by simp, by simp, fun a => .inl rfl, fun a h1 h2 => absurd h2 (by simpa using h1)⟩
  hitNew := by simp
  hitRaised := .inl rfl
  active _ := rfl

theorem or_fuel {h h' : Option ActId} {f f' : Option Nat} (h1 : h = none ∨ f = none) (h2 : h' = none ∨ f' = none)
    (h3 : f = none → f' = none) : h.or h' = none ∨ f' = none := by
  rcases h1 with rfl | rfl
  · simpa using h2
  · exact .inr (h3 rfl)

/-- No interruption is left once it came. -/
theorem steps_fuel (a : Option ActId) (fs : List (S → S)) (s : S) : (steps a fs s none).2.1 = none ∧ (steps a fs s none).2.2.1 = false := by
  induction fs generalizing s with
  | nil => simp [steps]
  | cons f fs ih => rw [steps_cons]; simpa using ih (f s)

theorem exec_fuel (p : Prog) (s : S) (en : Option Status) : (exec p s en none).fuel = none ∧ (exec p s en none).hit = none := by
  induction p generalizing s en with
  | skip => simp [exec]
  | seq p q ihp ihq =>
    simp only [exec]
    obtain ⟨h1, h2⟩ := ihp s en
    split
    · exact ⟨h1, h2⟩
    · rw [h1, h2]
      simpa using ihq _ _
  | mark st =>
    simp [exec, steps]
  | raise => simp [exec]
  | try_ p q ihp ihq =>
    simp only [exec]
    obtain ⟨h1, h2⟩ := ihp s en
    split
    · rw [h1, h2]
      simpa using ihq _ _
    · exact ⟨h1, h2⟩
  | block w p ih =>
    simp only [exec]
    obtain ⟨a1, a2⟩ := steps_fuel none [fun s => { s with next := s.next + 1 }] s
    rw [a2, a1]
    simp only [Bool.false_eq_true, if_false]
    have b := steps_fuel (some s.next) (enterSteps s.next)
      (steps none [fun s => { s with next := s.next + 1 }] s none).1
    rw [b.2, b.1]
    simp only [Bool.false_eq_true, if_false]
    obtain ⟨c1, c2⟩ := ih (steps (some s.next) (enterSteps s.next)
      (steps none [fun s => { s with next := s.next + 1 }] s none).1 none).1 none
    rw [c1, c2]
    simp only [Option.none_or]
    generalize exec p _ none none = r
    generalize (if r.raised = true then Status.exception else r.ended.getD .success) = st
    have z := steps_fuel (some s.next) (exitSteps s.next s.active st) r.s
    exact ⟨z.1, (steps_done _ _ _ _ z.2).2⟩

/-- One piece after the other. -/
theorem Rel.trans {s : S} {r r' : Res} (h : Rel s r) (h' : Rel r.s r') (hf : r.fuel = none → r'.fuel = none ∧ r'.hit = none) :
    Rel s { r' with hit := r.hit.or r'.hit } := by
  obtain ⟨N, n1, n2, n3, n4⟩ := h.out
  obtain ⟨N', n1', n2', n3', n4'⟩ := h'.out
  have hn := h.next
  have hn' := h'.next
  have old : ∀ a, r.s.next ≤ a → N.filter (Out.about a) = [] := fun a ha =>
    filter_none fun o ho e => by have := (n2 o ho).2; omega
  have new : ∀ a, a < r.s.next → N'.filter (Out.about a) = [] := fun a ha =>
    filter_none fun o ho e => by have := (n2' o ho).1; omega
  have hhit : r.hit = none ∨ (r.hit.or r'.hit = r.hit ∧ r'.hit = none) := by
    rcases h.hitRaised with h1 | h1
    · exact .inl h1
    · rw [(hf h1).2]; exact .inr ⟨by simp, rfl⟩
  refine ⟨Nat.le_trans hn hn', ⟨N ++ N', by rw [n1', n1, List.append_assoc], ?_, ?_, ?_⟩, ?_, ?_, ?_⟩
  · intro o ho
    dsimp only
    rcases List.mem_append.1 ho with ho | ho
    · have := n2 o ho; omega
    · have := n2' o ho; omega
  · intro a
    by_cases ha : a < r.s.next
    · have := n3 a
      simpa only [Whole, List.filter_append, new a ha, List.append_nil] using this
    · have := n3' a
      simpa only [Whole, List.filter_append, old a (by omega), List.nil_append] using this
  · intro a h1 h2 h3
    dsimp only at h2 h3
    by_cases ha : a < r.s.next
    · have : r.hit ≠ some a := by
        intro e
        rw [e] at h3
        simp at h3
      have := n4 a h1 ha this
      simpa only [Complete, List.filter_append, new a ha, List.append_nil] using this
    · have hne : r'.hit ≠ some a := by
        intro e
        rcases hhit with e' | ⟨_, e'⟩
        · rw [e', e] at h3; simp at h3
        · rw [e'] at e; cases e
      have := n4' a (by omega) h2 hne
      simpa only [Complete, List.filter_append, old a (by omega), List.nil_append] using this
  · intro a ha
    dsimp only at ha ⊢
    rcases hhit with e | ⟨e, _⟩
    · rw [e, Option.none_or] at ha
      have := h'.hitNew a ha; omega
    · rw [e] at ha
      have := h.hitNew a ha; omega
  · exact or_fuel h.hitRaised h'.hitRaised fun e => (hf e).1
  · intro ha
    dsimp only at ha ⊢
    have h1 : r.hit = none := by cases hr : r.hit <;> simp_all
    have h2 : r'.hit = none := by rw [h1] at ha; simpa using ha
    rw [h'.active h2, h.active h1]

theorem exec_rel (p : Prog) (s : S) (en : Option Status) (n : Option Nat) : Rel s (exec p s en n) := by
  induction p generalizing s en n with
  | skip => exact .nothing ..
  | seq p q ihp ihq =>
    simp only [exec]
    split
    · exact ihp ..
    · refine (ihp s en n).trans (ihq _ _ _) fun e => ?_
      rw [e]; exact exec_fuel ..
  | mark st =>
    simp only [exec, steps_cons]
    by_cases hn : n = some 0
    · simp only [hn, if_true]; exact .nothing ..
    · simp only [hn, if_false, steps]; exact .nothing ..
  | raise => exact .nothing ..
  | try_ p q ihp ihq =>
    simp only [exec]
    split
    · refine (ihp s en n).trans (ihq _ _ _) fun e => ?_
      rw [e]; exact exec_fuel ..
    · exact ihp ..
  | block w p ih =>
    simp only [exec]
    generalize h1 : steps none [fun s : S => { s with next := s.next + 1 }] s n = q1
    obtain ⟨s1, n1, raised1, hit1⟩ := q1
    cases raised1 with
    | true =>
      simp only [if_true]
      rw [steps_cons] at h1
      split at h1
      · cases h1; exact .nothing ..
      · simp [steps] at h1
    | false =>
      simp only [Bool.false_eq_true, if_false]
      have e1 : s1 = { s with next := s.next + 1 } := by
        have := (steps_done none _ s n (by rw [h1])).1
        rw [h1] at this
        simpa using this
      generalize h2 : steps (some s.next) (enterSteps s.next) s1 n1 = q2
      obtain ⟨s2, n2, raised2, hit2⟩ := q2
      cases raised2 with
      | true =>
        simp only [if_true]
        have eh : hit2 = some s.next := by
          have := steps_hit (some s.next) (enterSteps s.next) s1 n1 (by rw [h2])
          rw [h2] at this; exact this
        have hf : n2 = none := by
          have : ∀ (fs : List (S → S)) (s : S) (n : Option Nat), (steps (some s1.next) fs s n).2.2.1 = true →
              (steps (some s1.next) fs s n).2.1 = none := by
            intro fs
            induction fs with
            | nil => intro s n h; simp [steps] at h
            | cons f fs ih' =>
              intro s n h
              rw [steps_cons] at h ⊢
              split at h
              · rename_i hn; rw [if_pos hn]
              · rename_i hn; rw [if_neg hn]; exact ih' _ _ h
          have h4 : ∀ (a b : Option ActId) (fs : List (S → S)) (s : S) (n : Option Nat),
              (steps a fs s n).2.1 = (steps b fs s n).2.1 ∧ (steps a fs s n).2.2.1 = (steps b fs s n).2.2.1 := by
            intro a b fs
            induction fs with
            | nil => intro s n; simp [steps]
            | cons f fs ih' =>
              intro s n
              rw [steps_cons, steps_cons]
              split
              · simp
              · exact ih' _ _
          have e := this (enterSteps s.next) s1 n1 (by rw [(h4 _ (some s.next) _ _ _).2, h2])
          rw [(h4 _ (some s.next) _ _ _).1, h2] at e
          exact e
        -- what the interrupted steps have done
        have hP : s2.next = s.next + 1 ∧ (s2.out = s.out ∨ s2.out = s.out ++ [Out.begin s.next]) := by
          have := h2
          simp only [enterSteps, steps_cons, steps] at this
          split at this
          · cases this; simp [e1]
          · split at this
            · cases this; simp [e1]
            · split at this
              · cases this; simp [e1]
              · split at this
                · cases this; simp [e1]
                · split at this
                  · cases this; simp [e1]
                  · simp at this
        obtain ⟨p1, p2⟩ := hP
        subst hf; subst eh
        have only : ∀ a, s.next ≤ a → a < s2.next → a = s.next := by intro a h1 h2; omega
        rcases p2 with p2 | p2
        · refine ⟨by dsimp only; omega, ⟨[], by simpa using p2, by simp, fun a => .inl rfl, ?_⟩, ?_, .inr rfl, by simp⟩
          · intro a h1 h2 h3; exact absurd (congrArg some (only a h1 h2)).symm h3
          · intro a ha; cases ha; exact ⟨Nat.le_refl _, by dsimp only; omega⟩
        · refine ⟨by dsimp only; omega, ⟨[Out.begin s.next], p2, ?_, ?_, ?_⟩, ?_, .inr rfl, by simp⟩
          · intro o ho
            simp only [List.mem_singleton] at ho
            subst ho
            simp only [Out.act]; omega
          · intro a
            by_cases ha : a = s.next
            · subst ha; right; left; simp [Out.about]
            · left; simp [Out.about, Ne.symm ha]
          · intro a h1 h2 h3; exact absurd (congrArg some (only a h1 h2)).symm h3
          · intro a ha; cases ha; exact ⟨Nat.le_refl _, by dsimp only; omega⟩
      | false =>
        simp only [Bool.false_eq_true, if_false]
        have e2 : s2 = { next := s.next + 1, active := some s.next, out := s.out ++ [Out.begin s.next] } := by
          have := (steps_done (some s.next) _ s1 n1 (by rw [h2])).1
          rw [h2] at this
          simpa [enterSteps, e1] using this
        have hb := ih s2 none n2
        generalize exec p s2 none n2 = r at hb ⊢
        generalize (if r.raised = true then Status.exception else r.ended.getD .success) = st
        generalize h4 : steps (some s.next) (exitSteps s.next s.active st) r.s r.fuel = q4
        obtain ⟨s4, n4, raised4, hit4⟩ := q4
        simp only
        obtain ⟨N, o1, o2, o3, o4⟩ := hb.out
        have hn := hb.next
        rw [e2] at o1 o2 o4 hn
        dsimp only at o1 o2 o4 hn
        -- what the steps of `__exit__` have done
        have hP : s4.next = r.s.next ∧ (s4.out = r.s.out ∨ s4.out = r.s.out ++ [Out.fin s.next st]) ∧
            (raised4 = false → s4.out = r.s.out ++ [Out.fin s.next st] ∧ s4.active = s.active ∧ hit4 = none) ∧
            (raised4 = true → hit4 = some s.next ∧ n4 = none ∧ r.fuel ≠ none) := by
          have := h4
          simp only [exitSteps, steps_cons, steps] at this
          split at this
          · rename_i hz; cases this; simp [hz]
          · split at this
            · rename_i hz; cases this; simp; intro e; simp [e] at hz
            · split at this
              · rename_i hz; cases this; simp; intro e; simp [e] at hz
              · split at this
                · rename_i hz; cases this; simp; intro e; simp [e] at hz
                · split at this
                  · rename_i hz; cases this; simp; intro e; simp [e] at hz
                  · cases this; simp
        obtain ⟨p1, p2, p3, p4⟩ := hP
        have fresh : ∀ o ∈ N, o.act ≠ s.next := fun o ho e => by have := (o2 o ho).1; omega
        have hN := filter_none fresh
        have hfuel : ∀ x, r.hit = some x → n4 = none ∧ hit4 = none := by
          intro x hx
          have hr : r.fuel = none := by rcases hb.hitRaised with e | e; · rw [e] at hx; cases hx
                                        · exact e
          have := h4
          rw [hr] at this
          have z := steps_fuel (some s.next) (exitSteps s.next s.active st) r.s
          rw [this] at z
          exact ⟨z.1, (p3 z.2).2.2⟩
        have whole : ∀ M, (M = [] ∨ M = [Out.fin s.next st]) → ∀ a, Whole a (Out.begin s.next :: N ++ M) := by
          intro M hM a
          by_cases ha : a = s.next
          · subst ha
            rcases hM with rfl | rfl
            · right; left; simp [hN, Out.about]
            · right; right; exact ⟨st, by simp [hN, Out.about]⟩
          · have := o3 a
            have hMa : M.filter (Out.about a) = [] := by
              rcases hM with rfl | rfl <;> simp [Out.about, Ne.symm ha]
            simpa [Whole, List.filter_append, hMa, Out.about, Ne.symm ha, List.filter_cons] using this
        have inner : ∀ M, (M = [] ∨ M = [Out.fin s.next st]) → ∀ a, s.next ≤ a → a < r.s.next → a ≠ s.next →
            r.hit ≠ some a → Complete a (Out.begin s.next :: N ++ M) := by
          intro M hM a h1 h2 ha h3
          have := o4 a (by omega) h2 h3
          have hMa : M.filter (Out.about a) = [] := by
            rcases hM with rfl | rfl <;> simp [Out.about, Ne.symm ha]
          simpa [Complete, List.filter_append, hMa, Out.about, Ne.symm ha, List.filter_cons] using this
        have range : ∀ M, (M = [] ∨ M = [Out.fin s.next st]) → ∀ o ∈ Out.begin s.next :: N ++ M,
            s.next ≤ o.act ∧ o.act < s4.next := by
          intro M hM o ho
          rw [p1]
          simp only [List.cons_append, List.mem_cons, List.mem_append] at ho
          rcases ho with rfl | ho | ho
          · simp only [Out.act]; omega
          · have := o2 o ho; omega
          · rcases hM with rfl | rfl
            · simp at ho
            · simp only [List.mem_singleton] at ho; subst ho; simp only [Out.act]; omega
        have orHit : ∀ a, (r.hit.or hit4) = some a → s.next ≤ a ∧ a < s4.next := by
          intro a ha
          rw [p1]
          cases hr : r.hit with
          | some x =>
            rw [hr] at ha; simp at ha; subst ha
            have := hb.hitNew x hr
            rw [e2] at this; dsimp only at this; omega
          | none =>
            rw [hr, Option.none_or] at ha
            cases raised4 with
            | true => rw [(p4 rfl).1] at ha; cases ha; omega
            | false => rw [(p3 rfl).2.2] at ha; cases ha
        refine ⟨by dsimp only; omega, ?_, orHit, ?_, ?_⟩
        · cases hr4 : raised4 with
          | false =>
            obtain ⟨x1, x2, x3⟩ := p3 hr4
            refine ⟨Out.begin s.next :: N ++ [Out.fin s.next st], ?_, range _ (.inr rfl), whole _ (.inr rfl), ?_⟩
            · dsimp only; rw [x1, o1]; simp
            · intro a h1 h2 h3
              dsimp only at h2 h3
              by_cases ha : a = s.next
              · subst ha; exact ⟨st, by simp [hN, Out.about]⟩
              · refine inner _ (.inr rfl) a h1 (by omega) ha fun e => h3 ?_
                rw [e]; rfl
          | true =>
            obtain ⟨x1, x2, x3⟩ := p4 hr4
            have hrh : r.hit = none := by
              rcases hb.hitRaised with e | e
              · exact e
              · exact absurd e x3
            have fin : ∀ M, (M = [] ∨ M = [Out.fin s.next st]) → s4.out = r.s.out ++ M →
                ∃ N, s4.out = s.out ++ N ∧ (∀ o ∈ N, s.next ≤ o.act ∧ o.act < s4.next) ∧ (∀ a, Whole a N) ∧
                  (∀ a, s.next ≤ a → a < s4.next → r.hit.or hit4 ≠ some a → Complete a N) := by
              intro M hM hout
              refine ⟨Out.begin s.next :: N ++ M, by rw [hout, o1]; simp, range M hM, whole M hM, ?_⟩
              intro a h1 h2 h3
              rw [hrh, x1] at h3
              have ha : a ≠ s.next := by intro e; subst e; simp at h3
              exact inner M hM a h1 (by omega) ha (by rw [hrh]; simp)
            rcases p2 with p2 | p2
            · exact fin [] (.inl rfl) (by simpa using p2)
            · exact fin _ (.inr rfl) p2
        · dsimp only
          cases hr : r.hit with
          | some x => exact .inr (hfuel x hr).1
          | none =>
            rw [Option.none_or]
            cases hr4 : raised4 with
            | true => exact .inr (p4 hr4).2.1
            | false => exact .inl (p3 hr4).2.2
        · intro ha
          dsimp only at ha ⊢
          have : hit4 = none := by cases hr : r.hit <;> simp_all
          cases hr4 : raised4 with
          | true => rw [(p4 hr4).1] at this; cases this
          | false => exact (p3 hr4).2.1

/-- **C106, always.**  Whatever the program, wherever the exception comes: about each action there is published nothing, its
begin, or its begin and then one end. -/
theorem C106_whole (p : Prog) (n : Option Nat) (a : ActId) : Whole a (exec p {} none n).s.out := by
  obtain ⟨N, h1, _, h3, _⟩ := (exec_rel p {} none n).out
  rw [h1]; simpa using h3 a

/-- **C106, partial.**  Every action made is begun and ended, except one whose `__enter__` or `__exit__` was interrupted; an
exception that comes anywhere else, in the body of a block or in the methods of another action, does no harm to it. -/
theorem C106_complete_partial (p : Prog) (n : Option Nat) (a : ActId) (ha : a < (exec p {} none n).s.next)
    (hh : (exec p {} none n).hit ≠ some a) : Complete a (exec p {} none n).s.out := by
  obtain ⟨N, h1, _, _, h4⟩ := (exec_rel p {} none n).out
  rw [h1]; simpa using h4 a (Nat.zero_le _) ha hh

/-- **C106, partial.**  If no such method was interrupted the active action is what it was. -/
theorem C106_active_partial (p : Prog) (s : S) (en : Option Status) (n : Option Nat) (hh : (exec p s en n).hit = none) :
    (exec p s en n).s.active = s.active :=
  (exec_rel p s en n).active hh

/-- **C106, partial.**  A block around it repairs the damage: once a block is left whose own methods were not interrupted, the
active action is what it was before the block, even if those of an inner block were. -/
theorem C106_repaired_partial (w : Bool) (p : Prog) (s : S) (en : Option Status) (n : Option Nat)
    (hh : (exec (.block w p) s en n).hit ≠ some s.next) : (exec (.block w p) s en n).s.active = s.active := by
  simp only [exec] at hh ⊢
  generalize h1 : steps none [fun s : S => { s with next := s.next + 1 }] s n = q1 at hh ⊢
  obtain ⟨s1, n1, raised1, hit1⟩ := q1
  have a1 : s1.active = s.active := by
    rw [steps_cons] at h1
    split at h1
    · cases h1; rfl
    · simp only [steps] at h1; cases h1; rfl
  cases raised1 with
  | true => simpa using a1
  | false =>
    simp only [Bool.false_eq_true, if_false] at hh ⊢
    generalize h2 : steps (some s.next) (enterSteps s.next) s1 n1 = q2 at hh ⊢
    obtain ⟨s2, n2, raised2, hit2⟩ := q2
    cases raised2 with
    | true =>
      have := steps_hit (some s.next) (enterSteps s.next) s1 n1 (by rw [h2])
      rw [h2] at this
      simp only [if_true] at hh
      exact absurd this hh
    | false =>
      simp only [Bool.false_eq_true, if_false] at hh ⊢
      have hb := exec_rel p s2 none n2
      generalize exec p s2 none n2 = r at hb hh ⊢
      generalize (if r.raised = true then Status.exception else r.ended.getD .success) = st at hh ⊢
      generalize h4 : steps (some s.next) (exitSteps s.next s.active st) r.s r.fuel = q4 at hh ⊢
      obtain ⟨s4, n4, raised4, hit4⟩ := q4
      cases raised4 with
      | false =>
        have := (steps_done (some s.next) _ r.s r.fuel (by rw [h4])).1
        rw [h4] at this
        simp only [exitSteps, List.foldl_cons, List.foldl_nil, id] at this
        simp [this]
      | true =>
        exfalso
        have hhit := steps_hit (some s.next) (exitSteps s.next s.active st) r.s r.fuel (by rw [h4])
        rw [h4] at hhit
        dsimp only at hhit
        have hf : r.fuel ≠ none := by
          intro e
          have := (steps_fuel (some s.next) (exitSteps s.next s.active st) r.s).2
          rw [← e, h4] at this
          cases this
        rcases hb.hitRaised with e | e
        · rw [e, hhit] at hh; exact hh rfl
        · exact hf e

/-- **C106, partial.**  Within the body of a block: an exception that comes there and is not caught there is recorded as the
end of its action. -/
theorem C106_recorded_partial (w : Bool) (p : Prog) (s : S) (en : Option Status) (n : Option Nat)
    (hh : (exec (.block w p) s en n).hit ≠ some s.next) (hmade : s.next < (exec (.block w p) s en n).s.next)
    (hw : w = false) (hr : (exec (.block w p) s en n).raised = true) :
    Out.fin s.next .exception ∈ (exec (.block w p) s en n).s.out := by
  subst hw
  simp only [exec] at hh hmade hr ⊢
  generalize h1 : steps none [fun s : S => { s with next := s.next + 1 }] s n = q1 at hh hmade hr ⊢
  obtain ⟨s1, n1, raised1, hit1⟩ := q1
  cases raised1 with
  | true =>
    exfalso
    rw [steps_cons] at h1
    split at h1
    · cases h1; simp at hmade
    · simp [steps] at h1
  | false =>
    simp only [Bool.false_eq_true, if_false] at hh hmade hr ⊢
    generalize h2 : steps (some s.next) (enterSteps s.next) s1 n1 = q2 at hh hmade hr ⊢
    obtain ⟨s2, n2, raised2, hit2⟩ := q2
    cases raised2 with
    | true =>
      have := steps_hit (some s.next) (enterSteps s.next) s1 n1 (by rw [h2])
      rw [h2] at this
      simp only [if_true] at hh
      exact absurd this hh
    | false =>
      simp only [Bool.false_eq_true, if_false] at hh hmade hr ⊢
      have hb := exec_rel p s2 none n2
      generalize exec p s2 none n2 = r at hb hh hmade hr ⊢
      generalize hst : (if r.raised = true then Status.exception else r.ended.getD .success) = st at hh hmade hr ⊢
      generalize h4 : steps (some s.next) (exitSteps s.next s.active st) r.s r.fuel = q4 at hh hmade hr ⊢
      obtain ⟨s4, n4, raised4, hit4⟩ := q4
      cases raised4 with
      | false =>
        simp only [Bool.false_or, Bool.not_false, Bool.and_true] at hr
        rw [hr, if_pos rfl] at hst
        have := (steps_done (some s.next) _ r.s r.fuel (by rw [h4])).1
        rw [h4] at this
        simp only [exitSteps, List.foldl_cons, List.foldl_nil, id] at this
        simp [this, hst]
      | true =>
        exfalso
        have hhit := steps_hit (some s.next) (exitSteps s.next s.active st) r.s r.fuel (by rw [h4])
        rw [h4] at hhit
        dsimp only at hhit
        have hf : r.fuel ≠ none := by
          intro e
          have := (steps_fuel (some s.next) (exitSteps s.next s.active st) r.s).2
          rw [← e, h4] at this
          cases this
        rcases hb.hitRaised with e | e
        · rw [e, hhit] at hh; exact hh rfl
        · exact hf e

/-! ### Concrete cases -/

/-- Two nested blocks. -/
def two : Prog := .block false (.block false (.mark .failure))

/-- Not interrupted. -/
example : (exec two {} none none).s.out = [.begin 0, .begin 1, .fin 1 .failure, .fin 0 .success] := by decide
/-- Interrupted in the inner body: both end with the exception. -/
example : (exec two {} none (some 12)).s.out = [.begin 0, .begin 1, .fin 1 .exception, .fin 0 .exception] ∧
    (exec two {} none (some 12)).hit = none ∧ (exec two {} none (some 12)).raised = true := by decide
/-- Interrupted in the inner `__enter__`: the outer block repairs. -/
example : (exec two {} none (some 9)).s = ⟨2, none, [.begin 0, .fin 0 .exception]⟩ ∧
    (exec two {} none (some 9)).hit = some 1 := by decide

/-! ### Programs that are not interrupted, and exceptions that are not lost -/

/-- What a program publishes, its actions being numbered from `i`; then the next number, the status set for the action around
it, and whether it raises. -/
def Prog.spec : Prog → ActId → Option Status → List Out × ActId × Option Status × Bool
  | .skip, i, en => ([], i, en, false)
  | .seq p q, i, en =>
    match p.spec i en with
    | (o, j, en', true) => (o, j, en', true)
    | (o, j, en', false) => let (o', k, en'', r) := q.spec j en'; (o ++ o', k, en'', r)
  | .mark st, i, _ => ([], i, some st, false)
  | .raise, i, en => ([], i, en, true)
  | .try_ p q, i, en =>
    match p.spec i en with
    | (o, j, en', false) => (o, j, en', false)
    | (o, j, en', true) => let (o', k, en'', r) := q.spec j en'; (o ++ o', k, en'', r)
  | .block swallow p, i, en =>
    let (o, j, en', r) := p.spec (i + 1) none
    (Out.begin i :: o ++ [Out.fin i (if r then .exception else en'.getD .success)], j, en, r && !swallow)

/-- Without an exception from outside. -/
theorem steps_none (a : Option ActId) (fs : List (S → S)) (s : S) :
    steps a fs s none = (fs.foldl (fun s f => f s) s, none, false, none) := by
  induction fs generalizing s with
  | nil => rfl
  | cons f fs ih => rw [steps_cons, if_neg (by simp)]; exact ih _

/-- **C106**, the ordinary case: a program that is not interrupted publishes what it says, sets the status it says, raises when it
says, and leaves the active action as it was. -/
theorem C106_uninterrupted (p : Prog) (s : S) (en : Option Status) :
    exec p s en none = ⟨⟨(p.spec s.next en).2.1, s.active, s.out ++ (p.spec s.next en).1⟩, (p.spec s.next en).2.2.1, none,
      (p.spec s.next en).2.2.2, none⟩ := by
  induction p generalizing s en with
  | skip => simp [exec, Prog.spec]
  | mark st => simp [exec, Prog.spec, steps]
  | raise => simp [exec, Prog.spec]
  | seq p q ihp ihq =>
    simp only [exec, ihp]
    rw [Prog.spec]
    rcases p.spec s.next en with ⟨o, j, en', r⟩
    cases r with
    | true => simp
    | false => simp [ihq]
  | try_ p q ihp ihq =>
    simp only [exec, ihp]
    rw [Prog.spec]
    rcases p.spec s.next en with ⟨o, j, en', r⟩
    cases r with
    | false => simp
    | true => simp [ihq]
  | block w p ih =>
    simp only [exec, steps_none, enterSteps, exitSteps, List.foldl_cons, List.foldl_nil, id, ih]
    simp [Prog.spec]

/-- Steps that may be interrupted: they are, or all are done. -/
theorem steps_some (a : Option ActId) (fs : List (S → S)) (s : S) (n : Nat) :
    (∃ m, steps a fs s (some n) = (fs.foldl (fun s f => f s) s, some m, false, none)) ∨
    ∃ s', steps a fs s (some n) = (s', none, true, a) := by
  induction fs generalizing s n with
  | nil => exact .inl ⟨n, rfl⟩
  | cons f fs ih =>
    rw [steps_cons]
    cases n with
    | zero => exact .inr ⟨s, rfl⟩
    | succ n => rw [if_neg (by simp)]; exact ih _ n

/-- **C106**, before the exception comes: a program that is over by then has done what it does without. -/
theorem C106_before (p : Prog) (s : S) (en : Option Status) (n m : Nat) (h : (exec p s en (some n)).fuel = some m) :
    exec p s en (some n) = { exec p s en none with fuel := some m } := by
  induction p generalizing s en n m with
  | skip => simp only [exec, Option.some.injEq] at h ⊢; subst h; rfl
  | raise => simp only [exec, Option.some.injEq] at h ⊢; subst h; rfl
  | mark st =>
    simp only [exec] at h ⊢
    rcases steps_some none [id] s n with ⟨k, e⟩ | ⟨s', e⟩
    · rw [e] at h ⊢; simp only [Option.some.injEq] at h; subst h; rw [steps_none]
    · rw [e] at h; cases h
  | seq p q ihp ihq =>
    simp only [exec] at h ⊢
    cases hf : (exec p s en (some n)).fuel with
    | none =>
      rw [hf] at h
      split at h
      · rw [hf] at h; cases h
      · rw [(exec_fuel q _ _).1] at h; cases h
    | some k =>
      have e := ihp s en n k hf
      rw [e] at h ⊢
      dsimp only at h ⊢
      split at h
      · next hr => rw [if_pos hr, if_pos hr]; cases h; rfl
      · next hr =>
        rw [if_neg hr, if_neg hr]
        have e2 := ihq (exec p s en none).s (exec p s en none).ended k m h
        rw [e2, (exec_fuel p s en).1]
  | try_ p q ihp ihq =>
    simp only [exec] at h ⊢
    cases hf : (exec p s en (some n)).fuel with
    | none =>
      rw [hf] at h
      split at h
      · rw [(exec_fuel q _ _).1] at h; cases h
      · rw [hf] at h; cases h
    | some k =>
      have e := ihp s en n k hf
      rw [e] at h ⊢
      dsimp only at h ⊢
      split at h
      · next hr =>
        rw [if_pos hr, if_pos hr]
        have e2 := ihq (exec p s en none).s (exec p s en none).ended k m h
        rw [e2, (exec_fuel p s en).1]
      · next hr => rw [if_neg hr, if_neg hr]; cases h; rfl
  | block w p ih =>
    simp only [exec] at h ⊢
    rcases steps_some none [fun s : S => { s with next := s.next + 1 }] s n with ⟨k1, e1⟩ | ⟨s1, e1⟩
    · simp only [e1, steps_none, Bool.false_eq_true, if_false] at h ⊢
      generalize List.foldl (fun s f => f s) s [fun s : S => { s with next := s.next + 1 }] = s1 at h ⊢
      rcases steps_some (some s.next) (enterSteps s.next) s1 k1 with ⟨k2, e2⟩ | ⟨s2, e2⟩
      · simp only [e2, Bool.false_eq_true, if_false] at h ⊢
        generalize List.foldl (fun s f => f s) s1 (enterSteps s.next) = s2 at h ⊢
        cases hf : (exec p s2 none (some k2)).fuel with
        | none =>
          rw [hf, steps_none] at h
          cases h
        | some k3 =>
          have e := ih s2 none k2 k3 hf
          rw [e] at h ⊢
          dsimp only at h ⊢
          generalize (if (exec p s2 none none).raised = true then Status.exception else (exec p s2 none none).ended.getD .success) = st at h ⊢
          rcases steps_some (some s.next) (exitSteps s.next s.active st) (exec p s2 none none).s k3 with ⟨k4, e4⟩ | ⟨s4, e4⟩
          · rw [e4] at h ⊢
            rw [(exec_fuel p s2 none).1, steps_none]
            cases h; rfl
          · rw [e4] at h; cases h
      · simp only [e2] at h
        cases h
    · simp only [e1] at h
      cases h

/-- A program that catches nothing: no `except`, no `reraise=False`. -/
def Prog.plain : Prog → Bool
  | .skip | .mark _ | .raise => true
  | .seq p q => p.plain && q.plain
  | .try_ _ _ => false
  | .block w p => !w && p.plain

/-- **C106**, the exception is not lost: a program that catches nothing itself is left by the exception that comes from outside,
wherever it comes. -/
theorem C106_raised (p : Prog) (hp : p.plain = true) (s : S) (en : Option Status) (n : Nat)
    (h : (exec p s en (some n)).fuel = none) : (exec p s en (some n)).raised = true := by
  induction p generalizing s en n with
  | skip => cases h
  | raise => cases h
  | mark st =>
    simp only [exec] at h ⊢
    rcases steps_some none [id] s n with ⟨k, e⟩ | ⟨s', e⟩
    · rw [e] at h; cases h
    · rw [e]
  | seq p q ihp ihq =>
    simp only [Prog.plain, Bool.and_eq_true] at hp
    simp only [exec] at h ⊢
    by_cases hr : (exec p s en (some n)).raised = true
    · rw [if_pos hr]; exact hr
    · rw [if_neg hr] at h ⊢
      cases hf : (exec p s en (some n)).fuel with
      | none => exact absurd (ihp hp.1 s en n hf) hr
      | some k =>
        rw [hf] at h
        exact ihq hp.2 _ _ k h
  | try_ p q ihp ihq => cases hp
  | block w p ih =>
    simp only [Prog.plain, Bool.and_eq_true, Bool.not_eq_true'] at hp
    obtain ⟨rfl, hp⟩ := hp
    simp only [exec] at h ⊢
    rcases steps_some none [fun s : S => { s with next := s.next + 1 }] s n with ⟨k1, e1⟩ | ⟨s1, e1⟩
    · simp only [e1, Bool.false_eq_true, if_false] at h ⊢
      generalize List.foldl (fun s f => f s) s [fun s : S => { s with next := s.next + 1 }] = s1 at h ⊢
      rcases steps_some (some s.next) (enterSteps s.next) s1 k1 with ⟨k2, e2⟩ | ⟨s2, e2⟩
      · simp only [e2, Bool.false_eq_true, if_false] at h ⊢
        generalize List.foldl (fun s f => f s) s1 (enterSteps s.next) = s2 at h ⊢
        cases hf : (exec p s2 none (some k2)).fuel with
        | none =>
          have := ih hp s2 none k2 hf
          simp [this]
        | some k3 =>
          rw [hf] at h
          generalize (if (exec p s2 none (some k2)).raised = true then Status.exception else (exec p s2 none (some k2)).ended.getD .success) = st at h ⊢
          rcases steps_some (some s.next) (exitSteps s.next s.active st) (exec p s2 none (some k2)).s k3 with ⟨k4, e4⟩ | ⟨s4, e4⟩
          · rw [e4] at h; cases h
          · rw [e4]; simp
      · simp only [e2]
        rfl
    · simp only [e1]
      rfl

/-- A block that swallows around one that does not, and a status set after the inner block. -/
example : (Prog.block true (.seq (.block false (.mark .failure)) (.seq (.mark .success) .raise))).spec 3 none =
    ([.begin 3, .begin 4, .fin 4 .failure, .fin 3 .exception], 5, none, false) := by decide

example : (exec two {} none (some 30)).fuel = some 7 ∧ two.plain = true ∧ (exec two {} none (some 20)).fuel = none := by decide

/-- **C106, violated.**  Interrupted in `__enter__`: before the begin event the action stays active although it never
begins; after it, it has begun and does not end. -/
theorem C106_enter_violated : (exec (.block false .skip) {} none (some 3)).s = ⟨1, some 0, []⟩ ∧
    (exec (.try_ (.block false (.block false .skip)) .skip) {} none (some 10)).s.out = [.begin 0, .fin 0 .exception] ∧
    (exec (.block false .skip) {} none (some 5)).s = ⟨1, some 0, [.begin 0]⟩ := by decide

/-- **C106, violated.**  Interrupted in `__exit__`: the action that has ended stays active, and becomes the parent of what
follows. -/
theorem C106_exit_violated : (exec (.block false .skip) {} none (some 10)).s = ⟨1, some 0, [.begin 0, .fin 0 .success]⟩ := by
  decide

theorem C106_violated : ¬ C106_full := by
  intro h
  have := (h (.block false .skip) (some 10) {}).1
  revert this
  decide

example := C106_complete_partial two (some 9) 0 (by decide) (by decide)
example := C106_active_partial two {} none (some 12) (by decide)
/-- The interruption hits the inner block; the outer one puts the active action back. -/
example := C106_repaired_partial false (.block false (.mark .failure)) {} none (some 9) (by decide)
example := C106_before two {} none 30 7 (by decide)

end Verif.Interrupt
