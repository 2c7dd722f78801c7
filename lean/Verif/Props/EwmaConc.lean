import Verif.Model.EwmaConc
import Verif.Props.Ewma
import Mathlib.Tactic.IntervalCases
/-!
# C116: an EWMA accumulator shared by threads
-/
namespace Verif.EwmaConc

open Classical

noncomputable section

/-! ### The specification -/

/-- No thread is in a call. -/
def Quiescent (s : Sys) : Prop := ∀ p ∈ s.pcs, p = .idle

/-- An accumulator that was just made, with positive periods. -/
def Fresh (e : Ewma.Ewma) : Prop :=
  ∃ periods interval now, (∀ p ∈ periods, 0 < p) ∧ Ewma.make periods interval now = some e

/-- The sum of the amounts that went into the rate of the period `p`. -/
def takenBy (s : Sys) (p : ℝ) : ℝ := ((s.taken.filter (·.1 = p)).map (·.2)).sum

/-- The claim: whenever no call is under way, everything that was added has gone into the rate of each period once, or will. -/
def Accounts (s : Sys) : Prop :=
  Quiescent s → ∀ r ∈ s.acc.rates, takenBy s r.1 + s.acc.uncounted = s.calls.sum

/-- No value is negative and the clock does not go back. -/
def Forward (sched : List (Tid × Act)) : Prop := ∀ x ∈ sched, match x.2 with
  | .add v => 0 ≤ v
  | .pass d => 0 ≤ d
  | _ => True

/-- The claim: rates of values that are not negative are not negative. -/
def NoneNegative (s : Sys) : Prop := ∀ rs, some rs ∈ s.reads → ∀ p r, (p, some r) ∈ rs → 0 ≤ r

/-! ### It is false -/

/-- A thread goes on. -/
def goes (n : Nat) (t : Tid) : List (Tid × Act) := List.replicate n (t, .go)

/-- An accumulator with one period. -/
def sample : Ewma.Ewma := ⟨5, [(60, none)], 0, 0, true⟩

theorem sample_fresh : Fresh sample := ⟨[60], 5, 0, by norm_num, by simp [Ewma.make, sample]⟩

theorem n52 : ¬ ((5 : ℝ) ≤ 2) := by norm_num
theorem n51 : ¬ ((5 : ℝ) ≤ 1) := by norm_num
theorem n510 : (5 : ℝ) ≤ 10 := by norm_num

/-- **C116** is false of the code: a value added between taking the amount and resetting it is forgotten. -/
theorem C116_lost_violated : ∃ sched, Forward sched ∧ Quiescent (run (init sample 2) sched) ∧
    (run (init sample 2) sched).calls = [1, 5] ∧ takenBy (run (init sample 2) sched) 60 = 1 ∧
    (run (init sample 2) sched).acc.uncounted = 0 ∧ (run (init sample 2) sched).acc.rates = [(60, some (1 / 2))] := by
  refine ⟨[(0, .add 1)] ++ goes 2 0 ++ [(0, .pass 2), (1, .read)] ++ goes 6 1 ++ [(0, .add 5)] ++ goes 2 0 ++ goes 6 1, ?_, ?_⟩
  · intro x hx
    simp [goes] at hx
    rcases hx with h | h | h | h | h | h | h | h <;> first | (rw [h]; norm_num; done) | (rw [h.2]; trivial)
  · simp [n52, goes, run, step, go, init, sample, Sys.to, setRate, rateAt, Quiescent, takenBy, List.replicate]

/-- A value can also be added to an amount that was taken meanwhile, which then counts twice. -/
theorem C116_doubled_violated : ∃ sched, Forward sched ∧ Quiescent (run (init sample 2) sched) ∧
    (run (init sample 2) sched).calls = [1, 5] ∧ takenBy (run (init sample 2) sched) 60 = 1 ∧
    (run (init sample 2) sched).acc.uncounted = 6 := by
  refine ⟨[(0, .add 1)] ++ goes 2 0 ++ [(0, .add 5)] ++ goes 1 0 ++ [(0, .pass 2), (1, .read)] ++ goes 12 1 ++ goes 1 0, ?_, ?_⟩
  · intro x hx
    simp [goes] at hx
    rcases hx with h | h | h | h | h | h | h | h <;> first | (rw [h]; norm_num; done) | (rw [h.2]; trivial)
  · simp [n52, goes, run, step, go, init, sample, Sys.to, setRate, rateAt, Quiescent, takenBy, List.replicate]
    norm_num

/-- Two threads that add at once: one value is forgotten. -/
theorem C116_add_violated : ∃ sched, Forward sched ∧ Quiescent (run (init sample 2) sched) ∧
    (run (init sample 2) sched).calls = [1, 5] ∧ takenBy (run (init sample 2) sched) 60 = 0 ∧
    (run (init sample 2) sched).acc.uncounted = 1 := by
  refine ⟨[(0, .add 1), (1, .add 5)] ++ goes 1 0 ++ goes 2 1 ++ goes 1 0, ?_, ?_⟩
  · intro x hx
    simp [goes] at hx
    rcases hx with h | h | h | h | h <;> first | (rw [h]; norm_num; done) | (rw [h.2]; trivial) | (rw [h]; trivial)
  · simp [n52, goes, run, step, go, init, sample, Sys.to, setRate, rateAt, Quiescent, takenBy, List.replicate]

theorem C116_violated : ¬ ∀ e n sched, Fresh e → Forward sched → Accounts (run (init e n) sched) := by
  intro h
  obtain ⟨sched, h1, h2, h3, h4, h5, h6⟩ := C116_lost_violated
  have := h sample 2 sched sample_fresh h1 h2 (60, some (1 / 2)) (by rw [h6]; simp)
  rw [h3, h4, h5] at this
  norm_num at this

/-- Two threads that read at once can make a rate negative: the second reads the rate for the difference after the first has
written it, the sum before. -/
theorem C116_negative_violated : ∃ sched, Forward sched ∧ ¬ NoneNegative (run (init sample 3) sched) := by
  refine ⟨[(0, .pass 1), (1, .read)] ++ goes 12 1 ++ [(0, .pass 10), (1, .read)] ++ goes 6 1 ++ [(0, .add 100)] ++ goes 2 0 ++
    [(2, .read)] ++ goes 8 2 ++ goes 6 1, ?_, ?_⟩
  · intro x hx
    simp [goes] at hx
    rcases hx with h | h | h | h | h | h | h | h | h | h | h <;> first | (rw [h]; norm_num; done) | (rw [h.2]; trivial) | (rw [h]; trivial)
  · intro h
    simp [n510, goes, run, step, go, init, sample, Sys.to, setRate, rateAt, NoneNegative, List.replicate] at h
    have h1 : Real.exp (-10 / 60) < 1 := Real.exp_lt_one_iff.2 (by norm_num)
    have h2 : 0 < 1 - Real.exp (-10 / 60) := by linarith
    have h3 := mul_pos h2 (mul_pos h2 (show (0 : ℝ) < 100 / 10 by norm_num))
    linarith

/-! ### Calls that do not overlap -/

/-- At most one thread is in a call. -/
def Apart (s : Sys) : Prop :=
  ∀ (i j : Nat) (p q : PC), s.pcs[i]? = some p → s.pcs[j]? = some q → p ≠ .idle → q ≠ .idle → i = j

/-- And so it is throughout. -/
def AlwaysApart (s : Sys) (sched : List (Tid × Act)) : Prop := ∀ k, Apart (run s (sched.take k))

/-- What the reads of a sequence of uses return. -/
def outcomes (e : Ewma.Ewma) : List Ewma.Op → List (Option (List (ℝ × Option ℝ)))
  | [] => []
  | .add v :: ops => outcomes (Ewma.step e (.add v)) ops
  | .read t1 t2 :: ops => (Ewma.getRates e t1 t2).1 :: outcomes (Ewma.step e (.read t1 t2)) ops

/-- What one use takes for each period. -/
def takes (e : Ewma.Ewma) : Ewma.Op → List (ℝ × ℝ)
  | .add _ => []
  | .read t1 t2 => if Ewma.Updates e t1 t2 then e.rates.map fun r => (r.1, e.uncounted) else []

def takesAll (e : Ewma.Ewma) : List Ewma.Op → List (ℝ × ℝ)
  | [] => []
  | o :: ops => takes e o ++ takesAll (Ewma.step e o) ops

theorem outcomes_append (e : Ewma.Ewma) (ops ops' : List Ewma.Op) :
    outcomes e (ops ++ ops') = outcomes e ops ++ outcomes (Ewma.run e ops) ops' := by
  induction ops generalizing e with
  | nil => rfl
  | cons o ops ih => cases o <;> simp [outcomes, ih, Ewma.run]

theorem takesAll_append (e : Ewma.Ewma) (ops ops' : List Ewma.Op) :
    takesAll e (ops ++ ops') = takesAll e ops ++ takesAll (Ewma.run e ops) ops' := by
  induction ops generalizing e with
  | nil => rfl
  | cons o ops ih => simp [takesAll, ih, Ewma.run]

theorem added_append (ops ops' : List Ewma.Op) : Ewma.added (ops ++ ops') = Ewma.added ops ++ Ewma.added ops' := by
  induction ops with
  | nil => rfl
  | cons o ops ih => cases o <;> simp [Ewma.added, ih]

theorem run_append (e : Ewma.Ewma) (ops ops' : List Ewma.Op) : Ewma.run e (ops ++ ops') = Ewma.run (Ewma.run e ops) ops' := by
  simp [Ewma.run]

/-- The clock readings of a use lie between two moments. -/
def Within (lo hi : ℝ) : Ewma.Op → Prop
  | .add _ => True
  | .read t1 t2 => lo ≤ t1 ∧ t1 ≤ t2 ∧ t2 ≤ hi

theorem clocked_snoc {t lo hi : ℝ} {ops : List Ewma.Op} {o : Ewma.Op} (h : Ewma.Clocked t ops)
    (hb : ∀ x ∈ ops, Within t lo x) (ht : t ≤ lo) (ho : Within lo hi o) : Ewma.Clocked t (ops ++ [o]) := by
  induction ops generalizing t with
  | nil =>
    cases o with
    | add v => trivial
    | read t1 t2 => exact ⟨ht.trans ho.1, ho.2.1, trivial⟩
  | cons x ops ih =>
    cases x with
    | add v => exact ih h (fun y hy => hb y (List.mem_cons_of_mem _ hy)) ht
    | read t1 t2 =>
      obtain ⟨h1, h2, h3⟩ := h
      have hx := hb _ List.mem_cons_self
      refine ⟨h1, h2, ih h3 (fun y hy => ?_) hx.2.2⟩
      have hy' := hb y (List.mem_cons_of_mem _ hy)
      cases y with
      | add v => trivial
      | read s1 s2 =>
        refine ⟨?_, hy'.2⟩
        clear ih hb hx hy'
        induction ops generalizing t2 with
        | nil => cases hy
        | cons z ops ih =>
          rcases List.mem_cons.1 hy with rfl | hy2
          · exact h3.1
          · cases z with
            | add v => exact ih t2 h2 h3 hy2
            | read u1 u2 => exact (h3.1.trans h3.2.1).trans (ih u2 (by linarith [h3.1, h3.2.1]) h3.2.2 hy2)

/-- The read that read the clock at `t1` updates, and has cleared the flag if it had to. -/
def Goes (b : Ewma.Ewma) (t1 : ℝ) (c : Ewma.Ewma) : Prop :=
  (t1 - b.last ≥ b.interval ∧ c = b) ∨ (¬ t1 - b.last ≥ b.interval ∧ b.force = true ∧ c = { b with force := false })

/-- The new value of a rate. -/
def upd (b : Ewma.Ewma) (iv : ℝ) (r : ℝ × Option ℝ) : ℝ × Option ℝ := (r.1, some (Ewma.newRate b.uncounted iv r.1 r.2))

/-- The accumulator in the `i`th round. -/
def part (b c : Ewma.Ewma) (iv : ℝ) (i : Nat) : Ewma.Ewma :=
  { c with rates := (b.rates.take i).map (upd b iv) ++ b.rates.drop i }

def took (b : Ewma.Ewma) (i : Nat) : List (ℝ × ℝ) := (b.rates.take i).map fun r => (r.1, b.uncounted)

/-- What is known of a thread in a call that began with the accumulator `b`, at `lo` or later. -/
def Mid (b : Ewma.Ewma) (lo now : ℝ) (p : PC) (acc : Ewma.Ewma) (C : List ℝ) (T : List (ℝ × ℝ)) : Prop :=
  match p with
  | .idle => acc = b ∧ C = [] ∧ T = []
  | .load v => acc = b ∧ C = [v] ∧ T = []
  | .save v u => acc = b ∧ C = [v] ∧ T = [] ∧ u = b.uncounted
  | .test => acc = b ∧ C = [] ∧ T = []
  | .forced => acc = b ∧ C = [] ∧ T = [] ∧ ∃ t1, lo ≤ t1 ∧ t1 ≤ now ∧ ¬ t1 - b.last ≥ b.interval
  | .clear => acc = b ∧ C = [] ∧ T = [] ∧ b.force = true ∧ ∃ t1, lo ≤ t1 ∧ t1 ≤ now ∧ ¬ t1 - b.last ≥ b.interval
  | .clock => C = [] ∧ T = [] ∧ ∃ t1, lo ≤ t1 ∧ t1 ≤ now ∧ Goes b t1 acc
  | .since cur => C = [] ∧ T = [] ∧ ∃ t1, lo ≤ t1 ∧ t1 ≤ cur ∧ cur ≤ now ∧ Goes b t1 acc
  | .amount cur iv i => C = [] ∧ T = took b i ∧ (i ≠ 0 → iv ≠ 0) ∧ i ≤ b.rates.length ∧ iv = cur - b.last ∧
      ∃ t1 c, lo ≤ t1 ∧ t1 ≤ cur ∧ cur ≤ now ∧ Goes b t1 c ∧ acc = part b c iv i
  | .known cur iv i new => C = [] ∧ T = took b (i + 1) ∧ iv ≠ 0 ∧ i < b.rates.length ∧ iv = cur - b.last ∧
      new = b.uncounted / iv ∧ ∃ t1 c, lo ≤ t1 ∧ t1 ≤ cur ∧ cur ≤ now ∧ Goes b t1 c ∧ acc = part b c iv i
  | .first cur iv i new => C = [] ∧ T = took b (i + 1) ∧ iv ≠ 0 ∧ i < b.rates.length ∧ iv = cur - b.last ∧
      new = b.uncounted / iv ∧ rateAt b i = none ∧
      ∃ t1 c, lo ≤ t1 ∧ t1 ≤ cur ∧ cur ≤ now ∧ Goes b t1 c ∧ acc = part b c iv i
  | .left cur iv i new => C = [] ∧ T = took b (i + 1) ∧ iv ≠ 0 ∧ i < b.rates.length ∧ iv = cur - b.last ∧
      new = b.uncounted / iv ∧ rateAt b i ≠ none ∧
      ∃ t1 c, lo ≤ t1 ∧ t1 ≤ cur ∧ cur ≤ now ∧ Goes b t1 c ∧ acc = part b c iv i
  | .right cur iv i new l => C = [] ∧ T = took b (i + 1) ∧ iv ≠ 0 ∧ i < b.rates.length ∧ iv = cur - b.last ∧
      new = b.uncounted / iv ∧ rateAt b i = some l ∧
      ∃ t1 c, lo ≤ t1 ∧ t1 ≤ cur ∧ cur ≤ now ∧ Goes b t1 c ∧ acc = part b c iv i
  | .put cur iv i x => C = [] ∧ T = took b (i + 1) ∧ iv ≠ 0 ∧ i < b.rates.length ∧ iv = cur - b.last ∧
      (∃ r, b.rates[i]? = some r ∧ x = Ewma.newRate b.uncounted iv r.1 r.2) ∧
      ∃ t1 c, lo ≤ t1 ∧ t1 ≤ cur ∧ cur ≤ now ∧ Goes b t1 c ∧ acc = part b c iv i
  | .reset cur => C = [] ∧ ∃ t1 t2, lo ≤ t1 ∧ t1 ≤ t2 ∧ t2 ≤ now ∧ cur = t2 ∧ Ewma.Updates b t1 t2 ∧ T = takes b (.read t1 t2) ∧
      Ewma.step b (.read t1 t2) = { acc with uncounted := 0, last := cur }
  | .stamp cur => C = [] ∧ ∃ t1 t2, lo ≤ t1 ∧ t1 ≤ t2 ∧ t2 ≤ now ∧ cur = t2 ∧ Ewma.Updates b t1 t2 ∧ T = takes b (.read t1 t2) ∧
      Ewma.step b (.read t1 t2) = { acc with last := cur }
  | .copy => C = [] ∧ ∃ t1 t2, lo ≤ t1 ∧ t1 ≤ t2 ∧ t2 ≤ now ∧ T = takes b (.read t1 t2) ∧
      Ewma.getRates b t1 t2 = (some acc.rates, acc)

theorem mid_mono {b : Ewma.Ewma} {lo now now' : ℝ} (hn : now ≤ now') {p : PC} {acc : Ewma.Ewma} {C : List ℝ} {T : List (ℝ × ℝ)}
    (h : Mid b lo now p acc C T) : Mid b lo now' p acc C T := by
  cases p <;> simp only [Mid] at h ⊢ <;> try exact h
  · obtain ⟨h1, h2, h3, t1, h4, h5, h6⟩ := h; exact ⟨h1, h2, h3, t1, h4, h5.trans hn, h6⟩
  · obtain ⟨h1, h2, h3, h0, t1, h4, h5, h6⟩ := h; exact ⟨h1, h2, h3, h0, t1, h4, h5.trans hn, h6⟩
  · obtain ⟨h2, h3, t1, h4, h5, h6⟩ := h; exact ⟨h2, h3, t1, h4, h5.trans hn, h6⟩
  · obtain ⟨h2, h3, t1, h4, h5, h6, h7⟩ := h; exact ⟨h2, h3, t1, h4, h5, h6.trans hn, h7⟩
  · obtain ⟨h1, h2, h3, h4, h5, t1, c, h6, h7, h8, h9⟩ := h; exact ⟨h1, h2, h3, h4, h5, t1, c, h6, h7, h8.trans hn, h9⟩
  · obtain ⟨h1, h2, h3, h4, h5, h0, t1, c, h6, h7, h8, h9⟩ := h; exact ⟨h1, h2, h3, h4, h5, h0, t1, c, h6, h7, h8.trans hn, h9⟩
  all_goals first
    | (obtain ⟨h1, h2, h3, h4, h5, h0, h00, t1, c, h6, h7, h8, h9⟩ := h
       exact ⟨h1, h2, h3, h4, h5, h0, h00, t1, c, h6, h7, h8.trans hn, h9⟩)
    | (obtain ⟨h1, h2, h3, h4, h5, h0, t1, c, h6, h7, h8, h9⟩ := h
       exact ⟨h1, h2, h3, h4, h5, h0, t1, c, h6, h7, h8.trans hn, h9⟩)
    | (obtain ⟨h1, t1, t2, h2, h3, h4, h5⟩ := h; exact ⟨h1, t1, t2, h2, h3, h4.trans hn, h5⟩)

theorem part_get {b c : Ewma.Ewma} {iv : ℝ} {i : Nat} (hi : i ≤ b.rates.length) : (part b c iv i).rates[i]? = b.rates[i]? := by
  simp only [part]
  rw [List.getElem?_append_right (by simp)]
  simp [Nat.min_eq_left hi]

theorem modify_at {α : Type} (l : List α) (r : α) (m : List α) (f : α → α) : (l ++ r :: m).modify l.length f = l ++ f r :: m := by
  induction l with
  | nil => rfl
  | cons x l ih => simp [ih]

theorem part_set {b c : Ewma.Ewma} {iv x : ℝ} {i : Nat} {r : ℝ × Option ℝ} (hr : b.rates[i]? = some r)
    (hx : x = Ewma.newRate b.uncounted iv r.1 r.2) : setRate (part b c iv i) i x = part b c iv (i + 1) := by
  have hi : i < b.rates.length := (List.getElem?_eq_some_iff.1 hr).1
  have hd : b.rates.drop i = r :: b.rates.drop (i + 1) := by
    rw [List.drop_eq_getElem_cons hi]; congr 1; exact (List.getElem?_eq_some_iff.1 hr).2
  have ht : b.rates.take (i + 1) = b.rates.take i ++ [r] := by
    rw [List.take_add_one, hr]; rfl
  simp only [setRate, part, ht, hd, List.map_append, List.map_cons, List.map_nil, List.append_assoc]
  congr 1
  have hl : i = ((b.rates.take i).map (upd b iv)).length := by simp [Nat.min_eq_left hi.le]
  have := modify_at ((b.rates.take i).map (upd b iv)) r (b.rates.drop (i + 1)) fun r => (r.1, some x)
  rw [← hl] at this
  rw [this]
  simp [upd, hx]

/-- What a use that ends leaves behind. -/
structure Ends (b : Ewma.Ewma) (lo : ℝ) (C : List ℝ) (T : List (ℝ × ℝ)) (s s' : Sys) (t : Tid) (o : Ewma.Op) : Prop where
  acc : s'.acc = Ewma.step b o
  now : s'.now = s.now
  pcs : s'.pcs = s.pcs.set t .idle
  calls : s'.calls = s.calls
  taken : ∃ X, s'.taken = s.taken ++ X ∧ T ++ X = takes b o
  reads : s'.reads = s.reads ++ outcomes b [o]
  added : C = Ewma.added [o]
  within : Within lo s.now o

structure On (b : Ewma.Ewma) (lo : ℝ) (C : List ℝ) (T : List (ℝ × ℝ)) (s s' : Sys) (t : Tid) (p : PC) : Prop where
  now : s'.now = s.now
  pcs : s'.pcs = s.pcs.set t p
  calls : s'.calls = s.calls
  taken : ∃ X, s'.taken = s.taken ++ X ∧ Mid b lo s.now p s'.acc C (T ++ X)
  reads : s'.reads = s.reads
  busy : p ≠ .idle

theorem go_mid {b : Ewma.Ewma} {lo : ℝ} {C : List ℝ} {T : List (ℝ × ℝ)} {s : Sys} {t : Tid} {p : PC} (hlo : lo ≤ s.now)
    (hp : p ≠ .idle) (hm : Mid b lo s.now p s.acc C T) :
    (∃ o, Ends b lo C T s (go s t p) t o) ∨ ∃ p', On b lo C T s (go s t p) t p' := by
  cases p with
  | idle => exact absurd rfl hp
  | load v =>
    obtain ⟨h1, h2, h3⟩ := hm
    exact .inr ⟨.save v s.acc.uncounted, rfl, rfl, rfl, ⟨[], by simp [go, Sys.to], h1, h2, by simp [h3], by rw [h1]⟩, rfl, by simp⟩
  | save v u =>
    obtain ⟨h1, h2, h3, h4⟩ := hm
    exact .inl ⟨.add v, by simp [go, Ewma.step, Ewma.add, h1, h4], rfl, rfl, rfl, ⟨[], by simp [go, Sys.to], by simp [h3, takes]⟩,
      by simp [go, Sys.to, outcomes], h2, trivial⟩
  | test =>
    obtain ⟨h1, h2, h3⟩ := hm
    by_cases h : s.now - s.acc.last ≥ s.acc.interval
    · refine .inr ⟨.clock, rfl, by simp only [go, if_pos h, Sys.to], rfl, ⟨[], by simp [go, Sys.to], h2, by simp [h3], s.now, hlo, le_rfl, ?_⟩, rfl, by simp⟩
      exact .inl ⟨by rw [← h1]; exact h, h1⟩
    · exact .inr ⟨.forced, rfl, by simp only [go, if_neg h, Sys.to], rfl, ⟨[], by simp [go, Sys.to], h1, h2, by simp [h3], s.now, hlo, le_rfl, by rw [← h1]; exact h⟩, rfl, by simp⟩
  | forced =>
    obtain ⟨h1, h2, h3, t1, h4, h5, h6⟩ := hm
    by_cases h : s.acc.force = true
    · exact .inr ⟨.clear, rfl, by simp only [go, if_pos h, Sys.to], rfl, ⟨[], by simp [go, Sys.to], h1, h2, by simp [h3], by rw [← h1]; exact h, t1, h4, h5, h6⟩, rfl, by simp⟩
    · refine .inr ⟨.copy, rfl, by simp only [go, if_neg h, Sys.to], rfl, ⟨[], by simp [go, Sys.to], h2, t1, t1, h4, le_rfl, h5, ?_, ?_⟩, rfl, by simp⟩
      · rw [h1] at h
        have : ¬ Ewma.Updates b t1 t1 := fun hu => hu.1.elim h6 h
        simp [h3, takes, this]
      · rw [h1] at h
        simp only [go, Sys.to, Ewma.getRates, if_neg h6, if_neg h, h1]
  | clear =>
    obtain ⟨h1, h2, h3, h0, t1, h4, h5, h6⟩ := hm
    exact .inr ⟨.clock, rfl, rfl, rfl, ⟨[], by simp [go, Sys.to], h2, by simp [h3], t1, h4, h5, .inr ⟨h6, h0, by simp [go, h1]⟩⟩, rfl, by simp⟩
  | clock =>
    obtain ⟨h2, h3, t1, h4, h5, h6⟩ := hm
    exact .inr ⟨.since s.now, rfl, rfl, rfl, ⟨[], by simp [go, Sys.to], h2, by simp [h3], t1, h4, h5, le_rfl, h6⟩, rfl, by simp⟩
  | since cur =>
    obtain ⟨h2, h3, t1, h4, h5, h6, h7⟩ := hm
    have hl : s.acc.last = b.last := by rcases h7 with ⟨_, h⟩ | ⟨_, _, h⟩ <;> rw [h]
    have hr : s.acc.rates = b.rates := by rcases h7 with ⟨_, h⟩ | ⟨_, _, h⟩ <;> rw [h]
    refine .inr ⟨.amount cur (cur - s.acc.last) 0, rfl, rfl, rfl, ⟨[], by simp [go, Sys.to], h2, by simp [h3, took], by simp, by simp, by rw [hl],
      t1, s.acc, h4, h5, h6, h7, ?_⟩, rfl, by simp⟩
    simp [go, Sys.to, part, ← hr]
  | amount cur iv i =>
    obtain ⟨h1, h2, h3, h4, h5, t1, c, h6, h7, h8, h9, h10⟩ := hm
    have hu : s.acc.uncounted = b.uncounted := by rw [h10]; rcases h9 with ⟨_, h⟩ | ⟨_, _, h⟩ <;> rw [h] <;> rfl
    have hget : s.acc.rates[i]? = b.rates[i]? := by rw [h10]; exact part_get h4
    have hup : t1 - b.last ≥ b.interval ∨ b.force = true := by rcases h9 with ⟨h, _⟩ | ⟨_, h, _⟩ <;> simp [h]
    rcases hb : b.rates[i]? with _ | r
    · have hi : i = b.rates.length := by
        have := List.getElem?_eq_none_iff.1 hb; omega
      have hU : Ewma.Updates b t1 cur := by
        refine ⟨hup, fun hh => ?_⟩
        refine h3 ?_ (h5.trans hh.1)
        rw [hi]; simpa using hh.2
      refine .inr ⟨.reset cur, ?_, ?_, ?_, ⟨[], ?_, h1, t1, cur, h6, h7, h8, rfl, hU, ?_, ?_⟩, ?_, by simp⟩ <;>
        try (simp only [go, hget, hb, Sys.to, List.append_nil]; done)
      · rw [List.append_nil, h2, hi]; simp [took, takes, hU]
      · simp only [go, hget, hb, Sys.to]
        rw [h10]
        unfold Ewma.step Ewma.getRates Ewma.update
        rcases h9 with ⟨h, hc⟩ | ⟨h, hf, hc⟩
        · simp only [if_pos h, if_neg hU.2, part, hc, hi]
          simp [upd, h5]
        · simp only [if_neg h, if_neg hU.2, hf, if_true, part, hc, hi]
          simp [upd, h5]
    · by_cases hz : iv = 0
      · have hi0 : i = 0 := by
          by_contra hne; exact h3 hne hz
        have hnu : ¬ Ewma.Updates b t1 cur := fun hh => hh.2 ⟨by rw [← h5]; exact hz, by intro e; rw [e] at hb; simp at hb⟩
        have hcond : cur - b.last = 0 ∧ b.rates ≠ [] := ⟨by rw [← h5]; exact hz, by intro e; rw [e] at hb; simp at hb⟩
        have hres : Ewma.getRates b t1 cur = (none, c) := by
          unfold Ewma.getRates Ewma.update
          rcases h9 with ⟨h, hc⟩ | ⟨h, hf, hc⟩
          · simp only [if_pos h, if_pos hcond, hc]
          · simp only [if_neg h, hf, if_true, if_pos hcond, hc]
        refine .inl ⟨.read t1 cur, ?_, ?_, ?_, ?_, ⟨[], ?_, ?_⟩, ?_, ?_, h6, h7, h8⟩ <;>
          try (simp only [go, hget, hb, hz, if_true, Sys.to, List.append_nil]; done)
        · have hacc : s.acc = c := by
            rw [h10, hi0]
            simp only [part, List.take_zero, List.map_nil, List.nil_append, List.drop_zero]
            rcases h9 with ⟨_, hc⟩ | ⟨_, _, hc⟩ <;> rw [hc]
          simp only [go, hget, hb, if_pos hz, Ewma.step, hres]
          exact hacc
        · simp [h2, hi0, took, takes, hnu]
        · simp [go, hget, hb, hz, Sys.to, outcomes, hres]
        · simp [h1, Ewma.added]
      · refine .inr ⟨.known cur iv i (s.acc.uncounted / iv), ?_, ?_, ?_, ⟨[(r.1, s.acc.uncounted)], ?_, h1, ?_, hz, ?_, h5, by rw [hu],
          t1, c, h6, h7, h8, h9, ?_⟩, ?_, by simp⟩ <;>
          try (simp only [go, hget, hb, if_neg hz, Sys.to]; done)
        · rw [h2, took, took, List.take_add_one, hb, hu]; simp
        · exact (List.getElem?_eq_some_iff.1 hb).1
        · simp only [go, hget, hb, if_neg hz, Sys.to]; exact h10
  | known cur iv i new =>
    obtain ⟨h1, h2, h3, h4, h5, h6, t1, c, h7, h8, h9, h10, h11⟩ := hm
    have hget : rateAt s.acc i = rateAt b i := by unfold rateAt; rw [h11, part_get h4.le]
    by_cases h : rateAt s.acc i = none
    · exact .inr ⟨.first cur iv i new, rfl, by simp only [go, if_pos h, Sys.to], rfl, ⟨[], by simp [go, Sys.to], h1, by simp [h2], h3, h4, h5, h6, by rw [← hget]; exact h,
        t1, c, h7, h8, h9, h10, h11⟩, rfl, by simp⟩
    · exact .inr ⟨.left cur iv i new, rfl, by simp only [go, if_neg h, Sys.to], rfl, ⟨[], by simp [go, Sys.to], h1, by simp [h2], h3, h4, h5, h6, by rw [← hget]; exact h,
        t1, c, h7, h8, h9, h10, h11⟩, rfl, by simp⟩
  | first cur iv i new =>
    obtain ⟨h1, h2, h3, h4, h5, h6, h0, t1, c, h7, h8, h9, h10, h11⟩ := hm
    obtain ⟨r, hr⟩ : ∃ r, b.rates[i]? = some r := ⟨_, List.getElem?_eq_getElem h4⟩
    have hn : r.2 = none := by simpa [rateAt, hr] using h0
    refine .inr ⟨.amount cur iv (i + 1), rfl, rfl, rfl, ⟨[], by simp [go, Sys.to], h1, by simp [h2], fun _ => h3, h4, h5, t1, c, h7, h8, h9, h10, ?_⟩, rfl, by simp⟩
    simp only [go, h11]
    exact part_set hr (by rw [hn, h6]; rfl)
  | left cur iv i new =>
    obtain ⟨h1, h2, h3, h4, h5, h6, h0, t1, c, h7, h8, h9, h10, h11⟩ := hm
    have hget : rateAt s.acc i = rateAt b i := by unfold rateAt; rw [h11, part_get h4.le]
    obtain ⟨l, hl⟩ := Option.ne_none_iff_exists'.1 h0
    exact .inr ⟨.right cur iv i new ((rateAt s.acc i).getD 0), rfl, rfl, rfl, ⟨[], by simp [go, Sys.to], h1, by simp [h2], h3, h4, h5, h6, by rw [hget, hl]; rfl,
      t1, c, h7, h8, h9, h10, h11⟩, rfl, by simp⟩
  | right cur iv i new l =>
    obtain ⟨h1, h2, h3, h4, h5, h6, h0, t1, c, h7, h8, h9, h10, h11⟩ := hm
    obtain ⟨r, hr⟩ : ∃ r, b.rates[i]? = some r := ⟨_, List.getElem?_eq_getElem h4⟩
    have hget : rateAt s.acc i = some l := by unfold rateAt at h0 ⊢; rw [h11, part_get h4.le, h0]
    have hg2 : s.acc.rates[i]? = some r := by rw [h11, part_get h4.le, hr]
    have hn : r.2 = some l := by simpa [rateAt, hr] using h0
    refine .inr ⟨_, rfl, rfl, rfl, ⟨[], by simp [go, Sys.to], h1, by simp [h2], h3, h4, h5, ⟨r, hr, ?_⟩,
      t1, c, h7, h8, h9, h10, h11⟩, rfl, by simp⟩
    simp only [hget, hg2, hn, Ewma.newRate, h6, Option.map_some, Option.getD_some]
  | put cur iv i x =>
    obtain ⟨h1, h2, h3, h4, h5, ⟨r, hr, hx⟩, t1, c, h7, h8, h9, h10, h11⟩ := hm
    refine .inr ⟨.amount cur iv (i + 1), rfl, rfl, rfl, ⟨[], by simp [go, Sys.to], h1, by simp [h2], fun _ => h3, h4, h5, t1, c, h7, h8, h9, h10, ?_⟩, rfl, by simp⟩
    simp only [go, h11]
    exact part_set hr hx
  | reset cur =>
    obtain ⟨h1, t1, t2, h2, h3, h4, h5, h6, h7, h8⟩ := hm
    exact .inr ⟨.stamp cur, rfl, rfl, rfl, ⟨[], by simp [go, Sys.to], h1, t1, t2, h2, h3, h4, h5, h6, by simp [h7], by rw [h8]; rfl⟩, rfl, by simp⟩
  | stamp cur =>
    obtain ⟨h1, t1, t2, h2, h3, h4, h5, h6, h7, h8⟩ := hm
    refine .inr ⟨.copy, rfl, rfl, rfl, ⟨[], by simp [go, Sys.to], h1, t1, t2, h2, h3, h4, by simp [h7], ?_⟩, rfl, by simp⟩
    obtain ⟨f, _, hf⟩ := Ewma.read_updates h6
    have h8' : (Ewma.getRates b t1 t2).2 = (go s t (.stamp cur)).acc := h8
    rw [← h8']
    exact Prod.ext hf rfl
  | copy =>
    obtain ⟨h1, t1, t2, h2, h3, h4, h5, h6⟩ := hm
    exact .inl ⟨.read t1 t2, by simp [go, Sys.to, Ewma.step, h6], rfl, rfl, rfl, ⟨[], by simp [go, Sys.to], by simp [h5]⟩,
      by simp [go, Sys.to, outcomes, h6], by simp [h1, Ewma.added], h2, h3, h4⟩

/-- The accumulator is what the calls that have returned made of it one after the other, and the one under way is part way. -/
def Inv (e : Ewma.Ewma) (s : Sys) : Prop :=
  ∃ (ops : List Ewma.Op) (lo : ℝ) (C : List ℝ) (T : List (ℝ × ℝ)) (p : PC),
    Ewma.Clocked e.last ops ∧ (∀ o ∈ ops, Within e.last lo o) ∧ e.last ≤ lo ∧ lo ≤ s.now ∧
    s.calls = Ewma.added ops ++ C ∧ s.taken = takesAll e ops ++ T ∧ s.reads = outcomes e ops ∧
    Mid (Ewma.run e ops) lo s.now p s.acc C T ∧
    ((p = .idle ∧ Quiescent s) ∨ ∃ t, s.pcs[t]? = some p ∧ p ≠ .idle ∧ ∀ (j : Nat) (q : PC), j ≠ t → s.pcs[j]? = some q → q = .idle)

theorem set_others {pcs : List PC} {t : Nat} {p : PC} (h : ∀ (j : Nat) (q : PC), j ≠ t → pcs[j]? = some q → q = .idle) :
    ∀ (j : Nat) (q : PC), j ≠ t → (pcs.set t p)[j]? = some q → q = .idle := by
  intro j q hj hq
  rw [List.getElem?_set_ne (Ne.symm hj)] at hq
  exact h j q hj hq

theorem within_mono {a lo lo' : ℝ} (h : lo ≤ lo') {o : Ewma.Op} (ho : Within a lo o) : Within a lo' o := by
  cases o with
  | add v => trivial
  | read t1 t2 => exact ⟨ho.1, ho.2.1, ho.2.2.trans h⟩

theorem inv_step {e : Ewma.Ewma} {s : Sys} (h : Inv e s) (t : Tid) (a : Act) (hd : ∀ d, a = .pass d → 0 ≤ d)
    (hap : Apart (step s t a)) : Inv e (step s t a) := by
  obtain ⟨ops, lo, C, T, p, h1, h2, h3, h4, h5, h6, h7, h8, h9⟩ := h
  -- a call begins
  have hcall : ∀ (q : PC) (s' : Sys) (C' : List ℝ), s.pcs[t]? = some .idle → q ≠ .idle → s'.pcs = s.pcs.set t q → s'.now = s.now →
      s'.calls = s.calls ++ C' → s'.taken = s.taken → s'.reads = s.reads → s'.acc = s.acc → Apart s' →
      (s.acc = Ewma.run e ops → C = [] → T = [] → Mid (Ewma.run e ops) lo s.now q s.acc C' []) → Inv e s' := by
    intro q s' C' ht hq e1 e2 e3 e4 e5 e6 hap hmid
    have htl : t < s.pcs.length := (List.getElem?_eq_some_iff.1 ht).1
    rcases h9 with ⟨rfl, hquiet⟩ | ⟨t', ht', hp', hoth⟩
    · obtain ⟨g1, g2, g3⟩ := h8
      subst g2 g3
      refine ⟨ops, lo, C', [], q, h1, h2, h3, by rw [e2]; exact h4, by rw [e3, h5]; simp, by rw [e4, h6], by rw [e5, h7], ?_,
        .inr ⟨t, by rw [e1]; simp [htl], hq, ?_⟩⟩
      · rw [e2, e6]; exact hmid g1 rfl rfl
      · rw [e1]
        exact set_others fun j r _ hr => hquiet r (List.mem_of_getElem? hr)
    · exfalso
      have hne : t ≠ t' := by rintro rfl; rw [ht] at ht'; exact hp' (Option.some.inj ht').symm
      exact hne (hap t t' q p (by rw [e1]; simp [htl]) (by rw [e1, List.getElem?_set_ne hne]; exact ht') hq hp')
  cases a with
  | pass d =>
    have hle : s.now ≤ s.now + d := by have := hd d rfl; linarith
    exact ⟨ops, lo, C, T, p, h1, h2, h3, h4.trans hle, h5, h6, h7, mid_mono hle h8, h9⟩
  | add v =>
    unfold step at hap ⊢
    dsimp only at hap ⊢
    split at hap
    · rename_i ht
      exact hcall (.load v) _ [v] ht (by simp) rfl rfl rfl rfl rfl rfl hap fun g1 _ _ => ⟨g1, rfl, rfl⟩
    · exact ⟨ops, lo, C, T, p, h1, h2, h3, h4, h5, h6, h7, h8, h9⟩
  | read =>
    unfold step at hap ⊢
    dsimp only at hap ⊢
    split at hap
    · rename_i ht
      exact hcall .test _ [] ht (by simp) rfl rfl (by simp [Sys.to]) rfl rfl rfl hap fun g1 _ _ => ⟨g1, rfl, rfl⟩
    · exact ⟨ops, lo, C, T, p, h1, h2, h3, h4, h5, h6, h7, h8, h9⟩
  | go =>
    have hself : Inv e s := ⟨ops, lo, C, T, p, h1, h2, h3, h4, h5, h6, h7, h8, h9⟩
    clear hap
    unfold step
    dsimp only
    rcases ht : s.pcs[t]? with _ | q
    · exact hself
    · by_cases hq : q = .idle
      · subst hq; exact hself
      · dsimp only
        have htl : t < s.pcs.length := (List.getElem?_eq_some_iff.1 ht).1
        obtain ⟨rfl, hoth⟩ : p = q ∧ ∀ (j : Nat) (r : PC), j ≠ t → s.pcs[j]? = some r → r = .idle := by
          rcases h9 with ⟨_, hquiet⟩ | ⟨t', ht', _, hoth⟩
          · exact absurd (hquiet q (List.mem_of_getElem? ht)) hq
          · by_cases htt : t = t'
            · subst htt; rw [ht] at ht'; exact ⟨(Option.some.inj ht').symm, hoth⟩
            · exact absurd (hoth t q htt ht) hq
        rcases go_mid (t := t) h4 hq h8 with ⟨o, E⟩ | ⟨p', O⟩
        · obtain ⟨X, hX1, hX2⟩ := E.taken
          refine ⟨ops ++ [o], s.now, [], [], .idle, clocked_snoc h1 h2 h3 E.within, ?_, h3.trans h4, by rw [E.now], ?_, ?_, ?_,
            ⟨?_, rfl, rfl⟩, .inl ⟨rfl, ?_⟩⟩
          · intro x hx
            rcases List.mem_append.1 hx with hx | hx
            · exact within_mono h4 (h2 x hx)
            · rw [List.mem_singleton.1 hx]
              have := E.within
              cases o with
              | add v => trivial
              | read t1 t2 => exact ⟨h3.trans this.1, this.2⟩
          · rw [E.calls, h5, added_append, E.added, List.append_nil]
          · rw [hX1, h6, takesAll_append, List.append_assoc, hX2, List.append_nil]; simp [takesAll]
          · rw [E.reads, h7, outcomes_append]
          · rw [E.acc, run_append]; rfl
          · intro r hr
            rw [E.pcs] at hr
            obtain ⟨j, hj, hj'⟩ := List.mem_iff_getElem.1 hr
            by_cases hjt : j = t
            · subst hjt; simp at hj'; exact hj'.symm
            · exact set_others hoth j r hjt (by rw [List.getElem?_eq_getElem hj, hj'])
        · obtain ⟨X, hX1, hX2⟩ := O.taken
          refine ⟨ops, lo, C, T ++ X, p', h1, h2, h3, by rw [O.now]; exact h4, by rw [O.calls, h5], by rw [hX1, h6, List.append_assoc],
            by rw [O.reads, h7], by rw [O.now]; exact hX2, .inr ⟨t, by rw [O.pcs]; simp [htl], O.busy, ?_⟩⟩
          rw [O.pcs]; exact set_others hoth

theorem inv_init (e : Ewma.Ewma) (n : Nat) : Inv e (init e n) :=
  ⟨[], e.last, [], [], .idle, trivial, by simp, le_rfl, le_rfl, rfl, rfl, rfl, ⟨rfl, rfl, rfl⟩,
    .inl ⟨rfl, fun p hp => (List.mem_replicate.1 hp).2⟩⟩

/-- The clock does not go back. -/
def ClockForward (sched : List (Tid × Act)) : Prop := ∀ x ∈ sched, ∀ d, x.2 = .pass d → 0 ≤ d

theorem inv_run (e : Ewma.Ewma) (n : Nat) (sched : List (Tid × Act)) (hc : ClockForward sched)
    (ha : AlwaysApart (init e n) sched) : Inv e (run (init e n) sched) := by
  induction sched using List.reverseRecOn with
  | nil => exact inv_init e n
  | append_singleton l x ih =>
    have hl : Inv e (run (init e n) l) := by
      refine ih (fun y hy => hc y (List.mem_append_left _ hy)) fun k => ?_
      by_cases hk : k ≤ l.length
      · have := ha k; rwa [List.take_append_of_le_length hk] at this
      · have := ha l.length; rw [List.take_append_of_le_length le_rfl, List.take_length] at this
        rwa [List.take_of_length_le (by omega)]
    have hx : Apart (run (init e n) (l ++ [x])) := by
      have := ha (l ++ [x]).length; rwa [List.take_length] at this
    rw [run, List.foldl_append] at hx ⊢
    exact inv_step hl x.1 x.2 (hc x (by simp)) hx

/-- **C116** (part).  If no two calls overlap, then in whatever threads they are made, the accumulator and what the reads return
are what C55 says of the same uses one after the other. -/
theorem C116_apart_partial (e : Ewma.Ewma) (n : Nat) (sched : List (Tid × Act)) (hc : ClockForward sched)
    (ha : AlwaysApart (init e n) sched) (hq : Quiescent (run (init e n) sched)) :
    ∃ ops, Ewma.Clocked e.last ops ∧ Ewma.added ops = (run (init e n) sched).calls ∧
      (run (init e n) sched).acc = Ewma.run e ops ∧ (run (init e n) sched).reads = outcomes e ops ∧
      (run (init e n) sched).taken = takesAll e ops := by
  obtain ⟨ops, lo, C, T, p, h1, -, -, -, h5, h6, h7, h8, h9⟩ := inv_run e n sched hc ha
  rcases h9 with ⟨rfl, -⟩ | ⟨t, ht, hp, -⟩
  · obtain ⟨g1, rfl, rfl⟩ := h8
    exact ⟨ops, h1, by simpa using h5.symm, g1, h7, by simpa using h6⟩
  · exact absurd (hq p (List.mem_of_getElem? ht)) hp

theorem keys_step (e : Ewma.Ewma) (o : Ewma.Op) : (Ewma.step e o).rates.map (·.1) = e.rates.map (·.1) := by
  cases o with
  | add v => rfl
  | read t1 t2 =>
    by_cases h : Ewma.Updates e t1 t2
    · obtain ⟨f, hf, -⟩ := Ewma.read_updates h
      simp only [Ewma.step, hf, List.map_map]
      rfl
    · obtain ⟨f, hf⟩ := Ewma.read_keeps h
      simp only [Ewma.step, hf]

theorem keys_run (e : Ewma.Ewma) (ops : List Ewma.Op) : (Ewma.run e ops).rates.map (·.1) = e.rates.map (·.1) := by
  induction ops generalizing e with
  | nil => rfl
  | cons o ops ih => exact (ih (Ewma.step e o)).trans (keys_step e o)

theorem takes_key {rs : List (ℝ × Option ℝ)} (hn : (rs.map (·.1)).Nodup) {p : ℝ} (hp : p ∈ rs.map (·.1)) (u : ℝ) :
    ((rs.map fun r => (r.1, u)).filter (·.1 = p)).map (·.2) = [u] := by
  induction rs with
  | nil => cases hp
  | cons r rs ih =>
    simp only [List.map_cons, List.nodup_cons] at hn hp
    by_cases h : r.1 = p
    · have hnone : (rs.map fun r => (r.1, u)).filter (·.1 = p) = [] := by
        rw [List.filter_eq_nil_iff]
        intro x hx
        obtain ⟨y, hy, rfl⟩ := List.mem_map.1 hx
        simp only [decide_eq_true_eq]
        intro h'
        exact hn.1 (by rw [h, ← h']; exact List.mem_map_of_mem hy)
      simp [h, hnone]
    · have hp' : p ∈ rs.map (·.1) := by
        rcases List.mem_cons.1 hp with h' | h'
        · exact absurd h'.symm h
        · exact h'
      have := ih hn.2 hp'
      simp only [List.map_cons, h, decide_false, List.filter_cons, Bool.false_eq_true, if_false]
      exact this

theorem takesAll_key (e : Ewma.Ewma) (ops : List Ewma.Op) (hn : (e.rates.map (·.1)).Nodup) {p : ℝ} (hp : p ∈ e.rates.map (·.1)) :
    ((takesAll e ops).filter (·.1 = p)).map (·.2) = (Ewma.windows e ops).map (·.amount) := by
  induction ops generalizing e with
  | nil => rfl
  | cons o ops ih =>
    have ih := ih (Ewma.step e o) (by rw [keys_step]; exact hn) (by rw [keys_step]; exact hp)
    simp only [takesAll, List.filter_append, List.map_append, ih]
    cases o with
    | add v => simp [takes, Ewma.windows]
    | read t1 t2 =>
      by_cases h : Ewma.Updates e t1 t2
      · simp only [takes, if_pos h, takes_key hn hp, Ewma.windows, List.map_append, List.map_cons, List.map_nil]
      · simp only [takes, if_neg h, Ewma.windows, List.filter_nil, List.map_nil, List.nil_append]

/-- **C116** (part).  If no two calls overlap, everything that was added has gone into the rate of each period once, or will. -/
theorem C116_accounts_partial (e : Ewma.Ewma) (he : Fresh e) (n : Nat) (sched : List (Tid × Act)) (hc : ClockForward sched)
    (ha : AlwaysApart (init e n) sched) : Accounts (run (init e n) sched) := by
  intro hq r hr
  obtain ⟨ops, -, h1, h2, -, h3⟩ := C116_apart_partial e n sched hc ha hq
  obtain ⟨periods, interval, now, -, hm⟩ := he
  obtain ⟨-, h0, -, -, -, -⟩ := (Ewma.C55_make periods interval now).2 e hm
  have hn : (e.rates.map (·.1)).Nodup := by
    unfold Ewma.make at hm
    dsimp only at hm
    by_cases hpos : (if interval = 0 then 5 else interval) > 0
    · rw [if_neg (not_not.2 hpos)] at hm
      cases hm
      simp only [List.map_map, Function.comp_def, List.map_id', List.nodup_dedup]
    · rw [if_pos hpos] at hm
      cases hm
  have hp : r.1 ∈ e.rates.map (·.1) := by
    rw [← keys_run e ops, ← h2]; exact List.mem_map_of_mem hr
  obtain ⟨g, rest, g1, g2, g3⟩ := Ewma.C55_conservation e ops h0
  have : takenBy (run (init e n) sched) r.1 = g.flatten.sum := by
    unfold takenBy
    rw [h3, takesAll_key e ops hn hp, g2, List.sum_flatten]
  rw [this, h2, g3, ← h1, ← g1, List.sum_append]

/-! ### One thread reads -/

/-- A thread is in `get_rates`. -/
def Reading : PC → Prop
  | .idle | .load _ | .save _ _ => False
  | _ => True

/-- At most one thread is in `get_rates`. -/
def OneReads (s : Sys) : Prop :=
  ∀ (i j : Nat) (p q : PC), s.pcs[i]? = some p → s.pcs[j]? = some q → Reading p → Reading q → i = j

def AlwaysOneReads (s : Sys) (sched : List (Tid × Act)) : Prop := ∀ k, OneReads (run s (sched.take k))

/-- What is known of a thread, for the rates and the last update to be what they are. -/
def Fine (rates : List (ℝ × Option ℝ)) (last now : ℝ) : PC → Prop
  | .load v => 0 ≤ v
  | .save v u => 0 ≤ v ∧ 0 ≤ u
  | .since cur => last ≤ cur ∧ cur ≤ now
  | .amount cur iv _ => last ≤ cur ∧ cur ≤ now ∧ 0 ≤ iv
  | .known cur iv _ new => last ≤ cur ∧ cur ≤ now ∧ 0 < iv ∧ 0 ≤ new
  | .first cur iv _ new => last ≤ cur ∧ cur ≤ now ∧ 0 < iv ∧ 0 ≤ new
  | .left cur iv _ new => last ≤ cur ∧ cur ≤ now ∧ 0 < iv ∧ 0 ≤ new
  | .right cur iv i new l => last ≤ cur ∧ cur ≤ now ∧ 0 < iv ∧ 0 ≤ new ∧ l = (((rates[i]?).bind (·.2)).getD 0)
  | .put cur iv _ x => last ≤ cur ∧ cur ≤ now ∧ 0 ≤ iv ∧ 0 ≤ x
  | .reset cur => last ≤ cur ∧ cur ≤ now
  | .stamp cur => last ≤ cur ∧ cur ≤ now
  | _ => True

structure Pos (s : Sys) : Prop where
  unc : 0 ≤ s.acc.uncounted
  rates : ∀ r ∈ s.acc.rates, 0 < r.1 ∧ ∀ x, r.2 = some x → 0 ≤ x
  last : s.acc.last ≤ s.now
  fine : ∀ p ∈ s.pcs, Fine s.acc.rates s.acc.last s.now p
  reads : NoneNegative s

theorem fine_still {rates rates' : List (ℝ × Option ℝ)} {last last' now : ℝ} {p : PC} (hp : ¬ Reading p)
    (h : Fine rates last now p) : Fine rates' last' now p := by
  cases p <;> first | exact h | exact absurd trivial hp

theorem fine_later {rates : List (ℝ × Option ℝ)} {last now now' : ℝ} (hn : now ≤ now') {p : PC} (h : Fine rates last now p) :
    Fine rates last now' p := by
  cases p <;> simp only [Fine] at h ⊢ <;> first
    | exact h
    | exact ⟨h.1, h.2.trans hn⟩
    | exact ⟨h.1, h.2.1.trans hn, h.2.2⟩

theorem rates_set {rs : List (ℝ × Option ℝ)} (h : ∀ r ∈ rs, 0 < r.1 ∧ ∀ x, r.2 = some x → 0 ≤ x) (i : Nat) {x : ℝ} (hx : 0 ≤ x) :
    ∀ r ∈ rs.modify i fun r => (r.1, some x), 0 < r.1 ∧ ∀ y, r.2 = some y → 0 ≤ y := by
  intro r hr
  obtain ⟨j, hj, hj'⟩ := List.mem_iff_getElem.1 hr
  rw [List.getElem_modify] at hj'
  have hj2 : j < rs.length := by simpa using hj
  have hmem := h _ (List.getElem_mem hj2)
  split at hj'
  · rw [← hj']
    exact ⟨hmem.1, fun y hy => by rw [← Option.some.inj hy]; exact hx⟩
  · rw [← hj']; exact hmem

theorem rate_nonneg {e : Ewma.Ewma} (h : ∀ r ∈ e.rates, 0 < r.1 ∧ ∀ x, r.2 = some x → 0 ≤ x) (i : Nat) : 0 ≤ (rateAt e i).getD 0 := by
  unfold rateAt
  rcases hr : e.rates[i]? with _ | r
  · exact le_rfl
  · have := (h r (List.mem_of_getElem? hr)).2
    rcases h2 : r.2 with _ | x
    · simp [h2]
    · simpa [h2] using this x h2

theorem pos_go {s : Sys} (h : Pos s) (h1 : OneReads s) {t : Tid} {p : PC} (ht : s.pcs[t]? = some p) : Pos (go s t p) := by
  have hf := h.fine p (List.mem_of_getElem? ht)
  -- the rates and the last update stay
  have hadd : ∀ q, Fine s.acc.rates s.acc.last s.now q → ∀ r ∈ s.pcs.set t q, Fine s.acc.rates s.acc.last s.now r := by
    intro q hq r hr
    rcases List.mem_or_eq_of_mem_set hr with hr | rfl
    · exact h.fine r hr
    · exact hq
  -- they change, and this is the thread that reads
  have hread : ∀ (rates : List (ℝ × Option ℝ)) (last : ℝ) (q : PC), Reading p → Fine rates last s.now q →
      ∀ r ∈ s.pcs.set t q, Fine rates last s.now r := by
    intro rates last q hp hq r hr
    obtain ⟨j, hj, hj'⟩ := List.mem_iff_getElem.1 hr
    rw [List.getElem_set] at hj'
    split at hj'
    · rw [← hj']; exact hq
    · rename_i hne
      have hj2 : j < s.pcs.length := by simpa using hj
      have hjr : s.pcs[j]? = some r := by rw [List.getElem?_eq_getElem hj2, hj']
      by_cases hr' : Reading r
      · exact absurd (h1 t j p r ht hjr hp hr') hne
      · exact fine_still hr' (h.fine r (List.mem_of_getElem? hjr))
  cases p with
  | idle => exact h
  | load v => exact ⟨h.unc, h.rates, h.last, hadd _ ⟨hf, h.unc⟩, h.reads⟩
  | save v u => exact ⟨add_nonneg hf.2 hf.1, h.rates, h.last, hadd _ trivial, h.reads⟩
  | test => exact ⟨h.unc, h.rates, h.last, hadd _ (by split <;> trivial), h.reads⟩
  | forced => exact ⟨h.unc, h.rates, h.last, hadd _ (by split <;> trivial), h.reads⟩
  | clear => exact ⟨h.unc, h.rates, h.last, hadd _ trivial, h.reads⟩
  | clock => exact ⟨h.unc, h.rates, h.last, hadd _ ⟨h.last, le_rfl⟩, h.reads⟩
  | since cur => exact ⟨h.unc, h.rates, h.last, hadd _ ⟨hf.1, hf.2, by have := hf.1; linarith⟩, h.reads⟩
  | amount cur iv i =>
    unfold go
    dsimp only
    split
    · exact ⟨h.unc, h.rates, h.last, hadd _ ⟨hf.1, hf.2.1⟩, h.reads⟩
    · split
      · refine ⟨h.unc, h.rates, h.last, hadd _ trivial, ?_⟩
        intro rs hrs
        exact h.reads rs (by simpa using hrs)
      · rename_i hz
        have hiv : 0 < iv := lt_of_le_of_ne hf.2.2 (Ne.symm hz)
        exact ⟨h.unc, h.rates, h.last, hadd _ ⟨hf.1, hf.2.1, hiv, div_nonneg h.unc hiv.le⟩, h.reads⟩
  | known cur iv i new => exact ⟨h.unc, h.rates, h.last, hadd _ (by split <;> exact hf), h.reads⟩
  | first cur iv i new =>
    exact ⟨h.unc, rates_set h.rates i hf.2.2.2, h.last, hread _ _ (.amount cur iv (i + 1)) trivial ⟨hf.1, hf.2.1, hf.2.2.1.le⟩, h.reads⟩
  | left cur iv i new =>
    exact ⟨h.unc, h.rates, h.last, hadd _ ⟨hf.1, hf.2.1, hf.2.2.1, hf.2.2.2, rfl⟩, h.reads⟩
  | right cur iv i new l =>
    refine ⟨h.unc, h.rates, h.last, hadd _ ⟨hf.1, hf.2.1, hf.2.2.1.le, ?_⟩, h.reads⟩
    obtain ⟨-, -, hiv, hnew, hl⟩ := hf
    have hl' : l = (rateAt s.acc i).getD 0 := hl
    rw [hl']
    have hr0 := rate_nonneg h.rates i
    set r := (rateAt s.acc i).getD 0
    have hper : 0 < ((s.acc.rates[i]?).map (·.1)).getD 1 := by
      rcases hr : s.acc.rates[i]? with _ | x
      · simp
      · simpa using (h.rates x (List.mem_of_getElem? hr)).1
    set q := ((s.acc.rates[i]?).map (·.1)).getD 1
    have he0 := Real.exp_pos (-iv / q)
    have he1 : Real.exp (-iv / q) ≤ 1 := Real.exp_le_one_iff.2 (div_nonpos_of_nonpos_of_nonneg (by linarith) hper.le)
    set x := Real.exp (-iv / q)
    have : r + (1 - x) * (new - r) = x * r + (1 - x) * new := by ring
    rw [this]
    exact add_nonneg (mul_nonneg he0.le hr0) (mul_nonneg (by linarith) hnew)
  | put cur iv i x =>
    exact ⟨h.unc, rates_set h.rates i hf.2.2.2, h.last, hread _ _ (.amount cur iv (i + 1)) trivial ⟨hf.1, hf.2.1, hf.2.2.1⟩, h.reads⟩
  | reset cur => exact ⟨le_rfl, h.rates, h.last, hadd _ hf, h.reads⟩
  | stamp cur => exact ⟨h.unc, h.rates, hf.2, hread _ _ .copy trivial trivial, h.reads⟩
  | copy =>
    refine ⟨h.unc, h.rates, h.last, hadd _ trivial, ?_⟩
    intro rs hrs p r hpr
    rcases List.mem_append.1 hrs with hrs | hrs
    · exact h.reads rs hrs p r hpr
    · have : rs = s.acc.rates := by simpa using hrs
      subst this
      exact (h.rates _ hpr).2 r rfl

/-- **C116** (part).  As long as one thread at a time reads rates, whatever the threads that add do, no rate is negative. -/
theorem C116_nonneg_partial (e : Ewma.Ewma) (he : Fresh e) (n : Nat) (sched : List (Tid × Act)) (hc : Forward sched)
    (ha : AlwaysOneReads (init e n) sched) : NoneNegative (run (init e n) sched) := by
  suffices h : Pos (run (init e n) sched) from h.reads
  induction sched using List.reverseRecOn with
  | nil =>
    obtain ⟨periods, interval, now, hp, hm⟩ := he
    obtain ⟨h1, h2, -, -, h5, h6⟩ := (Ewma.C55_make periods interval now).2 e hm
    refine ⟨by rw [show (run (init e n) []).acc = e from rfl, h2], fun r hr => ⟨?_, ?_⟩, le_rfl, ?_, ?_⟩
    · have := (h6 r.1).1 (List.mem_map_of_mem hr)
      split at this
      · simp only [List.mem_cons, List.not_mem_nil, or_false] at this
        rcases this with h | h | h <;> rw [h] <;> norm_num
      · exact hp _ this
    · intro x hx; rw [h5 r hr] at hx; cases hx
    · intro p hp
      rw [(List.mem_replicate.1 hp).2]; trivial
    · intro rs hrs; cases hrs
  | append_singleton l x ih =>
    have hl : Pos (run (init e n) l) := by
      refine ih (fun y hy => hc y (List.mem_append_left _ hy)) fun k => ?_
      by_cases hk : k ≤ l.length
      · have := ha k; rwa [List.take_append_of_le_length hk] at this
      · have := ha l.length; rw [List.take_append_of_le_length le_rfl, List.take_length] at this
        rwa [List.take_of_length_le (by omega)]
    have h1 : OneReads (run (init e n) l) := by
      have := ha l.length; rwa [List.take_append_of_le_length le_rfl, List.take_length] at this
    have hx := hc x (by simp)
    rw [run, List.foldl_append]
    change Pos (step (run (init e n) l) x.1 x.2)
    generalize run (init e n) l = s at hl h1
    obtain ⟨t, a⟩ := x
    have hset : ∀ q, Fine s.acc.rates s.acc.last s.now q → ∀ r ∈ s.pcs.set t q, Fine s.acc.rates s.acc.last s.now r := by
      intro q hq r hr
      rcases List.mem_or_eq_of_mem_set hr with hr | rfl
      · exact hl.fine r hr
      · exact hq
    cases a with
    | pass d =>
      have hle : s.now ≤ s.now + d := by have : 0 ≤ d := hx; linarith
      exact ⟨hl.unc, hl.rates, hl.last.trans hle, fun p hp => fine_later hle (hl.fine p hp), hl.reads⟩
    | go =>
      unfold step
      dsimp only
      split
      · rename_i p hp; exact pos_go hl h1 hp
      · exact hl
    | add v =>
      unfold step
      dsimp only
      split
      · exact ⟨hl.unc, hl.rates, hl.last, hset _ hx, hl.reads⟩
      · exact hl
    | read =>
      unfold step
      dsimp only
      split
      · exact ⟨hl.unc, hl.rates, hl.last, hset _ trivial, hl.reads⟩
      · exact hl

/-! ### Schedules that meet the hypotheses -/

theorem apart_two {s : Sys} {a b : PC} (h : s.pcs = [a, b]) (hi : a = .idle ∨ b = .idle) : Apart s := by
  intro i j p q hp hq hp' hq'
  rw [h] at hp hq
  rcases i with _ | _ | i <;> rcases j with _ | _ | j <;> simp at hp hq <;> first
    | rfl
    | (subst hp hq; rcases hi with rfl | rfl <;> simp at hp' hq')

theorem oneReads_two {s : Sys} {a b : PC} (h : s.pcs = [a, b]) (hi : ¬ Reading a ∨ ¬ Reading b) : OneReads s := by
  intro i j p q hp hq hp' hq'
  rw [h] at hp hq
  rcases i with _ | _ | i <;> rcases j with _ | _ | j <;> simp at hp hq <;> first
    | rfl
    | (subst hp hq; rcases hi with hi | hi <;> first | exact absurd hp' hi | exact absurd hq' hi)

/-- One thread adds, then another reads. -/
def inTurn : List (Tid × Act) := [(0, .add 1)] ++ goes 2 0 ++ [(0, .pass 2), (1, .read)] ++ goes 12 1

/-- A value is added while another thread reads. -/
def overlapping : List (Tid × Act) :=
  [(0, .add 1)] ++ goes 2 0 ++ [(0, .pass 2), (1, .read)] ++ goes 6 1 ++ [(0, .add 5)] ++ goes 2 0 ++ goes 6 1

theorem take_cases {α : Type} (P : List α → Prop) (l : List α) (h : ∀ k, k ≤ l.length → P (l.take k)) : ∀ k, P (l.take k) := by
  intro k
  by_cases hk : k ≤ l.length
  · exact h k hk
  · have := h l.length le_rfl
    rw [List.take_length] at this
    rwa [List.take_of_length_le (by omega)]

example : ClockForward inTurn ∧ AlwaysApart (init sample 2) inTurn ∧ Quiescent (run (init sample 2) inTurn) ∧
    (run (init sample 2) inTurn).reads = [some [(60, some (1 / 2))]] := by
  refine ⟨?_, ?_, ?_, ?_⟩
  · intro x hx d hd
    simp [inTurn, goes] at hx
    rcases hx with h | h | h | h | h <;> simp [h] at hd
    linarith
  · refine take_cases (fun l => Apart (run (init sample 2) l)) _ fun k hk => ?_
    have hk : k ≤ 17 := hk
    interval_cases k <;>
      exact apart_two (by simp [inTurn, n52, goes, run, step, go, init, sample, Sys.to, setRate, rateAt, List.replicate]; exact ⟨rfl, rfl⟩) (by simp)
  · simp [inTurn, n52, goes, run, step, go, init, sample, Sys.to, setRate, rateAt, Quiescent, List.replicate]
  · simp [inTurn, n52, goes, run, step, go, init, sample, Sys.to, setRate, rateAt, List.replicate]

example : Forward overlapping ∧ AlwaysOneReads (init sample 2) overlapping ∧
    (run (init sample 2) overlapping).reads = [some [(60, some (1 / 2))]] := by
  refine ⟨?_, ?_, ?_⟩
  · intro x hx
    simp [overlapping, goes] at hx
    rcases hx with h | h | h | h | h | h | h | h <;> first | (rw [h]; norm_num; done) | (rw [h.2]; trivial)
  · refine take_cases (fun l => OneReads (run (init sample 2) l)) _ fun k hk => ?_
    have hk : k ≤ 20 := hk
    interval_cases k <;>
      exact oneReads_two (by simp [overlapping, n52, goes, run, step, go, init, sample, Sys.to, setRate, rateAt, List.replicate]; exact ⟨rfl, rfl⟩) (by simp [Reading])
  · simp [overlapping, n52, goes, run, step, go, init, sample, Sys.to, setRate, rateAt, List.replicate]

end

end Verif.EwmaConc
