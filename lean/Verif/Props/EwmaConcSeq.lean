import Verif.Model.EwmaConc
/-!
# C116: one thread alone uses an EWMA accumulator as the sequential model says
-/
namespace Verif.EwmaConc

open Classical

noncomputable section

/-- Steps of thread `t` alone lead from `s` to `s'`. -/
def Alone (t : Tid) (s s' : Sys) : Prop := ∃ n, run s (List.replicate n (t, .go)) = s'

theorem Alone.refl (t : Tid) (s : Sys) : Alone t s s := ⟨0, rfl⟩

theorem Alone.trans {t : Tid} {a b c : Sys} (h1 : Alone t a b) (h2 : Alone t b c) : Alone t a c := by
  obtain ⟨n, rfl⟩ := h1
  obtain ⟨m, rfl⟩ := h2
  exact ⟨n + m, by rw [List.replicate_add, run, run, run, List.foldl_append]⟩

/-- The state `s` with thread `t` at `p`, the accumulator `a` and the history `tk`. -/
def at' (s : Sys) (t : Tid) (p : PC) (a : Ewma.Ewma) (tk : List (ℝ × ℝ)) : Sys :=
  { s with pcs := s.pcs.set t p, acc := a, taken := tk }

theorem alone_step {s : Sys} {t : Tid} (ht : t < s.pcs.length) (p : PC) (a : Ewma.Ewma) (tk : List (ℝ × ℝ)) :
    Alone t (at' s t p a tk) (go (at' s t p a tk) t p) := by
  refine ⟨1, ?_⟩
  have : (at' s t p a tk).pcs[t]? = some p := by simp [at', ht]
  simp [run, step, this]

theorem to_at (s : Sys) (t : Tid) (p q : PC) (a : Ewma.Ewma) (tk : List (ℝ × ℝ)) : (at' s t p a tk).to t q = at' s t q a tk := by
  simp [at', Sys.to]

/-- The rates after the loop of `_update`, from the `i`th period on. -/
def looped (e : Ewma.Ewma) (iv : ℝ) (i : Nat) : List (ℝ × Option ℝ) :=
  e.rates.take i ++ (e.rates.drop i).map fun (p, old) => (p, some (Ewma.newRate e.uncounted iv p old))

theorem modify_split {X : Type} (l : List X) (i : Nat) (h : i < l.length) (f : X → X) :
    l.modify i f = l.take i ++ f l[i] :: l.drop (i + 1) := by
  induction l generalizing i with
  | nil => simp at h
  | cons x l ih =>
    cases i with
    | zero => simp
    | succ i => simp [ih i (by simpa using h)]

theorem looped_set (e : Ewma.Ewma) (iv : ℝ) (i : Nat) (h : i < e.rates.length) :
    looped (setRate e i (Ewma.newRate e.uncounted iv e.rates[i].1 e.rates[i].2)) iv (i + 1) = looped e iv i := by
  have hl : (e.rates.take i).length = i := by simp; omega
  unfold looped setRate
  dsimp only
  rw [modify_split _ _ h]
  have e1 : (e.rates.take i ++ (e.rates[i].1, some (Ewma.newRate e.uncounted iv e.rates[i].1 e.rates[i].2)) :: e.rates.drop (i + 1)).take (i + 1) =
      e.rates.take i ++ [(e.rates[i].1, some (Ewma.newRate e.uncounted iv e.rates[i].1 e.rates[i].2))] := by
    rw [List.take_append, hl, List.take_of_length_le (by omega)]
    simp
  have e2 : (e.rates.take i ++ (e.rates[i].1, some (Ewma.newRate e.uncounted iv e.rates[i].1 e.rates[i].2)) :: e.rates.drop (i + 1)).drop (i + 1) =
      e.rates.drop (i + 1) := by
    rw [List.drop_append, hl, List.drop_of_length_le (by omega)]
    simp
  rw [e1, e2, List.drop_eq_getElem_cons h, List.map_cons, List.append_assoc]
  rfl

theorem loop_alone {s : Sys} {t : Tid} (ht : t < s.pcs.length) (cur iv : ℝ) (hiv : iv ≠ 0) :
    ∀ (k i : Nat) (e : Ewma.Ewma) (tk : List (ℝ × ℝ)), e.rates.length = i + k →
      ∃ tk', Alone t (at' s t (.amount cur iv i) e tk) (at' s t (.reset cur) { e with rates := looped e iv i } tk') := by
  intro k
  induction k with
  | zero =>
    intro i e tk hl
    refine ⟨tk, ?_⟩
    have h1 := alone_step ht (.amount cur iv i) e tk
    have hn : (at' s t (.amount cur iv i) e tk).acc.rates[i]? = none := by
      simp only [at']; exact List.getElem?_eq_none (by omega)
    rw [go, hn] at h1
    dsimp only at h1
    rw [to_at] at h1
    have : looped e iv i = e.rates := by
      unfold looped; rw [List.take_of_length_le (by omega), List.drop_of_length_le (by omega)]; simp
    rw [this]
    exact h1
  | succ k ih =>
    intro i e tk hl
    have hi : i < e.rates.length := by omega
    have hs : e.rates[i]? = some e.rates[i] := List.getElem?_eq_getElem hi
    have h1 := alone_step ht (.amount cur iv i) e tk
    have hn : (at' s t (.amount cur iv i) e tk).acc.rates[i]? = some e.rates[i] := hs
    rw [go, hn] at h1
    dsimp only at h1
    rw [if_neg hiv, to_at] at h1
    change Alone t _ (at' s t (.known cur iv i (e.uncounted / iv)) e (tk ++ [(e.rates[i].1, e.uncounted)])) at h1
    have h2 := alone_step ht (.known cur iv i (e.uncounted / iv)) e (tk ++ [(e.rates[i].1, e.uncounted)])
    rw [go, to_at] at h2
    have hr : rateAt e i = e.rates[i].2 := by simp [rateAt, hs]
    have hr' : ∀ p tk, rateAt (at' s t p e tk).acc i = e.rates[i].2 := fun p tk => hr
    rw [hr'] at h2
    have hset : (setRate e i (Ewma.newRate e.uncounted iv e.rates[i].1 e.rates[i].2)).rates.length = (i + 1) + k := by
      simp [setRate]; omega
    obtain ⟨tk', h5⟩ := ih (i + 1) (setRate e i (Ewma.newRate e.uncounted iv e.rates[i].1 e.rates[i].2))
      (tk ++ [(e.rates[i].1, e.uncounted)]) hset
    rw [looped_set e iv i hi] at h5
    refine ⟨tk', h1.trans (h2.trans (Alone.trans ?_ h5))⟩
    cases ho : e.rates[i].2 with
    | none =>
      rw [if_pos rfl]
      have h3 := alone_step ht (.first cur iv i (e.uncounted / iv)) e (tk ++ [(e.rates[i].1, e.uncounted)])
      rw [go, to_at] at h3
      exact h3
    | some r =>
      rw [if_neg (by simp)]
      have h3 := alone_step ht (.left cur iv i (e.uncounted / iv)) e (tk ++ [(e.rates[i].1, e.uncounted)])
      rw [go, to_at, hr', ho] at h3
      have h4 := alone_step ht (.right cur iv i (e.uncounted / iv) r) e (tk ++ [(e.rates[i].1, e.uncounted)])
      rw [go, to_at, hr', ho] at h4
      have hp : ((at' s t (.right cur iv i (e.uncounted / iv) r) e (tk ++ [(e.rates[i].1, e.uncounted)])).acc.rates[i]?).map (·.1) =
          some e.rates[i].1 := by simp [at', hs]
      rw [hp] at h4
      simp only [Option.getD_some] at h3 h4
      have h6 := alone_step ht (.put cur iv i (r + (1 - Real.exp (-iv / e.rates[i].1)) * (e.uncounted / iv - r))) e
        (tk ++ [(e.rates[i].1, e.uncounted)])
      rw [go, to_at] at h6
      exact h3.trans (h4.trans h6)

/-- **C116**, one thread alone: `add` is that of the sequential model. -/
theorem C116_add_sequential (s : Sys) (t : Tid) (ht : t < s.pcs.length) (hp : s.pcs[t]? = some .idle) (v : ℝ) :
    Alone t (step s t (.add v)) { s with acc := Ewma.add s.acc v, calls := s.calls ++ [v] } := by
  have e0 : step s t (.add v) = at' { s with calls := s.calls ++ [v] } t (.load v) s.acc s.taken := by
    simp [step, hp, at', Sys.to]
  rw [e0]
  have ht' : t < ({ s with calls := s.calls ++ [v] } : Sys).pcs.length := ht
  have h1 := alone_step ht' (.load v) s.acc s.taken
  rw [go, to_at] at h1
  have h2 := alone_step ht' (.save v s.acc.uncounted) s.acc s.taken
  rw [go, to_at] at h2
  refine h1.trans (h2.trans ?_)
  have e1 : s.pcs.set t .idle = s.pcs := by
    obtain ⟨_, h⟩ := List.getElem?_eq_some_iff.1 hp
    rw [← h]; exact List.set_getElem_self ht
  have : ({ at' { s with calls := s.calls ++ [v] } t .idle s.acc s.taken with
      acc := { s.acc with uncounted := s.acc.uncounted + v } } : Sys) =
      { s with acc := Ewma.add s.acc v, calls := s.calls ++ [v] } := by
    simp [at', e1, Ewma.add]
  exact this ▸ Alone.refl t _

/-- From the clock reading of `_update` to the end of the call. -/
theorem update_alone {s : Sys} {t : Tid} (ht : t < s.pcs.length) (a : Ewma.Ewma) (tk : List (ℝ × ℝ)) :
    ∃ tk', Alone t (at' s t .clock a tk)
      (match Ewma.update a s.now with
        | none => { at' s t .idle a tk' with reads := s.reads ++ [none] }
        | some e' => { at' s t .idle e' tk' with reads := s.reads ++ [some e'.rates] }) := by
  have h1 := alone_step ht .clock a tk
  rw [go, to_at] at h1
  change Alone t _ (at' s t (.since s.now) a tk) at h1
  have h2 := alone_step ht (.since s.now) a tk
  rw [go, to_at] at h2
  change Alone t _ (at' s t (.amount s.now (s.now - a.last) 0) a tk) at h2
  have fin : ∀ (a' : Ewma.Ewma) (tk' : List (ℝ × ℝ)), Alone t (at' s t (.reset s.now) a' tk')
      { at' s t .idle { a' with uncounted := 0, last := s.now } tk' with reads := s.reads ++ [some a'.rates] } := by
    intro a' tk'
    have h4 := alone_step ht (.reset s.now) a' tk'
    rw [go, to_at] at h4
    change Alone t _ (at' s t (.stamp s.now) { a' with uncounted := 0 } tk') at h4
    have h5 := alone_step ht (.stamp s.now) { a' with uncounted := 0 } tk'
    rw [go, to_at] at h5
    change Alone t _ (at' s t .copy { a' with uncounted := 0, last := s.now } tk') at h5
    have h6 := alone_step ht .copy { a' with uncounted := 0, last := s.now } tk'
    rw [go, to_at] at h6
    exact h4.trans (h5.trans h6)
  by_cases hiv : s.now - a.last = 0
  · by_cases hr : a.rates = []
    · have h3 := alone_step ht (.amount s.now (s.now - a.last) 0) a tk
      have hn : (at' s t (.amount s.now (s.now - a.last) 0) a tk).acc.rates[0]? = none := by simp [at', hr]
      rw [go, hn] at h3
      dsimp only at h3
      rw [to_at] at h3
      refine ⟨tk, ?_⟩
      have : Ewma.update a s.now = some { a with uncounted := 0, last := s.now } := by
        simp [Ewma.update, hr]
      rw [this]
      exact h1.trans (h2.trans (h3.trans (fin a tk)))
    · refine ⟨tk, ?_⟩
      have h3 := alone_step ht (.amount s.now (s.now - a.last) 0) a tk
      have hl : 0 < a.rates.length := List.length_pos_iff.2 hr
      have hn : (at' s t (.amount s.now (s.now - a.last) 0) a tk).acc.rates[0]? = some a.rates[0] :=
        List.getElem?_eq_getElem hl
      rw [go, hn] at h3
      dsimp only at h3
      rw [if_pos hiv, to_at] at h3
      have : Ewma.update a s.now = none := by simp [Ewma.update, hiv, hr]
      rw [this]
      exact h1.trans (h2.trans h3)
  · obtain ⟨tk', h3⟩ := loop_alone ht s.now (s.now - a.last) hiv a.rates.length 0 a tk (by simp)
    refine ⟨tk', ?_⟩
    have : Ewma.update a s.now = some { a with rates := looped a (s.now - a.last) 0, uncounted := 0, last := s.now } := by
      simp [Ewma.update, hiv, looped]
    rw [this]
    exact h1.trans (h2.trans (h3.trans (fin _ tk')))

/-- **C116**, one thread alone: `get_rates` is that of the sequential model; between the test and the clock reading of the update some
time may pass. -/
theorem C116_read_sequential (s : Sys) (t : Tid) (ht : t < s.pcs.length) (hp : s.pcs[t]? = some .idle) (d : ℝ) :
    ∃ tk, Alone t (step (step (step s t .read) t .go) t (.pass d))
      { s with now := s.now + d, acc := (Ewma.getRates s.acc s.now (s.now + d)).2, taken := tk, reads := s.reads ++ [(Ewma.getRates s.acc s.now (s.now + d)).1] } := by
  have e1 : s.pcs.set t .idle = s.pcs := by
    obtain ⟨_, h⟩ := List.getElem?_eq_some_iff.1 hp
    rw [← h]; exact List.set_getElem_self ht
  let s' : Sys := { s with now := s.now + d }
  have ht' : t < s'.pcs.length := ht
  have e0 : step (step (step s t .read) t .go) t (.pass d) =
      at' s' t (if s.now - s.acc.last ≥ s.acc.interval then .clock else .forced) s.acc s.taken := by
    have : (s.pcs.set t PC.test)[t]? = some .test := by simp [ht]
    simp [step, hp, at', Sys.to, s', this, go]
  rw [e0]
  have done : ∀ (a : Ewma.Ewma) (tk : List (ℝ × ℝ)) (r : Option (List (ℝ × Option ℝ))),
      ({ at' s' t .idle a tk with reads := s'.reads ++ [r] } : Sys) =
        { s with now := s.now + d, acc := a, reads := s.reads ++ [r], taken := tk } := by
    intro a tk r
    simp [at', s', e1]
  by_cases h1 : s.now - s.acc.last ≥ s.acc.interval
  · rw [if_pos h1]
    obtain ⟨tk, h2⟩ := update_alone ht' s.acc s.taken
    refine ⟨tk, ?_⟩
    unfold Ewma.getRates
    rw [if_pos h1]
    cases hu : Ewma.update s.acc s'.now with
    | none => rw [hu] at h2; dsimp only at h2 ⊢; rw [done] at h2; exact h2
    | some e' => rw [hu] at h2; dsimp only at h2 ⊢; rw [done] at h2; exact h2
  · rw [if_neg h1]
    have h3 := alone_step ht' .forced s.acc s.taken
    rw [go, to_at] at h3
    change Alone t _ (at' s' t (if s.acc.force then .clear else .copy) s.acc s.taken) at h3
    by_cases hf : s.acc.force
    · rw [if_pos hf] at h3
      have h4 := alone_step ht' .clear s.acc s.taken
      rw [go, to_at] at h4
      change Alone t _ (at' s' t .clock { s.acc with force := false } s.taken) at h4
      obtain ⟨tk, h2⟩ := update_alone ht' { s.acc with force := false } s.taken
      refine ⟨tk, h3.trans (h4.trans ?_)⟩
      unfold Ewma.getRates
      rw [if_neg h1, if_pos hf]
      dsimp only
      cases hu : Ewma.update { s.acc with force := false } s'.now with
      | none => rw [hu] at h2; dsimp only at h2; rw [done] at h2; exact h2
      | some e' => rw [hu] at h2; dsimp only at h2; rw [done] at h2; exact h2
    · rw [if_neg hf] at h3
      have h4 := alone_step ht' .copy s.acc s.taken
      rw [go, to_at] at h4
      refine ⟨s.taken, h3.trans ?_⟩
      unfold Ewma.getRates
      rw [if_neg h1, if_neg hf]
      dsimp only
      rw [← done]
      exact h4

/-- One of two threads, at a fresh accumulator. -/
example (e : Ewma.Ewma) (v : ℝ) : Alone 1 (step (init e 2) 1 (.add v)) { init e 2 with acc := Ewma.add e v, calls := [v] } :=
  C116_add_sequential (init e 2) 1 (by simp [init]) (by simp [init]) v
example (e : Ewma.Ewma) (d : ℝ) : ∃ tk, Alone 0 (step (step (step (init e 2) 0 .read) 0 .go) 0 (.pass d))
    { init e 2 with now := e.last + d, acc := (Ewma.getRates e e.last (e.last + d)).2, taken := tk, reads := [(Ewma.getRates e e.last (e.last + d)).1] } :=
  C116_read_sequential (init e 2) 0 (by simp [init]) (by simp [init]) d

end

end Verif.EwmaConc
