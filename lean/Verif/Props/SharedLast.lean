import Verif.Props.Shared
/-!
# C102: what threads that share an action publish last

Whatever the schedule: no end event is published that no call asked for, the publications never go back to an older event, and
when all calls have returned, the last begin event and the last end event published are the ones the action shows.
-/
namespace Verif.Shared

/-- The begin events published, in order. -/
def beginsOf (o : List Out) : List Ev := o.filterMap fun | .begin e => some e | _ => none

/-- The status that a thread inside a status call was given. -/
def given : PC → Option Status
  | .check st | .test (.fin st) | .storeBegin (.fin st) | .pubBegin (.fin st) | .storeEnd st => some st
  | _ => none

/-- What holds between any two steps. -/
structure Last (s : Sys) : Prop where
  asked : ∀ e st, Out.fin e st ∈ s.out → Act.fin st ∈ s.asked
  given : ∀ p ∈ s.pcs, ∀ st, given p = some st → Act.fin st ∈ s.asked
  stored : ∀ e st, s.endEvent = some (e, st) → Act.fin st ∈ s.asked ∧ e < s.next
  storedB : ∀ e, s.beginEvent = some e → e < s.next
  up : (finsOf s.out).Pairwise (· ≤ ·)
  upB : (beginsOf s.out).Pairwise (· ≤ ·)
  top : ∀ x ∈ finsOf s.out, ∃ p, s.endEvent = some p ∧ x ≤ p.1
  topB : ∀ x ∈ beginsOf s.out, ∃ e, s.beginEvent = some e ∧ x ≤ e
  last : ∀ e st, s.endEvent = some (e, st) → .pubEnd ∈ s.pcs ∨ (s.out.filter isFin).getLast? = some (.fin e st)
  lastB : ∀ e, s.beginEvent = some e → (∃ k, .pubBegin k ∈ s.pcs) ∨ (s.out.filter isBegin).getLast? = some (.begin e)

theorem mem_set_ne {l : List PC} {t : Nat} {p q x : PC} (hp : l[t]? = some p) (hx : x ∈ l) (hne : x ≠ p) : x ∈ l.set t q := by
  obtain ⟨i, hi, rfl⟩ := List.mem_iff_getElem.1 hx
  have hti : t ≠ i := by
    rintro rfl
    rw [List.getElem?_eq_getElem hi] at hp
    exact hne (Option.some.inj hp)
  refine List.mem_iff_getElem.2 ⟨i, by simpa using hi, ?_⟩
  rw [List.getElem_set_ne hti]

/-- A thread goes from `p` to `q`, and nothing is stored or published. -/
theorem Last.move {s s' : Sys} (h : Last s) {t : Tid} {p q : PC} (hp : s.pcs[t]? = some p) (hs : s'.pcs = s.pcs.set t q)
    (ho : s'.out = s.out) (he : s'.endEvent = s.endEvent) (hb : s'.beginEvent = s.beginEvent) (hn : s.next ≤ s'.next)
    (ha : ∀ a ∈ s.asked, a ∈ s'.asked) (hg : ∀ st, Shared.given q = some st → Act.fin st ∈ s'.asked)
    (h1 : p ≠ .pubEnd) (h2 : ∀ k, p ≠ .pubBegin k) : Last s' where
  asked e st hm := ha _ (h.asked e st (ho ▸ hm))
  given x hx st hst := by
    rw [hs] at hx
    rcases List.mem_or_eq_of_mem_set hx with hx | rfl
    · exact ha _ (h.given x hx st hst)
    · exact hg st hst
  stored e st hst := by
    rw [he] at hst
    exact ⟨ha _ (h.stored e st hst).1, Nat.lt_of_lt_of_le (h.stored e st hst).2 hn⟩
  storedB e hst := Nat.lt_of_lt_of_le (h.storedB e (hb ▸ hst)) hn
  up := by rw [ho]; exact h.up
  upB := by rw [ho]; exact h.upB
  top := by rw [ho, he]; exact h.top
  topB := by rw [ho, hb]; exact h.topB
  last e st hst := by
    rw [he] at hst
    rw [ho, hs]
    exact (h.last e st hst).imp_left fun hm => mem_set_ne hp hm h1.symm
  lastB e hst := by
    rw [hb] at hst
    rw [ho, hs]
    exact (h.lastB e hst).imp_left fun ⟨k, hm⟩ => ⟨k, mem_set_ne hp hm (h2 k).symm⟩

theorem given_pc (k : Cont) : given k.pc = match k with | .ret => none | .fin st => some st := by
  cases k <;> rfl

theorem pairwise_snoc {l : List Ev} (h : l.Pairwise (· ≤ ·)) {e : Ev} (he : ∀ x ∈ l, x ≤ e) : (l ++ [e]).Pairwise (· ≤ ·) := by
  rw [List.pairwise_append]
  exact ⟨h, List.pairwise_singleton _ _, fun a ha b hb => by simp only [List.mem_singleton] at hb; subst hb; exact he a ha⟩

theorem go_Last {s : Sys} (h : Last s) {t : Tid} {p : PC} (hp : s.pcs[t]? = some p) : Last (go s t p) := by
  have hpm : p ∈ s.pcs := List.mem_of_getElem? hp
  have hlt : t < s.pcs.length := (List.getElem?_eq_some_iff.1 hp).1
  have hq : ∀ q : PC, q ∈ s.pcs.set t q := fun q => List.mem_set hlt q
  have hgk : ∀ k : Cont, (∀ st, k = .fin st → Act.fin st ∈ s.asked) → ∀ st, given k.pc = some st → Act.fin st ∈ s.asked := by
    intro k hk st hst
    rw [given_pc] at hst
    cases k with
    | ret => cases hst
    | fin st' => cases hst; exact hk _ rfl
  cases p with
  | idle => exact h
  | check st =>
    refine h.move hp (q := if s.beginEvent.isNone then .test (.fin st) else .storeEnd st) rfl rfl rfl rfl (Nat.le_refl _)
      (fun a ha => ha) ?_ (by simp) (by simp)
    intro st' hst
    refine h.given _ hpm st' ?_
    split at hst <;> exact hst
  | test k =>
    refine h.move hp (q := if s.beginEvent.isNone then .storeBegin k else k.pc) rfl rfl rfl rfl (Nat.le_refl _)
      (fun a ha => ha) ?_ (by simp) (by simp)
    intro st' hst
    refine h.given _ hpm st' ?_
    cases k with
    | ret => split at hst <;> cases hst
    | fin st => split at hst <;> exact hst
  | storeBegin k =>
    refine ⟨h.asked, ?_, ?_, ?_, h.up, h.upB, h.top, ?_, ?_, ?_⟩
    · intro x hx st hst
      rcases List.mem_or_eq_of_mem_set hx with hx | rfl
      · exact h.given x hx st hst
      · refine h.given _ hpm st ?_
        cases k with
        | ret => cases hst
        | fin st => exact hst
    · intro e st he
      exact ⟨(h.stored e st he).1, Nat.lt_succ_of_lt (h.stored e st he).2⟩
    · intro e he
      obtain rfl := Option.some.inj he
      exact Nat.lt_succ_self _
    · intro x hx
      obtain ⟨e, he, hle⟩ := h.topB x hx
      exact ⟨s.next, rfl, Nat.le_trans hle (Nat.le_of_lt (h.storedB e he))⟩
    · intro e st he
      exact (h.last e st he).imp_left fun hm => mem_set_ne hp hm (by simp)
    · intro e he
      exact .inl ⟨k, hq _⟩
  | pubBegin k =>
    have hk : ∀ st, given k.pc = some st → Act.fin st ∈ s.asked := hgk k fun st e => h.given _ hpm st (by rw [e]; rfl)
    cases hb : s.beginEvent with
    | none =>
      have e1 : go s t (.pubBegin k) = s.to t k.pc := by simp only [go, hb]
      rw [e1]
      refine ⟨h.asked, ?_, h.stored, h.storedB, h.up, h.upB, h.top, h.topB, ?_, ?_⟩
      · intro x hx st hst
        rcases List.mem_or_eq_of_mem_set hx with hx | rfl
        · exact h.given x hx st hst
        · exact hk st hst
      · intro e st he
        exact (h.last e st he).imp_left fun hm => mem_set_ne hp hm (by simp)
      · intro e he
        exact absurd he (by show s.beginEvent ≠ _; rw [hb]; simp)
    | some e =>
      have e1 : go s t (.pubBegin k) = { s with out := s.out ++ [Out.begin e] }.to t k.pc := by simp only [go, hb]
      rw [e1]
      have hf : finsOf (s.out ++ [Out.begin e]) = finsOf s.out := by simp [finsOf]
      have hbg : beginsOf (s.out ++ [Out.begin e]) = beginsOf s.out ++ [e] := by simp [beginsOf]
      have hle : ∀ x ∈ beginsOf s.out, x ≤ e := by
        intro x hx
        obtain ⟨e', he', hle⟩ := h.topB x hx
        rw [hb] at he'
        obtain rfl := Option.some.inj he'
        exact hle
      refine ⟨?_, ?_, h.stored, h.storedB, ?_, ?_, ?_, ?_, ?_, ?_⟩
      · intro x st hx
        have hx : Out.fin x st ∈ s.out ++ [Out.begin e] := hx
        exact h.asked x st (by simpa using hx)
      · intro x hx st hst
        rcases List.mem_or_eq_of_mem_set hx with hx | rfl
        · exact h.given x hx st hst
        · exact hk st hst
      · show (finsOf (s.out ++ [Out.begin e])).Pairwise _
        rw [hf]; exact h.up
      · show (beginsOf (s.out ++ [Out.begin e])).Pairwise _
        rw [hbg]; exact pairwise_snoc h.upB hle
      · show ∀ x ∈ finsOf (s.out ++ [Out.begin e]), _
        rw [hf]; exact h.top
      · show ∀ x ∈ beginsOf (s.out ++ [Out.begin e]), _
        rw [hbg]
        intro x hx
        refine ⟨e, hb, ?_⟩
        rcases List.mem_append.1 hx with hx | hx
        · exact hle x hx
        · simp only [List.mem_singleton] at hx; exact Nat.le_of_eq hx
      · intro e' st he
        refine (h.last e' st he).imp (fun hm => mem_set_ne hp hm (by simp)) fun hl => ?_
        show ((s.out ++ [Out.begin e]).filter isFin).getLast? = _
        simpa [List.filter_append, isFin] using hl
      · intro e' he
        have he : s.beginEvent = some e' := he
        rw [hb] at he
        obtain rfl := Option.some.inj he
        refine .inr ?_
        show ((s.out ++ [Out.begin e]).filter isBegin).getLast? = _
        simp [List.filter_append, isBegin]
  | storeEnd st =>
    refine ⟨h.asked, ?_, ?_, ?_, h.up, h.upB, ?_, h.topB, ?_, ?_⟩
    · intro x hx st' hst
      rcases List.mem_or_eq_of_mem_set hx with hx | rfl
      · exact h.given x hx st' hst
      · cases hst
    · intro e st' he
      obtain ⟨rfl, rfl⟩ := Prod.mk.inj (Option.some.inj he)
      exact ⟨h.given _ hpm st rfl, Nat.lt_succ_self _⟩
    · intro e he
      exact Nat.lt_succ_of_lt (h.storedB e he)
    · intro x hx
      obtain ⟨e, he, hle⟩ := h.top x hx
      exact ⟨(s.next, st), rfl, Nat.le_trans hle (Nat.le_of_lt (h.stored e.1 e.2 he).2)⟩
    · intro e st' he
      exact .inl (hq _)
    · intro e he
      exact (h.lastB e he).imp_left fun ⟨k, hm⟩ => ⟨k, mem_set_ne hp hm (by simp)⟩
  | pubEnd =>
    have hgi : ∀ x ∈ s.pcs.set t .idle, ∀ st, Shared.given x = some st → Act.fin st ∈ s.asked := by
      intro x hx st hst
      rcases List.mem_or_eq_of_mem_set hx with hx | rfl
      · exact h.given x hx st hst
      · cases hst
    cases hb : s.endEvent with
    | none =>
      have e1 : go s t .pubEnd = s.to t .idle := by simp only [go, hb]
      rw [e1]
      refine ⟨h.asked, hgi, h.stored, h.storedB, h.up, h.upB, h.top, h.topB, ?_, ?_⟩
      · intro e st he
        exact absurd he (by show s.endEvent ≠ _; rw [hb]; simp)
      · intro e he
        exact (h.lastB e he).imp_left fun ⟨k, hm⟩ => ⟨k, mem_set_ne hp hm (by simp)⟩
    | some y =>
      obtain ⟨e, st0⟩ := y
      have e1 : go s t .pubEnd = { s with out := s.out ++ [Out.fin e st0] }.to t .idle := by simp only [go, hb]
      rw [e1]
      have hf : finsOf (s.out ++ [Out.fin e st0]) = finsOf s.out ++ [e] := by simp [finsOf]
      have hbg : beginsOf (s.out ++ [Out.fin e st0]) = beginsOf s.out := by simp [beginsOf]
      have hle : ∀ x ∈ finsOf s.out, x ≤ e := by
        intro x hx
        obtain ⟨e', he', hle⟩ := h.top x hx
        rw [hb] at he'
        obtain rfl := Option.some.inj he'
        exact hle
      refine ⟨?_, hgi, h.stored, h.storedB, ?_, ?_, ?_, ?_, ?_, ?_⟩
      · intro x st hx
        have hx : Out.fin x st ∈ s.out ++ [Out.fin e st0] := hx
        rcases List.mem_append.1 hx with hx | hx
        · exact h.asked x st hx
        · simp only [List.mem_singleton, Out.fin.injEq] at hx
          obtain ⟨rfl, rfl⟩ := hx
          exact (h.stored _ _ hb).1
      · show (finsOf (s.out ++ [Out.fin e st0])).Pairwise _
        rw [hf]; exact pairwise_snoc h.up hle
      · show (beginsOf (s.out ++ [Out.fin e st0])).Pairwise _
        rw [hbg]; exact h.upB
      · show ∀ x ∈ finsOf (s.out ++ [Out.fin e st0]), _
        rw [hf]
        intro x hx
        refine ⟨(e, st0), hb, ?_⟩
        rcases List.mem_append.1 hx with hx | hx
        · exact hle x hx
        · simp only [List.mem_singleton] at hx; exact Nat.le_of_eq hx
      · show ∀ x ∈ beginsOf (s.out ++ [Out.fin e st0]), _
        rw [hbg]; exact h.topB
      · intro e' st he
        have he : s.endEvent = some (e', st) := he
        rw [hb] at he
        obtain ⟨rfl, rfl⟩ := Prod.mk.inj (Option.some.inj he)
        refine .inr ?_
        show ((s.out ++ [Out.fin e st0]).filter isFin).getLast? = _
        simp [List.filter_append, isFin]
      · intro e' he
        refine (h.lastB e' he).imp (fun ⟨k, hm⟩ => ⟨k, mem_set_ne hp hm (by simp)⟩) fun hl => ?_
        show ((s.out ++ [Out.fin e st0]).filter isBegin).getLast? = _
        simpa [List.filter_append, isBegin] using hl
  | pubWarn e =>
    have hf : finsOf (s.out ++ [Out.warn e]) = finsOf s.out := by simp [finsOf]
    have hbg : beginsOf (s.out ++ [Out.warn e]) = beginsOf s.out := by simp [beginsOf]
    refine ⟨?_, ?_, h.stored, h.storedB, ?_, ?_, ?_, ?_, ?_, ?_⟩
    · intro x st hx
      have hx : Out.fin x st ∈ s.out ++ [Out.warn e] := hx
      exact h.asked x st (by simpa using hx)
    · intro x hx st hst
      rcases List.mem_or_eq_of_mem_set hx with hx | rfl
      · exact h.given x hx st hst
      · cases hst
    · show (finsOf (s.out ++ [Out.warn e])).Pairwise _
      rw [hf]; exact h.up
    · show (beginsOf (s.out ++ [Out.warn e])).Pairwise _
      rw [hbg]; exact h.upB
    · show ∀ x ∈ finsOf (s.out ++ [Out.warn e]), _
      rw [hf]; exact h.top
    · show ∀ x ∈ beginsOf (s.out ++ [Out.warn e]), _
      rw [hbg]; exact h.topB
    · intro e' st he
      refine (h.last e' st he).imp (fun hm => mem_set_ne hp hm (by simp)) fun hl => ?_
      show ((s.out ++ [Out.warn e]).filter isFin).getLast? = _
      simpa [List.filter_append, isFin] using hl
    · intro e' he
      refine (h.lastB e' he).imp (fun ⟨k, hm⟩ => ⟨k, mem_set_ne hp hm (by simp)⟩) fun hl => ?_
      show ((s.out ++ [Out.warn e]).filter isBegin).getLast? = _
      simpa [List.filter_append, isBegin] using hl

theorem step_Last {s : Sys} (h : Last s) (t : Tid) (a : Act) : Last (step s t a) := by
  unfold step
  split
  · exact h
  rename_i p hp
  split
  · exact go_Last h hp
  split
  swap
  · exact h
  rename_i hidle
  subst hidle
  have sub : ∀ b : Act, ∀ x ∈ s.asked, x ∈ s.asked ++ [b] := fun b x hx => by simp [hx]
  cases a with
  | go => exact h
  | begin =>
    exact h.move hp (q := .test .ret) rfl rfl rfl rfl (Nat.le_refl _) (sub .begin) (by intro st hst; cases hst) (by simp) (by simp)
  | warn =>
    exact h.move hp (q := .pubWarn s.next) rfl rfl rfl rfl (Nat.le_succ _) (sub .warn) (by intro st hst; cases hst) (by simp)
      (by simp)
  | fin st =>
    exact h.move hp (q := .check st) rfl rfl rfl rfl (Nat.le_refl _) (sub (.fin st))
      (by intro st' hst; cases hst; exact List.mem_append_right _ (List.mem_singleton.2 rfl)) (by simp) (by simp)

theorem run_Last (n : Nat) (sched : List (Tid × Act)) : Last (run (init n) sched) := by
  have gen : ∀ (sched : List (Tid × Act)) (s : Sys), Last s → Last (run s sched) := by
    intro sched
    induction sched with
    | nil => exact fun s h => h
    | cons x l ih => exact fun s h => ih _ (step_Last h x.1 x.2)
  refine gen sched _ ⟨?_, ?_, ?_, ?_, ?_, ?_, ?_, ?_, ?_, ?_⟩
  · intro e st h; cases h
  · intro p hp st hst
    have := List.eq_of_mem_replicate hp
    subst this; cases hst
  · intro e st h; cases h
  · intro e h; cases h
  · exact List.Pairwise.nil
  · exact List.Pairwise.nil
  · intro x hx; cases hx
  · intro x hx; cases hx
  · intro e st h; cases h
  · intro e h; cases h

/-- C102: at every moment of every schedule, each end event published has a status that some call asked for, and the
publications never go back to an event made earlier. -/
theorem C102_asked_partial (n : Nat) (sched : List (Tid × Act)) :
    (∀ e st, Out.fin e st ∈ (run (init n) sched).out → Act.fin st ∈ (run (init n) sched).asked) ∧
    (finsOf (run (init n) sched).out).Pairwise (· ≤ ·) ∧ (beginsOf (run (init n) sched).out).Pairwise (· ≤ ·) :=
  ⟨(run_Last n sched).asked, (run_Last n sched).up, (run_Last n sched).upB⟩

/-- C102: when all calls have returned, the last begin event and the last end event published are those the action shows. -/
theorem C102_last_partial (n : Nat) (sched : List (Tid × Act)) (hr : allReturned (run (init n) sched)) :
    ((run (init n) sched).out.filter isFin).getLast? = (run (init n) sched).endEvent.map (fun p => .fin p.1 p.2) ∧
    ((run (init n) sched).out.filter isBegin).getLast? = (run (init n) sched).beginEvent.map .begin := by
  have h := run_Last n sched
  generalize run (init n) sched = s at *
  constructor
  · cases he : s.endEvent with
    | none =>
      have : s.out.filter isFin = [] := by
        rw [List.filter_eq_nil_iff]
        intro o ho hf
        cases o with
        | begin e => cases hf
        | warn e => cases hf
        | fin e st =>
          obtain ⟨p, hp, -⟩ := h.top e (List.mem_filterMap.2 ⟨_, ho, rfl⟩)
          rw [he] at hp; cases hp
      rw [this]; rfl
    | some y =>
      rcases h.last y.1 y.2 he with hm | hl
      · cases hr _ hm
      · exact hl
  · cases he : s.beginEvent with
    | none =>
      have : s.out.filter isBegin = [] := by
        rw [List.filter_eq_nil_iff]
        intro o ho hf
        cases o with
        | fin e st => cases hf
        | warn e => cases hf
        | begin e =>
          obtain ⟨p, hp, -⟩ := h.topB e (List.mem_filterMap.2 ⟨_, ho, rfl⟩)
          rw [he] at hp; cases hp
      rw [this]; rfl
    | some y =>
      rcases h.lastB y he with ⟨k, hm⟩ | hl
      · cases hr _ hm
      · exact hl

/-- Two threads that end the action at the same time: one event is published twice, and it is the one the action shows. -/
example : let s := run (init 2) [(0, .begin), (0, .go), (0, .go), (0, .go), (0, .fin .success), (1, .fin .failure), (0, .go), (1, .go),
      (0, .go), (1, .go), (0, .go), (1, .go)]
    allReturned s ∧ s.endEvent = some (2, .failure) ∧ s.out = [.begin 0, .fin 2 .failure, .fin 2 .failure] := by
  refine ⟨?_, by decide, by decide⟩
  unfold allReturned; decide

end Verif.Shared
