import Verif.Props.Copying
/-!
# C109: exactly when flushing and switching modes raise
-/
namespace Verif.Copying

/-! ### The specification -/

/-- The number of loggers in the table of the context. -/
def tableSize (s : Sys) : Nat := s.entries.length

/-- Somebody makes or removes a logger. -/
def Changes (a : Act) : Prop := (∃ m b, a = .new m b) ∨ ∃ m, a = .remove m

/-! ### Proof -/

/-- Steps of other threads leave a thread where it is. -/
theorem step_other_pc {s : Sys} {t u : Tid} {p : PC} (a : Act) (hu : u ≠ t) (hp : s.pcs[t]? = some p) :
    (step s u a).pcs[t]? = some p ∧ (step s u a).out t = s.out t := by
  have ho : ∀ o : Option Outcome, upd s.out u o t = s.out t := fun o => if_neg (Ne.symm hu)
  have hc : ∀ q, (s.to u q).commit.pcs[t]? = some p := fun q => by rw [(commit_fields _).1]; exact to_other hu q hp
  unfold step
  split
  · exact ⟨hp, rfl⟩
  · rename_i q _
    split
    · cases q with
      | idle => exact ⟨hp, rfl⟩
      | copy nx k i acc =>
        simp only [go]
        split
        · exact ⟨hc _, ho _⟩
        · split
          · cases nx with
            | enable => exact ⟨hc _, ho _⟩
            | flush off => exact ⟨hc _, ho _⟩
            | modes =>
              obtain ⟨c1, _, _, _, c5, _⟩ :=
                commit_fields { s.to u .idle with mode := fun m => if m ∈ acc then false else s.mode m }
              refine ⟨to_other hu _ ?_, ?_⟩
              · rw [c1]; exact to_other hu _ hp
              · show Sys.out (Sys.commit _) t = _
                rw [c5]; rfl
          · exact ⟨to_other hu _ hp, rfl⟩
    · split
      · cases a with
        | new m b => simp only [call]; split <;> exact ⟨hp, rfl⟩
        | remove m => exact ⟨hp, rfl⟩
        | collect m => simp only [call]; split <;> exact ⟨hp, rfl⟩
        | publish m e => simp only [call]; split <;> exact ⟨hp, rfl⟩
        | flush => exact ⟨to_other (s := { s with out := upd s.out u none }) hu _ hp, ho _⟩
        | enable => exact ⟨to_other (s := { s with out := upd s.out u none, ctxAsync := true }) hu _ hp, ho _⟩
        | disable => exact ⟨to_other (s := { s with out := upd s.out u none }) hu _ hp, ho _⟩
        | go => exact ⟨hp, rfl⟩
      · exact ⟨hp, rfl⟩

/-- While a thread copies, only making and removing loggers change the size of the table. -/
theorem step_other_size {s : Sys} {t u : Tid} {nx : Next} {k i : Nat} {acc : List LogId} {a : Act} (hu : u ≠ t)
    (hp : s.pcs[t]? = some (.copy nx k i acc)) (ha : ¬ Changes a) : tableSize (step s u a) = tableSize s := by
  have hc : ∀ q, (s.to u q).commit = s.to u q := fun q => commit_iterating (iterating_of (to_other hu q hp))
  unfold step
  split
  · rfl
  · rename_i q _
    split
    · cases q with
      | idle => rfl
      | copy nx' k' i' acc' =>
        simp only [go]
        split
        · rw [hc]; rfl
        · split
          · cases nx' with
            | enable => simp only [finish]; rw [hc]; rfl
            | flush off => simp only [finish]; rw [hc]; rfl
            | modes =>
              have : ({ s.to u .idle with mode := fun m => if m ∈ acc' then false else s.mode m } : Sys).commit = _ :=
                commit_iterating (iterating_of (t := t) (nx := nx) (k := k) (i := i) (acc := acc) (to_other hu _ hp))
              simp only [finish]; rw [this]; rfl
          · rfl
    · split
      · cases a with
        | new m b => exact absurd (Or.inl ⟨m, b, rfl⟩) ha
        | remove m => exact absurd (Or.inr ⟨m, rfl⟩) ha
        | collect m =>
          simp only [call]
          rw [if_pos (iterating_of hp)]; rfl
        | publish m e => simp only [call]; split <;> rfl
        | flush => rfl
        | enable => rfl
        | disable => rfl
        | go => rfl
      · rfl

/-- An idle thread that does nothing keeps the outcome of its last call. -/
theorem idle_stays {t : Tid} (after : List (Tid × Act)) : ∀ {s : Sys}, (∀ x ∈ after, x.1 = t → x.2 = .go) →
    s.pcs[t]? = some .idle → (run s after).out t = s.out t := by
  induction after with
  | nil => intro s _ _; rfl
  | cons x after ih =>
    intro s hg hp
    obtain ⟨u, a⟩ := x
    show (run (step s u a) after).out t = _
    by_cases hu : u = t
    · subst hu
      have : a = .go := hg (u, a) List.mem_cons_self rfl
      subst this
      have hs : step s u .go = s := by simp [step, hp, go]
      rw [hs]
      exact ih (fun y hy => hg y (List.mem_cons_of_mem _ hy)) hp
    · obtain ⟨h1, h2⟩ := step_other_pc a hu hp
      rw [ih (fun y hy => hg y (List.mem_cons_of_mem _ hy)) h1, h2]

theorem run_cons (s : Sys) (x : Tid × Act) (l : List (Tid × Act)) : run s (x :: l) = run (step s x.1 x.2) l := rfl

theorem copying_exact {t : Tid} {nx : Next} (hnx : nx ≠ .modes) {k : Nat} (after : List (Tid × Act)) :
    ∀ {s : Sys} {i : Nat} {acc : List LogId}, (∀ x ∈ after, x.1 = t → x.2 = .go) → s.pcs[t]? = some (.copy nx k i acc) →
    s.out t = none →
    ((run s after).out t = some .runtimeError ↔
      ∃ p q, after = p ++ (t, .go) :: q ∧ (run s p).out t = none ∧ tableSize (run s p) ≠ k) := by
  induction after with
  | nil =>
    intro s i acc _ _ ho
    refine ⟨fun h => ?_, fun ⟨p, q, h, _⟩ => ?_⟩
    · have h' : s.out t = _ := h
      rw [ho] at h'; cases h'
    · simp at h
  | cons x after ih =>
    intro s i acc hg hp ho
    obtain ⟨u, a⟩ := x
    have hg' : ∀ y ∈ after, y.1 = t → y.2 = .go := fun y hy => hg y (List.mem_cons_of_mem _ hy)
    rw [run_cons]
    dsimp only
    -- the part of the schedule that is empty, or begins with this step
    have key : (∃ p q, (u, a) :: after = p ++ (t, .go) :: q ∧ (run s p).out t = none ∧ tableSize (run s p) ≠ k) ↔
        ((u, a) = (t, .go) ∧ tableSize s ≠ k) ∨
        ∃ p q, after = p ++ (t, .go) :: q ∧ (run (step s u a) p).out t = none ∧ tableSize (run (step s u a) p) ≠ k := by
      constructor
      · rintro ⟨p, q, h1, h2, h3⟩
        cases p with
        | nil =>
          simp only [List.nil_append, List.cons.injEq] at h1
          exact Or.inl ⟨h1.1, h3⟩
        | cons y p =>
          simp only [List.cons_append, List.cons.injEq] at h1
          obtain ⟨rfl, h1⟩ := h1
          exact Or.inr ⟨p, q, h1, h2, h3⟩
      · rintro (⟨h1, h2⟩ | ⟨p, q, h1, h2, h3⟩)
        · exact ⟨[], after, by rw [h1]; rfl, ho, h2⟩
        · exact ⟨(u, a) :: p, q, by rw [h1]; rfl, h2, h3⟩
    rw [key]
    by_cases hu : u = t
    · subst hu
      have : a = .go := hg (u, a) List.mem_cons_self rfl
      subst this
      have hs : step s u .go = go s u (.copy nx k i acc) := by simp [step, hp]
      have hset : ∀ q, (s.to u q).pcs[u]? = some q := fun q => set_self hp q
      have hsetc : ∀ q, (s.to u q).commit.pcs[u]? = some q := fun q => by rw [(commit_fields _).1]; exact hset q
      by_cases hk : s.entries.length ≠ k
      · have hs1 : step s u .go = { (s.to u .idle).commit with out := upd s.out u (some .runtimeError) } := by
          rw [hs]; simp only [go]; rw [if_pos hk]
        refine ⟨fun _ => Or.inl ⟨rfl, hk⟩, fun _ => ?_⟩
        rw [idle_stays after hg' (s := step s u .go) (by rw [hs1]; exact hsetc _), hs1]
        simp [upd]
      · have hk' : s.entries.length = k := Decidable.not_not.1 hk
        cases hi : s.entries[i]? with
        | some l =>
          have hs1 : step s u .go = s.to u (.copy nx k (i + 1) (if l ∈ s.dead then acc else acc ++ [l])) := by
            rw [hs]; simp only [go]; rw [if_neg hk, hi]
          rw [hs1, ih hg' (hset _) ho]
          refine ⟨Or.inr, fun h => h.resolve_left fun h => hk h.2⟩
        | none =>
          have hs1 : step s u .go = finish s u acc nx := by rw [hs]; simp only [go]; rw [if_neg hk, hi]
          have hd : (step s u .go).pcs[u]? = some .idle ∧ (step s u .go).out u = some .returned := by
            rw [hs1]
            cases nx with
            | modes => exact absurd rfl hnx
            | enable => exact ⟨hsetc _, by simp [finish, upd]⟩
            | flush off => exact ⟨hsetc _, by simp [finish, upd]⟩
          rw [idle_stays after hg' hd.1, hd.2]
          refine ⟨fun h => by simp at h, ?_⟩
          rintro (⟨_, h⟩ | ⟨p, q, h1, h2, _⟩)
          · exact absurd hk' h
          · have : (run (step s u .go) p).out u = some .returned := by
              rw [idle_stays p (fun y hy => hg' y (by rw [h1]; exact List.mem_append_left _ hy)) hd.1, hd.2]
            rw [this] at h2; cases h2
    · obtain ⟨h1, h2⟩ := step_other_pc a hu hp
      rw [ih hg' h1 (h2.trans ho)]
      refine ⟨Or.inr, fun h => h.resolve_left fun h => hu ?_⟩
      exact congrArg Prod.fst h.1

/-! ### C109 -/

/-- `flush()` and `enable_async()`, whatever other threads do while they run, raise RuntimeError exactly if at one of their own
steps the table of loggers has another size than when they were called. -/
theorem C109_exact (n : Nat) (before after : List (Tid × Act)) (t : Tid) (a : Act) (ha : a = .flush ∨ a = .enable)
    (hp : (run (init n) before).pcs[t]? = some .idle) (hg : ∀ x ∈ after, x.1 = t → x.2 = .go) :
    (run (init n) (before ++ (t, a) :: after)).out t = some .runtimeError ↔
      ∃ p q, after = p ++ (t, .go) :: q ∧ (run (init n) (before ++ (t, a) :: p)).out t = none ∧
        tableSize (run (init n) (before ++ (t, a) :: p)) ≠ tableSize (run (init n) before) := by
  have hr : ∀ l, run (init n) (before ++ (t, a) :: l) = run (step (run (init n) before) t a) l := fun l => by
    simp only [run, List.foldl_append, List.foldl_cons]
  simp only [hr]
  generalize run (init n) before = s at hp ⊢
  rcases ha with rfl | rfl
  · have hs : step s t .flush = { s with out := upd s.out t none }.start t (.flush false) := by simp [step, hp, call]
    rw [hs]
    exact copying_exact (by simp) after hg (set_self (s := { s with out := upd s.out t none }) hp _) (by simp [Sys.start, Sys.to, upd])
  · have hs : step s t .enable = { s with out := upd s.out t none, ctxAsync := true }.start t .enable := by
      simp [step, hp, call]
    rw [hs]
    exact copying_exact (by simp) after hg (set_self (s := { s with out := upd s.out t none, ctxAsync := true }) hp _)
      (by simp [Sys.start, Sys.to, upd])

theorem needs_change {t : Tid} (after : List (Tid × Act)) :
    ∀ {s : Sys} {nx : Next} {i : Nat} {acc : List LogId}, (∀ x ∈ after, x.1 = t → x.2 = .go) →
    s.pcs[t]? = some (.copy nx (tableSize s) i acc) → s.out t = none → (∀ x ∈ after, x.1 ≠ t → ¬ Changes x.2) →
    (run s after).out t ≠ some .runtimeError := by
  induction after with
  | nil => intro s nx i acc _ _ ho _ h; rw [show (run s []).out t = s.out t from rfl, ho] at h; cases h
  | cons x after ih =>
    intro s nx i acc hg hp ho hq
    obtain ⟨u, a⟩ := x
    have hg' : ∀ y ∈ after, y.1 = t → y.2 = .go := fun y hy => hg y (List.mem_cons_of_mem _ hy)
    have hq' : ∀ y ∈ after, y.1 ≠ t → ¬ Changes y.2 := fun y hy => hq y (List.mem_cons_of_mem _ hy)
    rw [run_cons]
    dsimp only
    by_cases hu : u = t
    · subst hu
      have : a = .go := hg (u, a) List.mem_cons_self rfl
      subst this
      have hs : step s u .go = go s u (.copy nx (tableSize s) i acc) := by simp [step, hp]
      have hset : ∀ q, (s.to u q).pcs[u]? = some q := fun q => set_self hp q
      have hsetc : ∀ q, (s.to u q).commit.pcs[u]? = some q := fun q => by rw [(commit_fields _).1]; exact hset q
      have hk : ¬ s.entries.length ≠ tableSize s := fun h => h rfl
      cases hi : s.entries[i]? with
      | some l =>
        have hs1 : step s u .go = s.to u (.copy nx (tableSize s) (i + 1) (if l ∈ s.dead then acc else acc ++ [l])) := by
          rw [hs]; simp only [go]; rw [if_neg hk, hi]
        rw [hs1]
        exact ih hg' (hset _) ho hq'
      | none =>
        have hs1 : step s u .go = finish s u acc nx := by rw [hs]; simp only [go]; rw [if_neg hk, hi]
        cases nx with
        | modes =>
          rw [hs1]
          simp only [finish]
          obtain ⟨c1, _, _, _, c5, _⟩ :=
            commit_fields { s.to u .idle with mode := fun m => if m ∈ acc then false else s.mode m }
          refine ih hg' (set_self (p := .idle) ?_ _) ?_ hq'
          · rw [c1]; exact hset _
          · show Sys.out (Sys.commit _) u = _
            rw [c5]; exact ho
        | enable =>
          rw [idle_stays after hg' (s := step s u .go) (by rw [hs1]; exact hsetc _), hs1]
          simp [finish, upd]
        | flush off =>
          rw [idle_stays after hg' (s := step s u .go) (by rw [hs1]; exact hsetc _), hs1]
          simp [finish, upd]
    · obtain ⟨h1, h2⟩ := step_other_pc a hu hp
      have h3 := step_other_size hu hp (hq (u, a) List.mem_cons_self hu)
      exact ih hg' (by rw [h3]; exact h1) (h2.trans ho) hq'

/-- None of the calls raises unless another thread makes or removes a logger while it runs; flushing, publishing, switching modes
and collecting loggers elsewhere do not matter. -/
theorem C109_needs_change (n : Nat) (before after : List (Tid × Act)) (t : Tid) (a : Act) (ha : Copies a)
    (hp : (run (init n) before).pcs[t]? = some .idle) (hg : ∀ x ∈ after, x.1 = t → x.2 = .go)
    (hr : (run (init n) (before ++ (t, a) :: after)).out t = some .runtimeError) : ∃ x ∈ after, x.1 ≠ t ∧ Changes x.2 := by
  by_cases hq : ∃ x ∈ after, x.1 ≠ t ∧ Changes x.2
  · exact hq
  · exfalso
    have hq' : ∀ x ∈ after, x.1 ≠ t → ¬ Changes x.2 := fun x hx h1 h2 => hq ⟨x, hx, h1, h2⟩
    have hr' : run (init n) (before ++ (t, a) :: after) = run (step (run (init n) before) t a) after := by
      simp only [run, List.foldl_append, List.foldl_cons]
    rw [hr'] at hr
    generalize run (init n) before = s at hp hr
    rcases ha with rfl | rfl | rfl
    · have hs : step s t .flush = { s with out := upd s.out t none }.start t (.flush false) := by simp [step, hp, call]
      rw [hs] at hr
      exact needs_change after hg (set_self (s := { s with out := upd s.out t none }) hp _) (by simp [Sys.start, Sys.to, upd]) hq' hr
    · have hs : step s t .enable = { s with out := upd s.out t none, ctxAsync := true }.start t .enable := by
        simp [step, hp, call]
      rw [hs] at hr
      exact needs_change after hg (set_self (s := { s with out := upd s.out t none, ctxAsync := true }) hp _)
        (by simp [Sys.start, Sys.to, upd]) hq' hr
    · have hs : step s t .disable = { s with out := upd s.out t none }.start t .modes := by simp [step, hp, call]
      rw [hs] at hr
      exact needs_change after hg (set_self (s := { s with out := upd s.out t none }) hp _) (by simp [Sys.start, Sys.to, upd]) hq' hr

/-- A logger made between two steps of `flush` makes it raise; one made and removed again does not. -/
example : (run (init 2) [(1, .new 5 true), (0, .flush), (1, .new 6 true), (0, .go)]).out 0 = some .runtimeError ∧
    (run (init 2) [(1, .new 5 true), (0, .flush), (1, .new 6 true), (1, .remove 6), (0, .go), (0, .go)]).out 0 = some .returned ∧
    (run (init 2) [(1, .new 5 true), (0, .disable), (0, .go), (0, .go), (0, .go), (1, .new 6 true), (0, .go)]).out 0 =
      some .runtimeError ∧
    (run (init 2) [(1, .new 5 true), (0, .disable), (0, .go), (0, .go), (1, .flush), (1, .collect 5), (0, .go), (1, .go), (0, .go),
      (1, .go)]).out 0 = some .returned := by decide +kernel

end Verif.Copying
