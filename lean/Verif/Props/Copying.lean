import Verif.Model.Copying
import Verif.Lemmas.Full
import Verif.Lemmas.DelInv
/-!
# C109: flushing and switching modes while other threads make loggers
-/
namespace Verif.Copying

/-! ### The specification -/

/-- The calls in question. -/
def Copies (a : Act) : Prop := a = .flush ∨ a = .enable ∨ a = .disable

/-- The full claim: whatever other threads do while it runs, none of `flush()`, `enable_async()` and `disable_async()` ends in
a RuntimeError. -/
def NeverRaises : Prop :=
  ∀ (n : Nat) (before after : List (Tid × Act)) (t : Tid) (a : Act), Copies a → (run (init n) before).pcs[t]? = some .idle →
    (∀ x ∈ after, x.1 = t → x.2 = .go) →
    (run (init n) (before ++ (t, a) :: after)).out t ≠ some .runtimeError

/-- Nobody makes or removes a logger, or enables asynchronous mode; the collector does not take `l`, but may take others. -/
def Quiet (l : LogId) (a : Act) : Prop :=
  (∀ m b, a ≠ .new m b) ∧ (∀ m, a ≠ .remove m) ∧ a ≠ .collect l ∧ a ≠ .enable

/-- The number of events published on `l`. -/
def publishes (l : LogId) (sched : List (Tid × Act)) : Nat :=
  (sched.filter fun x => match x.2 with | .publish m _ => decide (m = l) | _ => false).length

/-! ### Proof -/

theorem set_self {s : Sys} {t : Tid} {p : PC} (h : s.pcs[t]? = some p) (q : PC) : (s.pcs.set t q)[t]? = some q := by
  have := (List.getElem?_eq_some_iff.mp h).1
  simp [this]

theorem iterating_of {s : Sys} {t : Tid} {nx : Next} {k i : Nat} {acc : List LogId}
    (h : s.pcs[t]? = some (.copy nx k i acc)) : s.iterating = true := by
  rw [Sys.iterating, List.any_eq_true]
  exact ⟨_, List.mem_of_getElem? h, by simp⟩

/-- What has become of an event that was queued on `l`, and what is known of the logger. -/
structure Kept (l : LogId) (e : Ev) (room : Nat) (s : Sys) : Prop where
  here : l ∈ s.entries
  alive : l ∉ s.dead
  ev : e ∈ s.got l ∨ e ∈ s.queue l
  room : (s.queue l).length + room ≤ QUEUE_LIMIT

/-- The thread copies, or has returned. -/
inductive Phase (l : LogId) (e : Ev) (t : Tid) (dis : Bool) (s : Sys) : Prop
  | copying (nx : Next) (i : Nat) (acc : List LogId) (pc : s.pcs[t]? = some (.copy nx s.entries.length i acc))
      (i_le : l ∈ acc ∨ l ∈ s.entries.drop i) (out : s.out t = none) (kind : nx = .flush false ∧ dis = false ∨
        nx = .modes ∧ dis = true ∨ nx = .flush true ∧ dis = true ∧ s.mode l = false)
  | returned (pc : s.pcs[t]? = some .idle) (out : s.out t = some .returned) (ev : e ∈ s.got l)
      (off : dis = true → s.mode l = false ∧ s.ctxAsync = false)

theorem commit_fields (s : Sys) : s.commit.pcs = s.pcs ∧ s.commit.mode = s.mode ∧ s.commit.queue = s.queue ∧
    s.commit.got = s.got ∧ s.commit.out = s.out ∧ s.commit.ctxAsync = s.ctxAsync := by
  unfold Sys.commit; split <;> exact ⟨rfl, rfl, rfl, rfl, rfl, rfl⟩

theorem commit_kept {s : Sys} {l : LogId} (h : l ∈ s.entries) (h' : l ∉ s.dead) : l ∈ s.commit.entries ∧ l ∉ s.commit.dead := by
  unfold Sys.commit
  split
  · exact ⟨h, h'⟩
  · exact ⟨List.mem_filter.2 ⟨h, by simpa using h'⟩, by simp⟩

theorem commit_iterating {s : Sys} (h : s.iterating = true) : s.commit = s := by
  unfold Sys.commit; rw [if_pos h]

theorem to_other {s : Sys} {t u : Tid} {p : PC} (h : u ≠ t) (q : PC) (hp : s.pcs[t]? = some p) :
    (s.to u q).pcs[t]? = some p := by
  simp only [Sys.to]; rw [List.getElem?_set_ne h]; exact hp

/-- What a quiet step does to a logger that is kept: nothing but publish on it and flush it. -/
theorem go_kept {s : Sys} {l : LogId} {e : Ev} {room : Nat} (u : Tid) (p : PC) (h : Kept l e room s) :
    Kept l e room (go s u p) ∧ (s.mode l = false → (go s u p).mode l = false) ∧ (e ∈ s.got l → e ∈ (go s u p).got l) ∧
    (s.ctxAsync = false → (go s u p).ctxAsync = false) ∧ ∀ t, t ≠ u → (go s u p).out t = s.out t := by
  have hc : ∀ q, l ∈ (s.to u q).commit.entries ∧ l ∉ (s.to u q).commit.dead := fun q => commit_kept h.here h.alive
  have hf : ∀ q, (s.to u q).commit.queue = s.queue ∧ (s.to u q).commit.got = s.got ∧ (s.to u q).commit.mode = s.mode ∧
      (s.to u q).commit.ctxAsync = s.ctxAsync := fun q => by
    obtain ⟨_, h2, h3, h4, _, h6⟩ := commit_fields (s.to u q)
    exact ⟨h3, h4, h2, h6⟩
  have hu : ∀ t (o : Option Outcome), t ≠ u → upd s.out u o t = s.out t := fun t o ht => if_neg ht
  cases p with
  | idle => exact ⟨h, id, id, id, fun _ _ => rfl⟩
  | copy nx k i acc =>
    simp only [go]
    split
    · refine ⟨⟨(hc _).1, (hc _).2, ?_, ?_⟩, ?_, ?_, ?_, fun t ht => hu t _ ht⟩
      · show e ∈ (s.to u .idle).commit.got l ∨ e ∈ (s.to u .idle).commit.queue l
        rw [(hf _).1, (hf _).2.1]; exact h.ev
      · show ((s.to u .idle).commit.queue l).length + room ≤ _
        rw [(hf _).1]; exact h.room
      · show s.mode l = false → (s.to u .idle).commit.mode l = false
        rw [(hf _).2.2.1]; exact id
      · show e ∈ s.got l → e ∈ (s.to u .idle).commit.got l
        rw [(hf _).2.1]; exact id
      · show s.ctxAsync = false → (s.to u .idle).commit.ctxAsync = false
        rw [(hf _).2.2.2]; exact id
    · split
      · cases nx with
        | enable =>
          refine ⟨⟨(hc _).1, (hc _).2, ?_, ?_⟩, ?_, ?_, ?_, fun t ht => hu t _ ht⟩
          · show e ∈ (s.to u .idle).commit.got l ∨ e ∈ (s.to u .idle).commit.queue l
            rw [(hf _).1, (hf _).2.1]; exact h.ev
          · show ((s.to u .idle).commit.queue l).length + room ≤ _
            rw [(hf _).1]; exact h.room
          · intro hm
            show (if l ∈ acc then false else s.mode l) = false
            split
            · rfl
            · exact hm
          · show e ∈ s.got l → e ∈ (s.to u .idle).commit.got l
            rw [(hf _).2.1]; exact id
          · show s.ctxAsync = false → (s.to u .idle).commit.ctxAsync = false
            rw [(hf _).2.2.2]; exact id
        | modes =>
          simp only [finish]
          obtain ⟨c1, c2, c3, c4, c5, c6⟩ := commit_fields { s.to u .idle with mode := fun m => if m ∈ acc then false else s.mode m }
          have c7 := commit_kept (s := { s.to u .idle with mode := fun m => if m ∈ acc then false else s.mode m }) h.here h.alive
          refine ⟨⟨c7.1, c7.2, ?_, ?_⟩, ?_, ?_, ?_, ?_⟩
          · show e ∈ Sys.got (Sys.commit _) l ∨ e ∈ Sys.queue (Sys.commit _) l
            rw [c3, c4]; exact h.ev
          · show (Sys.queue (Sys.commit _) l).length + room ≤ _
            rw [c3]; exact h.room
          · intro hm
            show Sys.mode (Sys.commit _) l = false
            rw [c2]
            dsimp only
            split
            · rfl
            · exact hm
          · show e ∈ s.got l → e ∈ Sys.got (Sys.commit _) l
            rw [c4]; exact id
          · show s.ctxAsync = false → Sys.ctxAsync (Sys.commit _) = false
            rw [c6]; exact id
          · intro t _
            show Sys.out (Sys.commit _) t = _
            rw [c5]; rfl
        | flush off =>
          refine ⟨⟨(hc _).1, (hc _).2, ?_, ?_⟩, ?_, ?_, ?_, fun t ht => hu t _ ht⟩
          · show e ∈ (if l ∈ acc then s.got l ++ s.queue l else s.got l) ∨ e ∈ (if l ∈ acc then [] else s.queue l)
            split
            · exact Or.inl (List.mem_append.2 h.ev)
            · exact h.ev
          · show (if l ∈ acc then [] else s.queue l).length + room ≤ _
            have := h.room
            split
            · simp only [List.length_nil]; omega
            · exact this
          · show s.mode l = false → (s.to u .idle).commit.mode l = false
            rw [(hf _).2.2.1]; exact id
          · intro he
            show e ∈ (if l ∈ acc then s.got l ++ s.queue l else s.got l)
            split
            · exact List.mem_append_left _ he
            · exact he
          · intro hx
            show (if off = true then false else s.ctxAsync) = false
            split
            · rfl
            · exact hx
      · exact ⟨⟨h.here, h.alive, h.ev, h.room⟩, id, id, id, fun _ _ => rfl⟩

/-- A quiet call by a thread. -/
theorem call_kept {s : Sys} {l : LogId} {e : Ev} {room : Nat} (u : Tid) {a : Act} (ha : Quiet l a) (hne : a ≠ .go)
    (h : Kept l e (room + publishes l [(u, a)]) s) :
    Kept l e room (call s u a) ∧ (s.mode l = false → (call s u a).mode l = false) ∧ (e ∈ s.got l → e ∈ (call s u a).got l) ∧
    (s.ctxAsync = false → (call s u a).ctxAsync = false) ∧ ∀ t, t ≠ u → (call s u a).out t = s.out t := by
  obtain ⟨h1, h2, h3, h4⟩ := ha
  have hr : Kept l e room s := ⟨h.here, h.alive, h.ev, by have := h.room; omega⟩
  have hu : ∀ t (o : Option Outcome), t ≠ u → upd s.out u o t = s.out t := fun t o ht => if_neg ht
  cases a with
  | new m b => exact absurd rfl (h1 m b)
  | remove m => exact absurd rfl (h2 m)
  | enable => exact absurd rfl h4
  | go => exact absurd rfl hne
  | collect m =>
    have hm : l ≠ m := fun hm => h3 (by rw [hm])
    simp only [call]
    split
    · exact ⟨⟨hr.here, by simp [hm, hr.alive], hr.ev, hr.room⟩, id, id, id, fun _ _ => rfl⟩
    · exact ⟨⟨List.mem_filter.2 ⟨hr.here, by simpa using hm⟩, hr.alive, hr.ev, hr.room⟩, id, id, id, fun _ _ => rfl⟩
  | publish m e' =>
    simp only [call]
    split
    · by_cases hm : l = m
      · subst hm
        have hroom : (s.queue l).length + (room + 1) ≤ QUEUE_LIMIT := by simpa [publishes] using h.room
        have hp : pushBounded QUEUE_LIMIT (s.queue l) e' = s.queue l ++ [e'] := pushBounded_room (by omega)
        refine ⟨⟨hr.here, hr.alive, ?_, ?_⟩, id, id, id, fun _ _ => rfl⟩
        · simp only [upd, if_true, hp]
          exact hr.ev.imp id (List.mem_append_left _)
        · simp only [upd, if_true, hp, List.length_append, List.length_singleton]
          omega
      · refine ⟨⟨hr.here, hr.alive, ?_, ?_⟩, id, id, id, fun _ _ => rfl⟩
        · simpa only [upd, if_neg hm] using hr.ev
        · simpa only [upd, if_neg hm] using hr.room
    · have hg : e ∈ s.got l → e ∈ upd s.got m (s.got m ++ [e']) l := by
        intro he
        simp only [upd]
        split
        · next hm => subst hm; exact List.mem_append_left _ he
        · exact he
      exact ⟨⟨hr.here, hr.alive, hr.ev.imp hg id, hr.room⟩, id, hg, id, fun _ _ => rfl⟩
  | flush => exact ⟨⟨hr.here, hr.alive, hr.ev, hr.room⟩, id, id, id, fun t ht => hu t _ ht⟩
  | disable => exact ⟨⟨hr.here, hr.alive, hr.ev, hr.room⟩, id, id, id, fun t ht => hu t _ ht⟩

theorem step_kept {s : Sys} {l : LogId} {e : Ev} {room : Nat} (u : Tid) {a : Act} (ha : Quiet l a)
    (h : Kept l e (room + publishes l [(u, a)]) s) :
    Kept l e room (step s u a) ∧ (s.mode l = false → (step s u a).mode l = false) ∧ (e ∈ s.got l → e ∈ (step s u a).got l) ∧
    (s.ctxAsync = false → (step s u a).ctxAsync = false) ∧ ∀ t, t ≠ u → (step s u a).out t = s.out t := by
  have hr : Kept l e room s := ⟨h.here, h.alive, h.ev, by have := h.room; omega⟩
  unfold step
  cases s.pcs[u]? with
  | none => exact ⟨hr, id, id, id, fun _ _ => rfl⟩
  | some p =>
    dsimp only
    split
    · exact go_kept u p hr
    · split
      · exact call_kept u ha (by assumption) h
      · exact ⟨hr, id, id, id, fun _ _ => rfl⟩

/-- Other threads do not move a thread. -/
theorem step_pc {s : Sys} {t u : Tid} (h : u ≠ t) (a : Act) : (step s u a).pcs[t]? = s.pcs[t]? := by
  have hto : ∀ (s : Sys) q, (s.to u q).pcs[t]? = s.pcs[t]? := fun s q => by
    simp only [Sys.to]; exact List.getElem?_set_ne h
  have hcm : ∀ s : Sys, s.commit.pcs = s.pcs := fun s => (commit_fields s).1
  unfold step
  cases s.pcs[u]? with
  | none => rfl
  | some p =>
    dsimp only
    split
    · cases p with
      | idle => rfl
      | copy nx k i acc =>
        simp only [go]
        split
        · show (s.to u .idle).commit.pcs[t]? = _
          rw [hcm, hto]
        · split
          · cases nx with
            | enable =>
              show (s.to u .idle).commit.pcs[t]? = _
              rw [hcm, hto]
            | modes =>
              simp only [finish, Sys.start]
              rw [hto, hcm]
              exact hto s .idle
            | flush off =>
              show (s.to u .idle).commit.pcs[t]? = _
              rw [hcm, hto]
          · exact hto _ _
    · split
      · cases a with
        | new m b => simp only [call]; split <;> rfl
        | collect m => simp only [call]; split <;> rfl
        | publish m e => simp only [call]; split <;> rfl
        | flush => exact hto _ _
        | enable => exact hto _ _
        | disable => exact hto _ _
        | _ => rfl
      · rfl

/-- While a thread copies, quiet steps of others leave the dict alone. -/
theorem step_entries {s : Sys} {l : LogId} {t u : Tid} (h : u ≠ t) {a : Act} (ha : Quiet l a) {nx : Next} {k i : Nat}
    {acc : List LogId} (hp : s.pcs[t]? = some (.copy nx k i acc)) : (step s u a).entries = s.entries := by
  have hit : ∀ q, (s.to u q).commit = s.to u q := fun q => commit_iterating (iterating_of (to_other h q hp))
  unfold step
  cases s.pcs[u]? with
  | none => rfl
  | some p =>
    dsimp only
    split
    · cases p with
      | idle => rfl
      | copy nx' k' i' acc' =>
        simp only [go]
        split
        · show (s.to u .idle).commit.entries = _
          rw [hit]; rfl
        · split
          · cases nx' with
            | enable =>
              show (s.to u .idle).commit.entries = _
              rw [hit]; rfl
            | modes =>
              simp only [finish, Sys.start]
              rw [commit_iterating]
              · rfl
              · exact iterating_of (s := { s.to u .idle with mode := _ }) (to_other h .idle hp)
            | flush off =>
              show (s.to u .idle).commit.entries = _
              rw [hit]; rfl
          · rfl
    · split
      · obtain ⟨h1, h2, h3, h4⟩ := ha
        cases a with
        | new m b => exact absurd rfl (h1 m b)
        | remove m => exact absurd rfl (h2 m)
        | collect m => simp only [call]; rw [if_pos (iterating_of hp)]
        | publish m e => simp only [call]; split <;> rfl
        | _ => rfl
      · rfl

theorem mem_drop_succ {α : Type} {xs : List α} {i : Nat} {x y : α} (h : y ∈ xs.drop i) (hx : xs[i]? = some x) :
    y = x ∨ y ∈ xs.drop (i + 1) := by
  obtain ⟨hi, he⟩ := List.getElem?_eq_some_iff.mp hx
  rw [List.drop_eq_getElem_cons hi, he] at h
  exact List.mem_cons.1 h

/-- The next step of the thread itself. -/
theorem go_phase {s : Sys} {l : LogId} {e : Ev} {t : Tid} {dis : Bool} {room : Nat} (h : Kept l e room s)
    (hp : Phase l e t dis s) : Phase l e t dis (step s t .go) := by
  cases hp with
  | returned pc out ev off =>
    have : step s t .go = s := by simp [step, pc, go]
    rw [this]
    exact .returned pc out ev off
  | copying nx i acc pc i_le out kind =>
    have hst : step s t .go = go s t (.copy nx s.entries.length i acc) := by simp [step, pc]
    rw [hst]
    simp only [go, ne_eq, not_true_eq_false, if_false]
    cases hi : s.entries[i]? with
    | some m =>
      refine .copying nx (i + 1) (if m ∈ s.dead then acc else acc ++ [m]) (set_self pc _) ?_ out kind
      rcases i_le with h1 | h1
      · left; split
        · exact h1
        · exact List.mem_append_left _ h1
      · rcases mem_drop_succ h1 hi with rfl | h2
        · left; rw [if_neg h.alive]; simp
        · exact Or.inr h2
    | none =>
      have hl : l ∈ acc := by
        rcases i_le with h1 | h1
        · exact h1
        · rw [List.drop_eq_nil_of_le (by simpa using hi)] at h1; simp at h1
      rcases kind with ⟨rfl, rfl⟩ | ⟨rfl, rfl⟩ | ⟨rfl, rfl, hm⟩
      · refine .returned ?_ (if_pos rfl) ?_ (by simp)
        · show (s.to t .idle).commit.pcs[t]? = _
          rw [(commit_fields _).1]; exact set_self pc _
        · show e ∈ (if l ∈ acc then s.got l ++ s.queue l else s.got l)
          rw [if_pos hl]; exact List.mem_append.2 h.ev
      · simp only [finish, Sys.start]
        obtain ⟨c1, c2, c3, c4, c5, c6⟩ := commit_fields { s.to t .idle with mode := fun m => if m ∈ acc then false else s.mode m }
        have c7 := commit_kept (s := { s.to t .idle with mode := fun m => if m ∈ acc then false else s.mode m }) h.here h.alive
        refine .copying (.flush true) 0 [] ?_ (Or.inr ?_) ?_ (Or.inr (Or.inr ⟨rfl, rfl, ?_⟩))
        · have : (Sys.commit { s.to t .idle with mode := fun m => if m ∈ acc then false else s.mode m }).pcs[t]? = some .idle := by
            rw [c1]; exact set_self pc _
          exact set_self this _
        · rw [List.drop_zero]; exact c7.1
        · show Sys.out (Sys.commit _) t = none
          rw [c5]; exact out
        · show Sys.mode (Sys.commit _) l = false
          rw [c2]
          simp [hl]
      · refine .returned ?_ (if_pos rfl) ?_ (fun _ => ⟨?_, rfl⟩)
        · show (s.to t .idle).commit.pcs[t]? = _
          rw [(commit_fields _).1]; exact set_self pc _
        · show e ∈ (if l ∈ acc then s.got l ++ s.queue l else s.got l)
          rw [if_pos hl]; exact List.mem_append.2 h.ev
        · show (s.to t .idle).commit.mode l = false
          rw [(commit_fields _).2.1]; exact hm

theorem run_phase {l : LogId} {e : Ev} {t : Tid} {dis : Bool} (after : List (Tid × Act))
    (ha : ∀ x ∈ after, Quiet l x.2 ∧ (x.1 = t → x.2 = .go)) {s : Sys} (h : Kept l e (publishes l after) s)
    (hp : Phase l e t dis s) : Phase l e t dis (run s after) := by
  induction after generalizing s with
  | nil => exact hp
  | cons x after ih =>
    obtain ⟨hx, hxt⟩ := ha x List.mem_cons_self
    have hpub : publishes l (x :: after) = publishes l after + publishes l [x] := by
      rw [← List.singleton_append, publishes, List.filter_append, List.length_append, Nat.add_comm]
      rfl
    rw [hpub] at h
    have hk := step_kept x.1 hx h
    refine ih (fun y hy => ha y (List.mem_cons_of_mem _ hy)) hk.1 ?_
    change Phase l e t dis (step s x.1 x.2)
    by_cases hu : x.1 = t
    · rw [hxt hu, hu]
      exact go_phase h hp
    · cases hp with
      | returned pc out ev off =>
        refine .returned ?_ ?_ (hk.2.2.1 ev) fun hd => ⟨hk.2.1 (off hd).1, hk.2.2.2.1 (off hd).2⟩
        · rw [step_pc hu]; exact pc
        · rw [hk.2.2.2.2 t (Ne.symm hu)]; exact out
      | copying nx i acc pc i_le out kind =>
        have he := step_entries hu hx pc
        refine .copying nx i acc ?_ ?_ ?_ ?_
        · rw [he, step_pc hu]; exact pc
        · rw [he]; exact i_le
        · rw [hk.2.2.2.2 t (Ne.symm hu)]; exact out
        · exact kind.imp id (Or.imp id fun ⟨a, b, c⟩ => ⟨a, b, hk.2.1 c⟩)

/-- **C109**, the part that holds: if meanwhile nobody makes or removes a logger, `flush()` and `disable_async()` do not
raise, whatever else other threads do: publish, flush, or let loggers be collected.  When the call has returned, an event that
was queued on a registered logger that is not collected itself has been delivered (if the queue has room for what is
published meanwhile); after `disable_async()` (and unless it is enabled again meanwhile) logger and context are synchronous. -/
theorem C109_quiet_partial (s : Sys) (after : List (Tid × Act)) (t : Tid) (a : Act) (l : LogId) (e : Ev)
    (hcall : a = .flush ∨ a = .disable) (ht : s.pcs[t]? = some .idle) (hl : l ∈ s.entries) (hd : l ∉ s.dead)
    (he : e ∈ s.queue l) (hroom : (s.queue l).length + publishes l after ≤ QUEUE_LIMIT)
    (ha : ∀ x ∈ after, Quiet l x.2 ∧ (x.1 = t → x.2 = .go)) :
    (run s ((t, a) :: after)).out t ≠ some .runtimeError ∧
    ((run s ((t, a) :: after)).pcs[t]? = some .idle →
      (run s ((t, a) :: after)).out t = some .returned ∧ e ∈ (run s ((t, a) :: after)).got l ∧
      (a = .disable → (run s ((t, a) :: after)).mode l = false ∧ (run s ((t, a) :: after)).ctxAsync = false)) := by
  change (run (step s t a) after).out t ≠ _ ∧ ((run (step s t a) after).pcs[t]? = _ → (run (step s t a) after).out t = _ ∧
    e ∈ (run (step s t a) after).got l ∧ (_ → (run (step s t a) after).mode l = false ∧ (run (step s t a) after).ctxAsync = false))
  have key : Phase l e t (decide (a = .disable)) (run (step s t a) after) := by
    refine run_phase after ha (s := step s t a) ?_ ?_
    · rcases hcall with rfl | rfl <;> simp only [step, ht, reduceCtorEq, if_false, if_true, call, Sys.start, Sys.to] <;>
        exact ⟨hl, hd, Or.inr he, hroom⟩
    · rcases hcall with rfl | rfl <;> simp only [step, ht, reduceCtorEq, if_false, if_true, call, Sys.start]
      · exact .copying (.flush false) 0 [] (set_self (s := s) ht _) (Or.inr (by rw [List.drop_zero]; exact hl)) (if_pos rfl)
          (Or.inl ⟨rfl, by simp⟩)
      · exact .copying .modes 0 [] (set_self (s := s) ht _) (Or.inr (by rw [List.drop_zero]; exact hl)) (if_pos rfl)
          (Or.inr (Or.inl ⟨rfl, by simp⟩))
  cases key with
  | copying nx i acc pc i_le out kind =>
    refine ⟨by rw [out]; simp, fun h => ?_⟩
    rw [pc] at h; cases h
  | returned pc out ev off =>
    exact ⟨by rw [out]; simp, fun _ => ⟨out, ev, fun h => off (by simpa using h)⟩⟩

/-- A logger made between two steps of the copy makes the call raise. -/
theorem C109_violated : ¬ NeverRaises := by
  intro h
  have := h 2 [(0, .new 1 true), (0, .new 2 true)] [(0, .go), (1, .new 3 true), (0, .go)] 0 .flush (Or.inl rfl)
    (by decide) (by decide)
  revert this
  decide

/-- So `disable_async` called at exit, with events queued, raises if another thread makes a logger: the context and the logger
stay asynchronous and the events are not delivered. -/
theorem C109_disable_violated :
    let s := run (init 2) [(0, .enable), (0, .go), (0, .new 1 true), (0, .new 2 true), (0, .publish 1 7), (0, .disable), (0, .go),
      (1, .new 3 true), (0, .go)]
    s.out 0 = some .runtimeError ∧ s.pcs = [.idle, .idle] ∧ s.ctxAsync = true ∧ s.mode 1 = true ∧ s.queue 1 = [7] ∧ s.got 1 = [] := by
  decide +kernel

/-- And `enable_async` leaves the context asynchronous without having registered its handler for the exit. -/
theorem C109_enable_violated :
    let s := run (init 2) [(0, .new 1 false), (0, .enable), (0, .go), (1, .new 2 true), (0, .go), (1, .publish 2 7)]
    s.out 0 = some .runtimeError ∧ s.ctxAsync = true ∧ s.atexit = false ∧ s.queue 2 = [7] := by
  decide +kernel

theorem step_atexit {s : Sys} (u : Tid) (a : Act) (h : s.atexit = true) : (step s u a).atexit = true := by
  have hcm : ∀ s : Sys, s.commit.atexit = s.atexit := fun s => by unfold Sys.commit; split <;> rfl
  unfold step
  cases s.pcs[u]? with
  | none => exact h
  | some p =>
    dsimp only
    split
    · cases p with
      | idle => exact h
      | copy nx k i acc =>
        simp only [go]
        split
        · simpa [hcm, Sys.to] using h
        · split
          · cases nx <;> simp [finish, hcm, Sys.to, Sys.start, h]
          · exact h
    · split
      · cases a <;> simp only [call]
        case new => split <;> exact h
        case collect => split <;> exact h
        case publish => split <;> exact h
        all_goals exact h
      · exact h

theorem step_out {s : Sys} {t u : Tid} (h : u ≠ t) (a : Act) : (step s u a).out t = s.out t := by
  have hu : ∀ (o : Tid → Option Outcome) x, upd o u x t = o t := fun o x => by simp [upd, h.symm]
  have hcm : ∀ s : Sys, s.commit.out = s.out := fun s => (commit_fields s).2.2.2.2.1
  unfold step
  cases s.pcs[u]? with
  | none => rfl
  | some p =>
    dsimp only
    split
    · cases p with
      | idle => rfl
      | copy nx k i acc =>
        simp only [go]
        split
        · simp [hu]
        · split
          · cases nx <;> simp [finish, hcm, Sys.to, Sys.start, hu]
          · rfl
    · split
      · cases a <;> simp only [call]
        case new => split <;> rfl
        case collect => split <;> rfl
        case publish => split <;> rfl
        all_goals simp [Sys.start, Sys.to, hu]
      · rfl

/-- **C109, the handler for the exit.**  Whatever other threads do meanwhile, and whatever happens afterwards: once
`enable_async()` has returned, `disable_async` is registered with `atexit`.  (If it has raised, it may not be.) -/
theorem C109_enable_registers (s : Sys) (after : List (Tid × Act)) (t : Tid) (ht : s.pcs[t]? = some .idle)
    (ha : ∀ x ∈ after, x.1 = t → x.2 = .go) (hret : (run s ((t, .enable) :: after)).out t = some .returned) :
    (run s ((t, .enable) :: after)).atexit = true := by
  have key : ∀ (after : List (Tid × Act)) (s : Sys), (∀ x ∈ after, x.1 = t → x.2 = .go) →
      ((∃ k i acc, s.pcs[t]? = some (.copy .enable k i acc)) ∧ s.out t = none ∨
        s.pcs[t]? = some .idle ∧ (s.out t = some .returned → s.atexit = true)) →
      (run s after).out t = some .returned → (run s after).atexit = true := by
    intro after
    induction after with
    | nil =>
      rintro s - (⟨-, h⟩ | ⟨-, h⟩) hr
      · exact absurd (h.symm.trans hr) (by simp)
      · exact h hr
    | cons x after ih =>
      intro s ha hs
      refine ih (step s x.1 x.2) (fun y hy => ha y (by simp [hy])) ?_
      obtain ⟨u, a⟩ := x
      by_cases hu : u = t
      · subst hu
        obtain rfl : a = .go := ha (u, a) (by simp) rfl
        rcases hs with ⟨⟨k, i, acc, hp⟩, ho⟩ | ⟨hp, hr⟩
        · have hst : step s u .go = go s u (.copy .enable k i acc) := by simp [step, hp]
          rw [show (u, Act.go).1 = u from rfl, show (u, Act.go).2 = Act.go from rfl, hst]
          simp only [go]
          split
          · right
            refine ⟨?_, by simp [upd]⟩
            simp only [(commit_fields _).1]
            exact set_self hp _
          · split
            · right
              refine ⟨?_, fun _ => rfl⟩
              simp only [finish, (commit_fields _).1]
              exact set_self hp _
            · left
              exact ⟨⟨_, _, _, set_self hp _⟩, ho⟩
        · right
          have : step s u .go = s := by simp [step, hp, go]
          rw [show (u, Act.go).1 = u from rfl, show (u, Act.go).2 = Act.go from rfl, this]
          exact ⟨hp, hr⟩
      · simp only [step_pc hu, step_out hu]
        rcases hs with h | ⟨hp, hr⟩
        · exact .inl h
        · exact .inr ⟨hp, fun h => step_atexit u a (hr h)⟩
  refine key after (step s t .enable) ha (.inl ?_) hret
  have : step s t .enable = call s t .enable := by simp [step, ht]
  rw [this]
  refine ⟨⟨s.entries.length, 0, [], ?_⟩, by simp [call, Sys.start, Sys.to, upd]⟩
  simp only [call, Sys.start, Sys.to]
  exact set_self ht _

/-- The hypotheses of `C109_enable_registers` can be met, with another thread publishing meanwhile. -/
example : (run (init 2) ((0, .enable) :: [(1, .publish 1 7), (0, .go)])).out 0 = some .returned := by decide +kernel

/-- The hypotheses of `C109_quiet_partial` can be met, with another thread publishing and flushing, and a logger collected
while it is copied. -/
example :
    let s := run (init 2) [(0, .new 1 true), (0, .new 2 true), (0, .publish 2 7)]
    let after : List (Tid × Act) := [(1, .collect 1), (0, .go), (1, .publish 2 8), (1, .flush), (0, .go), (1, .go), (0, .go), (0, .go),
      (0, .go), (0, .go), (1, .go), (1, .go)]
    s.pcs[0]? = some .idle ∧ 2 ∈ s.entries ∧ 2 ∉ s.dead ∧ 7 ∈ s.queue 2 ∧
    (∀ x ∈ after, Quiet 2 x.2 ∧ (x.1 = 0 → x.2 = .go)) ∧ (run s ((0, .disable) :: after)).pcs = [.idle, .idle] ∧
    (run s ((0, .disable) :: after)).got 2 = [7, 8] ∧ (run s ((0, .disable) :: after)).entries = [2] := by
  refine ⟨by decide +kernel, by decide +kernel, by decide +kernel, by decide +kernel, ?_, by decide +kernel, by decide +kernel,
    by decide +kernel⟩
  intro x hx
  simp only [List.mem_cons, List.not_mem_nil, or_false] at hx
  rcases hx with rfl | rfl | rfl | rfl | rfl | rfl | rfl | rfl | rfl | rfl | rfl | rfl <;> simp [Quiet]

end Verif.Copying
