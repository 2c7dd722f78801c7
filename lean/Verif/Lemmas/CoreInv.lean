import Verif.Lemmas.CoreStep
import Verif.Spec.Publications
/-!
# Invariants of actions, events and publications
-/
namespace Verif

/-- The event occurs somewhere in the state. -/
def Core.Has (c : Core) (e : Event) : Prop :=
  (∃ k, (k, e) ∈ c.pub) ∨ ∃ a x, c.acts a = some x ∧ x.Has e

/-- Ids: actions and events draw from one counter, each value once. -/
structure IdInv (c : Core) : Prop where
  actLt : ∀ a x, c.acts a = some x → a < c.nextId
  evLt : ∀ e, c.Has e → e.id < c.nextId
  evAct : ∀ e, c.Has e → c.acts e.id = none
  uniq : ∀ e f, c.Has e → c.Has f → e.id = f.id → e = f

theorem idInv_init : IdInv World.init.core := by
  constructor <;> simp [World.core, World.init, Core.Has]

theorem has_upd {c : Core} {a : ActId} {y : Act} {pub : List (Kind × Event)} {n : Nat} {e : Event}
    {news : List Event}
    (hy : ∀ e, y.Has e → c.Has e ∨ e ∈ news)
    (hp : ∀ k e, (k, e) ∈ pub → c.Has e ∨ e ∈ news)
    (h : (⟨n, updAct c.acts a y, pub⟩ : Core).Has e) : c.Has e ∨ e ∈ news := by
  rcases h with ⟨k, hk⟩ | ⟨b, z, hz, hzz⟩
  · exact hp k e hk
  · simp only [updAct] at hz
    split at hz
    · cases hz; exact hy e hzz
    · exact .inl (.inr ⟨b, z, hz, hzz⟩)

/-- What a step adds to the events of the state: at most events with fresh, distinct ids. -/
theorem has_step {c d : Core} (hi : IdInv c) (s : CoreStep c d) : ∃ news : List Event,
    (∀ e, d.Has e → c.Has e ∨ e ∈ news) ∧
    (∀ e ∈ news, c.nextId ≤ e.id ∧ e.id < d.nextId ∧ d.acts e.id = none) ∧
    (∀ e ∈ news, ∀ f ∈ news, e.id = f.id → e = f) := by
  have hnone : ∀ n, c.nextId ≤ n → c.acts n = none := by
    intro n hn
    cases h : c.acts n with
    | none => rfl
    | some x => exact absurd (hi.actLt n x h) (by omega)
  have hpub : ∀ k e, (k, e) ∈ c.pub → c.Has e := fun k e h => .inl ⟨k, h⟩
  have hne : ∀ {b x}, c.acts b = some x → c.nextId ≠ b := by
    intro b x hx h; have := hi.actLt b x hx; omega
  cases s with
  | newAct x hb he hw hx htr hd hh =>
    refine ⟨[], ?_, by simp, by simp⟩
    intro e h
    refine has_upd ?_ (fun k e h => .inl (hpub k e h)) h
    simp [Act.Has, hb, he, hw, hx]
  | upd b x dd t f hx hh htr =>
    refine ⟨[], ?_, by simp, by simp⟩
    intro e h
    refine has_upd ?_ (fun k e h => .inl (hpub k e h)) h
    exact fun e h => .inl (.inr ⟨b, x, hx, h⟩)
  | begin b x dd t f e hx hh hb hid ha hl hk hs =>
    refine ⟨[e], ?_, ?_, by simp⟩
    · intro e' h
      refine has_upd ?_ ?_ h
      · intro e' h
        rcases h with h | h
        · simp at h; simp [h]
        · exact .inl (.inr ⟨b, x, hx, .inr h⟩)
      · intro k e' h
        simp at h
        rcases h with h | ⟨_, h⟩
        · exact .inl (hpub k e' h)
        · simp [h]
    · simp only [List.mem_singleton, forall_eq]
      refine ⟨by omega, by omega, ?_⟩
      rw [hid, updAct_ne _ _ (hne hx)]; exact hnone _ (Nat.le_refl _)
  | warn b x dd e hx hh hid ha hl hk hs =>
    refine ⟨[e], ?_, ?_, by simp⟩
    · intro e' h
      refine has_upd ?_ ?_ h
      · intro e' h
        rcases h with h | h | h | h
        · exact .inl (.inr ⟨b, x, hx, .inl h⟩)
        · exact .inl (.inr ⟨b, x, hx, .inr (.inl h)⟩)
        · simp at h
          rcases h with h | h
          · exact .inl (.inr ⟨b, x, hx, .inr (.inr (.inl h))⟩)
          · simp [h]
        · exact .inl (.inr ⟨b, x, hx, .inr (.inr (.inr h))⟩)
      · intro k e' h
        simp at h
        rcases h with h | ⟨_, h⟩
        · exact .inl (hpub k e' h)
        · simp [h]
    · simp only [List.mem_singleton, forall_eq]
      refine ⟨by omega, by omega, ?_⟩
      rw [hid, updAct_ne _ _ (hne hx)]; exact hnone _ (Nat.le_refl _)
  | exc b x e hx hh hid ha hl hk hs =>
    refine ⟨[e], ?_, ?_, by simp⟩
    · intro e' h
      refine has_upd ?_ (fun k e h => .inl (hpub k e h)) h
      intro e' h
      rcases h with h | h | h | h
      · exact .inl (.inr ⟨b, x, hx, .inl h⟩)
      · exact .inl (.inr ⟨b, x, hx, .inr (.inl h)⟩)
      · exact .inl (.inr ⟨b, x, hx, .inr (.inr (.inl h))⟩)
      · simp at h
        rcases h with h | h
        · exact .inl (.inr ⟨b, x, hx, .inr (.inr (.inr h))⟩)
        · simp [h]
    · simp only [List.mem_singleton, forall_eq]
      refine ⟨by omega, by omega, ?_⟩
      rw [hid, updAct_ne _ _ (hne hx)]; exact hnone _ (Nat.le_refl _)
  | fin b x e hx hh hb hid ha hl hk hs =>
    refine ⟨[e], ?_, ?_, by simp⟩
    · intro e' h
      refine has_upd ?_ (fun k e h => .inl (hpub k e h)) h
      intro e' h
      rcases h with h | h | h | h
      · exact .inl (.inr ⟨b, x, hx, .inl h⟩)
      · simp at h; simp [h]
      · exact .inl (.inr ⟨b, x, hx, .inr (.inr (.inl h))⟩)
      · exact .inl (.inr ⟨b, x, hx, .inr (.inr (.inr h))⟩)
    · simp only [List.mem_singleton, forall_eq]
      refine ⟨by omega, by omega, ?_⟩
      rw [hid, updAct_ne _ _ (hne hx)]; exact hnone _ (Nat.le_refl _)
  | pubEnd b x e hx hh he =>
    refine ⟨[], ?_, by simp, by simp⟩
    intro e' h
    rcases h with ⟨k, hk⟩ | h
    · simp at hk
      rcases hk with h | ⟨_, h⟩
      · exact .inl (hpub k e' h)
      · exact .inl (.inr ⟨b, x, hx, .inr (.inl (h ▸ he))⟩)
    · exact .inl (.inr h)
  | comment x b en e hb he hw hx htr hd hh i1 i2 i3 a1 a2 a3 =>
    refine ⟨[b, en, e], ?_, ?_, ?_⟩
    · intro e' h
      refine has_upd ?_ ?_ h
      · intro e' h
        simp only [Act.Has, hb, he, hw, hx, Option.some.injEq] at h
        simp only [List.mem_cons]
        rcases h with h | h | h | h <;> simp_all
      · intro k e' h
        simp at h
        rcases h with h | ⟨_, h⟩
        · exact .inl (hpub k e' h)
        · simp [h]
    · intro e' h
      have hid : c.nextId < e'.id ∧ e'.id < c.nextId + 4 := by
        simp only [List.mem_cons, List.not_mem_nil, or_false] at h
        rcases h with h | h | h <;> subst h <;> omega
      refine ⟨by omega, hid.2, ?_⟩
      show updAct c.acts c.nextId x e'.id = none
      rw [updAct_ne _ _ (by omega)]
      exact hnone _ (by omega)
    · intro e1 h1 e2 h2 h12
      simp only [List.mem_cons, List.not_mem_nil, or_false] at h1 h2
      rcases h1 with h1 | h1 | h1 <;> rcases h2 with h2 | h2 | h2 <;> subst h1 <;> subst h2 <;>
        first | rfl | omega

theorem nextId_step {c d : Core} (s : CoreStep c d) : c.nextId ≤ d.nextId := by
  cases s <;> simp

/-- Actions after a step: old ones, or one new one. -/
theorem acts_step {c d : Core} (s : CoreStep c d) (a : ActId) (x : Act) (h : d.acts a = some x) :
    (∃ y, c.acts a = some y) ∨ (a = c.nextId ∧ a < d.nextId) := by
  cases s with
  | newAct x =>
    simp only [updAct] at h; split at h
    · exact .inr ⟨by assumption, by simp_all⟩
    · exact .inl ⟨_, h⟩
  | comment x =>
    simp only [updAct] at h; split at h
    · exact .inr ⟨by assumption, by simp_all⟩
    · exact .inl ⟨_, h⟩
  | upd b x dd t f hx =>
    simp only [updAct] at h; split at h
    · rename_i hb; exact .inl ⟨_, hb ▸ hx⟩
    · exact .inl ⟨_, h⟩
  | begin b x dd t f e hx =>
    simp only [updAct] at h; split at h
    · rename_i hb; exact .inl ⟨_, hb ▸ hx⟩
    · exact .inl ⟨_, h⟩
  | warn b x dd e hx =>
    simp only [updAct] at h; split at h
    · rename_i hb; exact .inl ⟨_, hb ▸ hx⟩
    · exact .inl ⟨_, h⟩
  | exc b x e hx =>
    simp only [updAct] at h; split at h
    · rename_i hb; exact .inl ⟨_, hb ▸ hx⟩
    · exact .inl ⟨_, h⟩
  | fin b x e hx =>
    simp only [updAct] at h; split at h
    · rename_i hb; exact .inl ⟨_, hb ▸ hx⟩
    · exact .inl ⟨_, h⟩
  | pubEnd b x e hx => exact .inl ⟨_, h⟩

theorem idInv_step {c d : Core} (hi : IdInv c) (s : CoreStep c d) : IdInv d := by
  obtain ⟨news, h1, h2, h3⟩ := has_step hi s
  have hn := nextId_step s
  have hlt : ∀ e, d.Has e → e.id < d.nextId := by
    intro e he
    rcases h1 e he with h | h
    · have := hi.evLt e h; omega
    · exact (h2 e h).2.1
  refine ⟨?_, hlt, ?_, ?_⟩
  · intro a x hx
    rcases acts_step s a x hx with ⟨y, hy⟩ | ⟨_, h⟩
    · have := hi.actLt a y hy; omega
    · exact h
  · intro e he
    rcases h1 e he with h | h
    · cases hd : d.acts e.id with
      | none => rfl
      | some x =>
        rcases acts_step s e.id x hd with ⟨y, hy⟩ | ⟨h', _⟩
        · rw [hi.evAct e h] at hy; cases hy
        · have := hi.evLt e h; omega
    · exact (h2 e h).2.2
  · intro e f he hf hef
    rcases h1 e he with h | h <;> rcases h1 f hf with g | g
    · exact hi.uniq e f h g hef
    · have := hi.evLt e h; have := h2 f g; omega
    · have := hi.evLt f g; have := h2 e h; omega
    · exact h3 e h f g hef

theorem Reachable.idInv {env : Env} {w : World} (h : Reachable env w) : IdInv w.core :=
  h.inv (fun _ _ => idInv_step) idInv_init

/-- Events know their action and its logger, and have the right kind and status. -/
structure EvInv (c : Core) : Prop where
  act : ∀ a x e, c.acts a = some x → x.Has e → e.act = a ∧ e.logger = x.logger
  beginKind : ∀ a x e, c.acts a = some x → x.beginEv = some e → e.kind = .begin ∧ e.status = .begin
  endKind : ∀ a x e, c.acts a = some x → x.endEv = some e → e.kind = .end_ ∧
    (e.status = .success ∨ e.status = .failure ∨ e.status = .exception) ∧ x.beginEv.isSome
  warnKind : ∀ a x e, c.acts a = some x → e ∈ x.warnEvs → e.kind = .warn ∧ e.status = .warning
  excKind : ∀ a x e, c.acts a = some x → e ∈ x.excEvs → e.kind = .exception ∧ e.status = .exception
  pub : ∀ k e, (k, e) ∈ c.pub → e.kind = k ∧ k ≠ .exception ∧
    ∃ x, c.acts e.act = some x ∧ e.logger = x.logger ∧ (k ≠ .comment → x.handle = true)

theorem evInv_init : EvInv World.init.core := by
  constructor <;> simp [World.core, World.init]

/-- Conditions under which replacing one action and appending publications keeps `EvInv`. -/
theorem evInv_upd {c : Core} (hi : EvInv c) {a : ActId} {y : Act} {n : Nat}
    {add : List (Kind × Event)}
    (hold : ∀ x, c.acts a = some x → y.logger = x.logger ∧ y.handle = x.handle)
    (act : ∀ e, y.Has e → e.act = a ∧ e.logger = y.logger)
    (hb : ∀ e, y.beginEv = some e → e.kind = .begin ∧ e.status = .begin)
    (he : ∀ e, y.endEv = some e → e.kind = .end_ ∧
      (e.status = .success ∨ e.status = .failure ∨ e.status = .exception) ∧ y.beginEv.isSome)
    (hw : ∀ e ∈ y.warnEvs, e.kind = .warn ∧ e.status = .warning)
    (hx : ∀ e ∈ y.excEvs, e.kind = .exception ∧ e.status = .exception)
    (hp : ∀ k e, (k, e) ∈ add → e.kind = k ∧ k ≠ .exception ∧ e.act = a ∧ e.logger = y.logger ∧
      (k ≠ .comment → y.handle = true)) :
    EvInv ⟨n, updAct c.acts a y, c.pub ++ add⟩ := by
  have split : ∀ b z, updAct c.acts a y b = some z → (b = a ∧ z = y) ∨ c.acts b = some z := by
    intro b z h
    simp only [updAct] at h; split at h
    · cases h; exact .inl ⟨by assumption, rfl⟩
    · exact .inr h
  refine ⟨?_, ?_, ?_, ?_, ?_, ?_⟩
  · intro b z e h1 h2
    rcases split b z h1 with ⟨rfl, rfl⟩ | h
    · exact act e h2
    · exact hi.act b z e h h2
  · intro b z e h1 h2
    rcases split b z h1 with ⟨rfl, rfl⟩ | h
    · exact hb e h2
    · exact hi.beginKind b z e h h2
  · intro b z e h1 h2
    rcases split b z h1 with ⟨rfl, rfl⟩ | h
    · exact he e h2
    · exact hi.endKind b z e h h2
  · intro b z e h1 h2
    rcases split b z h1 with ⟨rfl, rfl⟩ | h
    · exact hw e h2
    · exact hi.warnKind b z e h h2
  · intro b z e h1 h2
    rcases split b z h1 with ⟨rfl, rfl⟩ | h
    · exact hx e h2
    · exact hi.excKind b z e h h2
  · intro k e h
    simp only [List.mem_append] at h
    rcases h with h | h
    · obtain ⟨h1, h2, x, h3, h4, h5⟩ := hi.pub k e h
      refine ⟨h1, h2, ?_⟩
      by_cases hea : e.act = a
      · subst hea
        obtain ⟨g1, g2⟩ := hold x h3
        exact ⟨y, by simp, by rw [h4, g1], fun hk => by rw [g2]; exact h5 hk⟩
      · exact ⟨x, by simp [updAct, hea, h3], h4, h5⟩
    · obtain ⟨h1, h2, h3, h4, h5⟩ := hp k e h
      exact ⟨h1, h2, y, by simp [h3], h4, h5⟩

theorem evInv_step {c d : Core} (hid : IdInv c) (hi : EvInv c) (s : CoreStep c d) : EvInv d := by
  have fresh : c.acts c.nextId = none := by
    cases h : c.acts c.nextId with
    | none => rfl
    | some x => exact absurd (hid.actLt _ x h) (by omega)
  cases s with
  | newAct x hb he hw hx htr hd hh =>
    have := evInv_upd (a := c.nextId) (y := x) (n := c.nextId + 1) (add := []) hi
      (by simp [fresh]) (by simp [Act.Has, hb, he, hw, hx])
      (by simp [hb]) (by simp [he]) (by simp [hw]) (by simp [hx]) (by simp)
    simpa using this
  | upd a x dd t f hx hh htr =>
    have := evInv_upd (a := a) (y := { x with data := dd, isTrans := t, defer := f }) (n := c.nextId)
      (add := []) hi (by simp [hx]) (fun e h => hi.act a x e hx h) (fun e h => hi.beginKind a x e hx h)
      (fun e h => hi.endKind a x e hx h) (fun e h => hi.warnKind a x e hx h)
      (fun e h => hi.excKind a x e hx h) (by simp)
    simpa using this
  | begin a x dd t f e hx hh hb hid ha hl hk hs =>
    refine evInv_upd (a := a) hi (by simp [hx]) ?_ ?_ ?_ (fun e h => hi.warnKind a x e hx h)
      (fun e h => hi.excKind a x e hx h) ?_
    · intro e' h
      rcases h with h | h
      · simp at h; subst h; exact ⟨ha, hl⟩
      · exact hi.act a x e' hx (.inr h)
    · intro e' h; simp at h; subst h; exact ⟨hk, hs⟩
    · intro e' h
      obtain ⟨h1, h2, _⟩ := hi.endKind a x e' hx h
      exact ⟨h1, h2, rfl⟩
    · intro k e' h
      simp at h; obtain ⟨rfl, rfl⟩ := h
      exact ⟨hk, by simp, ha, hl, fun _ => hh⟩
  | warn a x dd e hx hh hid ha hl hk hs =>
    refine evInv_upd (a := a) hi (by simp [hx]) ?_ (fun e h => hi.beginKind a x e hx h)
      (fun e h => hi.endKind a x e hx h) ?_ (fun e h => hi.excKind a x e hx h) ?_
    · intro e' h
      rcases h with h | h | h | h
      · exact hi.act a x e' hx (.inl h)
      · exact hi.act a x e' hx (.inr (.inl h))
      · simp at h
        rcases h with h | h
        · exact hi.act a x e' hx (.inr (.inr (.inl h)))
        · subst h; exact ⟨ha, hl⟩
      · exact hi.act a x e' hx (.inr (.inr (.inr h)))
    · intro e' h
      simp at h
      rcases h with h | h
      · exact hi.warnKind a x e' hx h
      · subst h; exact ⟨hk, hs⟩
    · intro k e' h
      simp at h; obtain ⟨rfl, rfl⟩ := h
      exact ⟨hk, by simp, ha, hl, fun _ => hh⟩
  | exc a x e hx hh hid ha hl hk hs =>
    have := evInv_upd (a := a) (y := { x with excEvs := x.excEvs ++ [e] }) (n := c.nextId + 1)
      (add := []) hi (by simp [hx]) ?_ (fun e h => hi.beginKind a x e hx h)
      (fun e h => hi.endKind a x e hx h) (fun e h => hi.warnKind a x e hx h) ?_ (by simp)
    · simpa using this
    · intro e' h
      rcases h with h | h | h | h
      · exact hi.act a x e' hx (.inl h)
      · exact hi.act a x e' hx (.inr (.inl h))
      · exact hi.act a x e' hx (.inr (.inr (.inl h)))
      · simp at h
        rcases h with h | h
        · exact hi.act a x e' hx (.inr (.inr (.inr h)))
        · subst h; exact ⟨ha, hl⟩
    · intro e' h
      simp at h
      rcases h with h | h
      · exact hi.excKind a x e' hx h
      · subst h; exact ⟨hk, hs⟩
  | fin a x e hx hh hb hid ha hl hk hs =>
    have := evInv_upd (a := a) (y := { x with endEv := some e }) (n := c.nextId + 1)
      (add := []) hi (by simp [hx]) ?_ (fun e h => hi.beginKind a x e hx h)
      ?_ (fun e h => hi.warnKind a x e hx h) (fun e h => hi.excKind a x e hx h) (by simp)
    · simpa using this
    · intro e' h
      rcases h with h | h | h | h
      · exact hi.act a x e' hx (.inl h)
      · simp at h; subst h; exact ⟨ha, hl⟩
      · exact hi.act a x e' hx (.inr (.inr (.inl h)))
      · exact hi.act a x e' hx (.inr (.inr (.inr h)))
    · intro e' h; simp at h; subst h; exact ⟨hk, hs, hb⟩
  | pubEnd a x e hx hh he =>
    refine ⟨hi.act, hi.beginKind, hi.endKind, hi.warnKind, hi.excKind, ?_⟩
    intro k e' h
    simp only [List.mem_append, List.mem_singleton, Prod.mk.injEq] at h
    rcases h with h | ⟨rfl, rfl⟩
    · exact hi.pub k e' h
    · obtain ⟨h1, h2⟩ := hi.act a x e' hx (.inr (.inl he))
      refine ⟨(hi.endKind a x e' hx he).1, by simp, x, by rw [h1]; exact hx, h2, fun _ => hh⟩
  | comment x b en e hb he hw hx htr hd hh i1 i2 i3 a1 a2 a3 l1 l2 l3 k1 k2 k3 s1 s2 s3 =>
    refine evInv_upd (a := c.nextId) hi (by simp [fresh]) ?_ ?_ ?_ (by simp [hw]) (by simp [hx]) ?_
    · intro e' h
      simp only [Act.Has, hb, he, hw, hx, Option.some.injEq, List.not_mem_nil, or_false] at h
      rcases h with h | h <;> subst h
      · exact ⟨a1, l1⟩
      · exact ⟨a2, l2⟩
    · intro e' h; rw [hb] at h; cases h; exact ⟨k1, s1⟩
    · intro e' h; rw [he] at h; cases h; exact ⟨k2, .inl s2, by simp [hb]⟩
    · intro k e' h
      simp at h; obtain ⟨rfl, rfl⟩ := h
      exact ⟨k3, by simp, a3, l3, by simp⟩

theorem Reachable.evInv {env : Env} {w : World} (h : Reachable env w) : EvInv w.core :=
  (h.inv (P := fun c => IdInv c ∧ EvInv c) (fun _ _ h s => ⟨idInv_step h.1 s, evInv_step h.1 h.2 s⟩)
    ⟨idInv_init, evInv_init⟩).2

@[simp] theorem pubsOf_append (p q : List (Kind × Event)) (k : Kind) (a : ActId) :
    pubsOf (p ++ q) k a = pubsOf p k a ++ pubsOf q k a := by simp [pubsOf]
theorem pubsOf_single (k k' : Kind) (e : Event) (a : ActId) :
    pubsOf [(k', e)] k a = if k' = k ∧ e.act = a then [e] else [] := by
  simp only [pubsOf, List.filter_cons, List.filter_nil]
  split <;> simp_all
theorem mem_pubsOf {pub : List (Kind × Event)} {k : Kind} {a : ActId} {e : Event} :
    e ∈ pubsOf pub k a ↔ (k, e) ∈ pub ∧ e.act = a := by
  simp only [pubsOf, List.mem_map, List.mem_filter, decide_eq_true_eq, Prod.exists]
  constructor
  · rintro ⟨k', e', ⟨h, rfl, rfl⟩, rfl⟩; exact ⟨h, rfl⟩
  · rintro ⟨h, rfl⟩; exact ⟨k, e, ⟨h, rfl, rfl⟩, rfl⟩

/-- Begin and warning events are published exactly when they are made. -/
structure PubInv (c : Core) : Prop where
  begin : ∀ a x, c.acts a = some x → x.handle = true →
    pubsOf c.pub .begin a = x.beginEv.toList
  noBegin : ∀ a x, c.acts a = some x → x.handle = false → ∀ k, k ≠ .comment → pubsOf c.pub k a = []
  warn : ∀ a x, c.acts a = some x → pubsOf c.pub .warn a = x.warnEvs
  none : ∀ a k, c.acts a = none → pubsOf c.pub k a = []

theorem pubInv_init : PubInv World.init.core := by
  constructor <;> simp [World.core, World.init, pubsOf]

theorem pubInv_step {c d : Core} (hid : IdInv c) (hev : EvInv c) (hi : PubInv c)
    (s : CoreStep c d) : PubInv d := by
  have fresh : c.acts c.nextId = .none := by
    cases h : c.acts c.nextId with
    | none => rfl
    | some x => exact absurd (hid.actLt _ x h) (by omega)
  cases s with
  | newAct x hb he hw hx htr hd hh =>
    refine ⟨?_, ?_, ?_, ?_⟩
    · intro a y hy h
      simp only [updAct] at hy; split at hy
      · cases hy; subst_vars; simp [hi.none _ _ fresh, hb]
      · exact hi.begin a y hy h
    · intro a y hy h
      simp only [updAct] at hy; split at hy
      · cases hy; simp [hh] at h
      · exact hi.noBegin a y hy h
    · intro a y hy
      simp only [updAct] at hy; split at hy
      · cases hy; subst_vars; simp [hi.none _ _ fresh, hw]
      · exact hi.warn a y hy
    · intro a k hy
      simp only [updAct] at hy; split at hy
      · simp at hy
      · exact hi.none a k hy
  | upd b x dd t f hx hh htr =>
    refine ⟨?_, ?_, ?_, ?_⟩
    · intro a y hy h
      simp only [updAct] at hy; split at hy
      · cases hy; subst_vars; exact hi.begin _ x hx h
      · exact hi.begin a y hy h
    · intro a y hy h
      simp only [updAct] at hy; split at hy
      · cases hy; simp [hh] at h
      · exact hi.noBegin a y hy h
    · intro a y hy
      simp only [updAct] at hy; split at hy
      · cases hy; subst_vars; exact hi.warn _ x hx
      · exact hi.warn a y hy
    · intro a k hy
      simp only [updAct] at hy; split at hy
      · simp at hy
      · exact hi.none a k hy
  | begin b x dd t f e hx hh hb hid ha hl hk hs =>
    refine ⟨?_, ?_, ?_, ?_⟩
    · intro a y hy h
      simp only [updAct] at hy; split at hy
      · cases hy; subst_vars; simp [hi.begin _ x hx hh, hb, pubsOf_single]
      · rename_i hne
        simp [hi.begin a y hy h, pubsOf_single, ha, Ne.symm hne]
    · intro a y hy h k hkc
      simp only [updAct] at hy; split at hy
      · cases hy; simp [hh] at h
      · rename_i hne
        simp [hi.noBegin a y hy h k hkc, pubsOf_single, ha, Ne.symm hne]
    · intro a y hy
      simp only [updAct] at hy; split at hy
      · cases hy; subst_vars; simp [hi.warn _ x hx, pubsOf_single]
      · simp [hi.warn a y hy, pubsOf_single]
    · intro a k hy
      simp only [updAct] at hy; split at hy
      · simp at hy
      · rename_i hne
        simp [hi.none a k hy, pubsOf_single, ha, Ne.symm hne]
  | warn b x dd e hx hh hid ha hl hk hs =>
    refine ⟨?_, ?_, ?_, ?_⟩
    · intro a y hy h
      simp only [updAct] at hy; split at hy
      · cases hy; subst_vars; simp [hi.begin _ x hx hh, pubsOf_single]
      · simp [hi.begin a y hy h, pubsOf_single]
    · intro a y hy h k hkc
      simp only [updAct] at hy; split at hy
      · cases hy; simp [hh] at h
      · rename_i hne
        simp [hi.noBegin a y hy h k hkc, pubsOf_single, ha, Ne.symm hne]
    · intro a y hy
      simp only [updAct] at hy; split at hy
      · cases hy; subst_vars; simp [hi.warn _ x hx, pubsOf_single]
      · rename_i hne
        simp [hi.warn a y hy, pubsOf_single, ha, Ne.symm hne]
    · intro a k hy
      simp only [updAct] at hy; split at hy
      · simp at hy
      · rename_i hne
        simp [hi.none a k hy, pubsOf_single, ha, Ne.symm hne]
  | exc b x e hx hh hid ha hl hk hs =>
    refine ⟨?_, ?_, ?_, ?_⟩
    · intro a y hy h
      simp only [updAct] at hy; split at hy
      · cases hy; subst_vars; exact hi.begin _ x hx h
      · exact hi.begin a y hy h
    · intro a y hy h
      simp only [updAct] at hy; split at hy
      · cases hy; simp [hh] at h
      · exact hi.noBegin a y hy h
    · intro a y hy
      simp only [updAct] at hy; split at hy
      · cases hy; subst_vars; exact hi.warn _ x hx
      · exact hi.warn a y hy
    · intro a k hy
      simp only [updAct] at hy; split at hy
      · simp at hy
      · exact hi.none a k hy
  | fin b x e hx hh hb hid ha hl hk hs =>
    refine ⟨?_, ?_, ?_, ?_⟩
    · intro a y hy h
      simp only [updAct] at hy; split at hy
      · cases hy; subst_vars; exact hi.begin _ x hx h
      · exact hi.begin a y hy h
    · intro a y hy h
      simp only [updAct] at hy; split at hy
      · cases hy; simp [hh] at h
      · exact hi.noBegin a y hy h
    · intro a y hy
      simp only [updAct] at hy; split at hy
      · cases hy; subst_vars; exact hi.warn _ x hx
      · exact hi.warn a y hy
    · intro a k hy
      simp only [updAct] at hy; split at hy
      · simp at hy
      · exact hi.none a k hy
  | pubEnd b x e hx hh he =>
    have ha := (hev.act b x e hx (.inr (.inl he))).1
    refine ⟨?_, ?_, ?_, ?_⟩
    · intro a y hy h
      simp [hi.begin a y hy h, pubsOf_single]
    · intro a y hy h k hk
      have hne : b ≠ a := by
        rintro rfl; rw [hx] at hy; cases hy; simp [hh] at h
      simp [hi.noBegin a y hy h k hk, pubsOf_single, ha, hne]
    · intro a y hy
      simp [hi.warn a y hy, pubsOf_single]
    · intro a k hy
      have hne : b ≠ a := by rintro rfl; simp [hx] at hy
      simp [hi.none a k hy, pubsOf_single, ha, hne]
  | comment x b en e hb he hw hx htr hd hh i1 i2 i3 a1 a2 a3 l1 l2 l3 k1 k2 k3 s1 s2 s3 =>
    refine ⟨?_, ?_, ?_, ?_⟩
    · intro a y hy h
      simp only [updAct] at hy; split at hy
      · cases hy; simp [hh] at h
      · simp [hi.begin a y hy h, pubsOf_single]
    · intro a y hy h k hk
      simp only [updAct] at hy; split at hy
      · subst_vars; simp [hi.none _ _ fresh, pubsOf_single, Ne.symm hk]
      · simp [hi.noBegin a y hy h k hk, pubsOf_single, Ne.symm hk]
    · intro a y hy
      simp only [updAct] at hy; split at hy
      · cases hy; subst_vars; simp [hi.none _ _ fresh, pubsOf_single, hw]
      · simp [hi.warn a y hy, pubsOf_single]
    · intro a k hy
      simp only [updAct] at hy; split at hy
      · simp at hy
      · rename_i hne
        simp [hi.none a k hy, pubsOf_single, a3, Ne.symm hne]

theorem Reachable.pubInv {env : Env} {w : World} (h : Reachable env w) : PubInv w.core :=
  (h.inv (P := fun c => IdInv c ∧ EvInv c ∧ PubInv c)
    (fun _ _ h s => ⟨idInv_step h.1 s, evInv_step h.1 h.2.1 s, pubInv_step h.1 h.2.1 h.2.2 s⟩)
    ⟨idInv_init, evInv_init, pubInv_init⟩).2.2

/-- An end is only published after its action's begin. -/
def OrderInv (c : Core) : Prop :=
  ∀ pre e post, c.pub = pre ++ (Kind.end_, e) :: post → ∃ b, (Kind.begin, b) ∈ pre ∧ b.act = e.act

theorem append_eq_append_cons {α : Type} {p pre post : List α} {x y : α}
    (h : p ++ [x] = pre ++ y :: post) :
    (post = [] ∧ p = pre ∧ x = y) ∨ ∃ post', post = post' ++ [x] ∧ p = pre ++ y :: post' := by
  rcases List.eq_nil_or_concat post with rfl | ⟨q, z, rfl⟩
  · left
    have := List.append_inj' h rfl
    exact ⟨rfl, this.1, by simpa using this.2⟩
  · right
    rw [List.concat_eq_append, ← List.cons_append, ← List.append_assoc] at h
    have := List.append_inj' h rfl
    have hx : x = z := by simpa using this.2
    exact ⟨q, by simp [hx], this.1⟩

theorem orderInv_append {c : Core} (hi : OrderInv c) {n : Nat} {m : ActId → Option Act}
    {k : Kind} {e : Event}
    (h : k = .end_ → ∃ b, (Kind.begin, b) ∈ c.pub ∧ b.act = e.act) :
    OrderInv ⟨n, m, c.pub ++ [(k, e)]⟩ := by
  intro pre e' post hp
  rcases append_eq_append_cons hp with ⟨_, rfl, h2⟩ | ⟨post', _, h2⟩
  · obtain ⟨rfl, rfl⟩ := Prod.mk.injEq .. ▸ h2
    exact h rfl
  · exact hi pre e' post' h2

theorem orderInv_step {c d : Core} (hev : EvInv c) (hp : PubInv c) (hi : OrderInv c)
    (s : CoreStep c d) : OrderInv d := by
  cases s with
  | newAct => exact hi
  | upd => exact hi
  | exc => exact hi
  | fin => exact hi
  | begin => exact orderInv_append hi (by simp)
  | warn => exact orderInv_append hi (by simp)
  | comment => exact orderInv_append hi (by simp)
  | pubEnd a x e hx hh he =>
    refine orderInv_append hi fun _ => ?_
    obtain ⟨b, hb⟩ := Option.isSome_iff_exists.1 (hev.endKind a x e hx he).2.2
    have h1 := hp.begin a x hx hh
    rw [hb] at h1
    have h2 : b ∈ pubsOf c.pub .begin a := by rw [h1]; simp
    obtain ⟨h3, h4⟩ := mem_pubsOf.1 h2
    exact ⟨b, h3, by rw [h4, (hev.act a x e hx (.inr (.inl he))).1]⟩

theorem Reachable.orderInv {env : Env} {w : World} (h : Reachable env w) : OrderInv w.core :=
  (h.inv (P := fun c => IdInv c ∧ EvInv c ∧ PubInv c ∧ OrderInv c)
    (fun _ _ h s => ⟨idInv_step h.1 s, evInv_step h.1 h.2.1 s, pubInv_step h.1 h.2.1 h.2.2.1 s,
      orderInv_step h.2.1 h.2.2.1 h.2.2.2 s⟩)
    ⟨idInv_init, evInv_init, pubInv_init, by
      intro pre e post h; simp [World.core, World.init] at h⟩).2.2.2

end Verif
