import Verif.Lemmas.CoreInv
import Verif.Lemmas.Fixed
/-!
# What an action keeps for ever
-/
namespace Verif
open scoped List

/-- What holds of an action's record from then on. -/
structure Act.Grows (x y : Act) : Prop where
  fixed : y.fixed = x.fixed
  begun : ∀ b, x.beginEv = some b → y.beginEv = some b
  ended : x.endEv.isSome → y.endEv.isSome
  exc : x.excEvs <+: y.excEvs
  warns : x.warnEvs <+: y.warnEvs

theorem Act.Grows.refl (x : Act) : x.Grows x := ⟨rfl, fun _ h => h, id, List.prefix_refl _, List.prefix_refl _⟩

theorem Act.Grows.trans {x y z : Act} (h : x.Grows y) (g : y.Grows z) : x.Grows z :=
  ⟨g.fixed.trans h.fixed, fun b hb => g.begun b (h.begun b hb), fun he => g.ended (h.ended he), h.exc.trans g.exc,
    h.warns.trans g.warns⟩

theorem grows_step {c d : Core} (hi : IdInv c) (s : CoreStep c d) {a : ActId} {x : Act} (hx : c.acts a = some x) :
    ∃ y, d.acts a = some y ∧ x.Grows y := by
  have hlt := hi.actLt a x hx
  have upd : ∀ (n : Nat) (p : List (Kind × Event)) (b : ActId) (y z : Act), c.acts b = some y → y.Grows z →
      ∃ y', (⟨n, updAct c.acts b z, p⟩ : Core).acts a = some y' ∧ x.Grows y' := by
    intro n p b y z hy hg
    by_cases hb : a = b
    · subst hb
      rw [hx] at hy; cases hy
      exact ⟨z, by simp [updAct], hg⟩
    · exact ⟨x, by simp [updAct, hb, hx], .refl x⟩
  have fresh : ∀ (n : Nat) (p : List (Kind × Event)) (z : Act),
      ∃ y', (⟨n, updAct c.acts c.nextId z, p⟩ : Core).acts a = some y' ∧ x.Grows y' := fun n p z =>
    ⟨x, by simp [updAct, Nat.ne_of_lt hlt, hx], .refl x⟩
  cases s with
  | newAct y => exact fresh ..
  | upd b y dd t f hy => exact upd _ _ b y _ hy ⟨rfl, fun _ h => h, id, List.prefix_refl _, List.prefix_refl _⟩
  | begin b y dd t f e hy hh hb =>
    exact upd _ _ b y _ hy ⟨rfl, fun b' h => (by rw [hb] at h; cases h), id, List.prefix_refl _, List.prefix_refl _⟩
  | warn b y dd e hy => exact upd _ _ b y _ hy ⟨rfl, fun _ h => h, id, List.prefix_refl _, List.prefix_append ..⟩
  | exc b y e hy => exact upd _ _ b y _ hy ⟨rfl, fun _ h => h, id, List.prefix_append .., List.prefix_refl _⟩
  | fin b y e hy => exact upd _ _ b y _ hy ⟨rfl, fun _ h => h, fun _ => rfl, List.prefix_refl _, List.prefix_refl _⟩
  | pubEnd b y e hy => exact ⟨x, hx, .refl x⟩
  | comment y => exact fresh ..

theorem grows_star {c d : Core} (s : CoreStar c d) (hi : IdInv c) {a : ActId} {x : Act} (hx : c.acts a = some x) :
    IdInv d ∧ ∃ y, d.acts a = some y ∧ x.Grows y := by
  induction s with
  | refl => exact ⟨hi, x, hx, .refl x⟩
  | tail _ s ih =>
    obtain ⟨h1, y, h2, h3⟩ := ih
    obtain ⟨z, h4, h5⟩ := grows_step h1 s h2
    exact ⟨idInv_step h1 s, z, h4, h3.trans h5⟩

/-- Whatever happens next, an action keeps what `Act.Grows` says. -/
theorem Reachable.grows {env : Env} {w : World} (h : Reachable env w) (its : List Item) {a : ActId} {x : Act}
    (hx : w.acts a = some x) : ∃ y, (Verif.run env w its).acts a = some y ∧ x.Grows y := by
  have hi := h.idInv
  have ht : TransOK w.core := h.inv (fun _ _ h s => transOK_step h s) transOK_init
  exact (grows_star (core_run ht its).1 hi hx).2

/-- Publications say what the record of their action has. -/
structure HasInv (c : Core) : Prop where
  begin : ∀ e, (Kind.begin, e) ∈ c.pub → ∃ x, c.acts e.act = some x ∧ x.beginEv = some e
  fin : ∀ e, (Kind.end_, e) ∈ c.pub → ∃ x, c.acts e.act = some x ∧ x.beginEv.isSome ∧ x.endEv.isSome ∧
    (e.status = .exception → x.excEvs ≠ [])
  com : ∀ e, (Kind.comment, e) ∈ c.pub → ∃ x, c.acts e.act = some x ∧ x.beginEv.isSome ∧ x.endEv.isSome
  endExc : ∀ a x e, c.acts a = some x → x.endEv = some e → e.status = .exception → x.excEvs ≠ []

theorem hasInv_init : HasInv World.init.core := by
  constructor <;> simp [World.core, World.init]

theorem hasInv_step {c d : Core} (hi : IdInv c) (hev : EvInv c) (h : HasInv c) (s : CoreStep c d) : HasInv d := by
  have keep : ∀ {a x}, c.acts a = some x → ∃ y, d.acts a = some y ∧ x.Grows y := fun hx => grows_step hi s hx
  have ne : ∀ {x y : Act}, x.Grows y → x.excEvs ≠ [] → y.excEvs ≠ [] := by
    intro x y g hn he
    have := g.exc; rw [he] at this
    exact hn (List.prefix_nil.1 this)
  have hsome : ∀ {x y : Act}, x.Grows y → x.beginEv.isSome → y.beginEv.isSome := by
    intro x y g hb
    obtain ⟨b, hb⟩ := Option.isSome_iff_exists.1 hb
    rw [g.begun b hb]; rfl
  have kbegin : ∀ e, (Kind.begin, e) ∈ c.pub → ∃ x, d.acts e.act = some x ∧ x.beginEv = some e := by
    intro e he
    obtain ⟨x, hx, hb⟩ := h.begin e he
    obtain ⟨y, hy, g⟩ := keep hx
    exact ⟨y, hy, g.begun e hb⟩
  have kfin : ∀ e, (Kind.end_, e) ∈ c.pub → ∃ x, d.acts e.act = some x ∧ x.beginEv.isSome ∧ x.endEv.isSome ∧
      (e.status = .exception → x.excEvs ≠ []) := by
    intro e he
    obtain ⟨x, hx, hb, hn, hs⟩ := h.fin e he
    obtain ⟨y, hy, g⟩ := keep hx
    exact ⟨y, hy, hsome g hb, g.ended hn, fun h => ne g (hs h)⟩
  have kcom : ∀ e, (Kind.comment, e) ∈ c.pub → ∃ x, d.acts e.act = some x ∧ x.beginEv.isSome ∧ x.endEv.isSome := by
    intro e he
    obtain ⟨x, hx, hb, hn⟩ := h.com e he
    obtain ⟨y, hy, g⟩ := keep hx
    exact ⟨y, hy, hsome g hb, g.ended hn⟩
  have kend : ∀ (m : ActId → Option Act) (b : ActId) (z : Act), m = updAct c.acts b z →
      (∀ e, z.endEv = some e → e.status = .exception → z.excEvs ≠ []) →
      ∀ a x e, m a = some x → x.endEv = some e → e.status = .exception → x.excEvs ≠ [] := by
    intro m b z hm hz a x e hx
    subst hm
    simp only [updAct] at hx
    split at hx
    · cases hx; exact hz e
    · exact h.endExc a x e hx
  have snoc : ∀ {k k' : Kind} {e e' : Event}, (k, e) ∈ c.pub ++ [(k', e')] → (k, e) ∈ c.pub ∨ (k = k' ∧ e = e') := by
    intro k k' e e' hm
    rcases List.mem_append.1 hm with hm | hm
    · exact .inl hm
    · rw [List.mem_singleton] at hm; cases hm; exact .inr ⟨rfl, rfl⟩
  cases s with
  | newAct y hb he hw hxe =>
    exact ⟨kbegin, kfin, kcom, kend _ _ _ rfl (by rw [he]; simp)⟩
  | upd b y dd t f hy => exact ⟨kbegin, kfin, kcom, kend _ _ _ rfl (fun e => h.endExc b y e hy)⟩
  | begin b y dd t f e hy hh hb hid ha =>
    refine ⟨fun e' hm => ?_, fun e' hm => ?_, fun e' hm => ?_, kend _ _ _ rfl (fun e => h.endExc b y e hy)⟩
    · rcases snoc hm with hm | ⟨_, rfl⟩
      · exact kbegin e' hm
      · subst ha; exact ⟨_, updAct_same _ _ _, rfl⟩
    · rcases snoc hm with hm | ⟨h, _⟩
      · exact kfin e' hm
      · cases h
    · rcases snoc hm with hm | ⟨h, _⟩
      · exact kcom e' hm
      · cases h
  | warn b y dd e hy hh hid ha =>
    refine ⟨fun e' hm => ?_, fun e' hm => ?_, fun e' hm => ?_, kend _ _ _ rfl (fun e => h.endExc b y e hy)⟩
    · rcases snoc hm with hm | ⟨h, _⟩
      · exact kbegin e' hm
      · cases h
    · rcases snoc hm with hm | ⟨h, _⟩
      · exact kfin e' hm
      · cases h
    · rcases snoc hm with hm | ⟨h, _⟩
      · exact kcom e' hm
      · cases h
  | exc b y e hy => exact ⟨kbegin, kfin, kcom, kend _ _ _ rfl (fun e _ _ => by simp)⟩
  | fin b y e hy hh hb hid ha hl hk hs hxe =>
    exact ⟨kbegin, kfin, kcom, kend _ _ _ rfl (fun e' he' => by cases he'; exact hxe)⟩
  | pubEnd b y e hy hh he =>
    have hact := (hev.act b y e hy (.inr (.inl he))).1
    refine ⟨fun e' hm => ?_, fun e' hm => ?_, fun e' hm => ?_, h.endExc⟩
    · rcases snoc hm with hm | ⟨h, _⟩
      · exact kbegin e' hm
      · cases h
    · rcases snoc hm with hm | ⟨_, rfl⟩
      · exact kfin e' hm
      · exact ⟨y, by rw [hact]; exact hy, (hev.endKind b y e' hy he).2.2, by rw [he]; rfl, h.endExc b y e' hy he⟩
    · rcases snoc hm with hm | ⟨h, _⟩
      · exact kcom e' hm
      · cases h
  | comment y b en e hb he hw hxe ht hd hh h1 h2 h3 h4 h5 h6 =>
    refine ⟨fun e' hm => ?_, fun e' hm => ?_, fun e' hm => ?_, ?_⟩
    · rcases snoc hm with hm | ⟨h, _⟩
      · exact kbegin e' hm
      · cases h
    · rcases snoc hm with hm | ⟨h, _⟩
      · exact kfin e' hm
      · cases h
    · rcases snoc hm with hm | ⟨_, rfl⟩
      · exact kcom e' hm
      · exact ⟨y, by simp [updAct, h6], by rw [hb]; rfl, by rw [he]; rfl⟩
    · refine kend _ _ _ rfl fun e' he' hst => ?_
      rw [he] at he'; cases he'
      simp_all

theorem Reachable.hasInv {env : Env} {w : World} (h : Reachable env w) : HasInv w.core :=
  (h.inv (P := fun c => IdInv c ∧ EvInv c ∧ HasInv c)
    (fun _ _ h s => ⟨idInv_step h.1 s, evInv_step h.1 h.2.1 s, hasInv_step h.1 h.2.1 h.2.2 s⟩)
    ⟨idInv_init, evInv_init, hasInv_init⟩).2.2

end Verif
