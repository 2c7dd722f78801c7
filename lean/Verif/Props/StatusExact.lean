import Verif.Props.Action
import Verif.Props.ExcExact
/-!
# C07, C09: when exactly a status call takes effect, and when the keywords of a call are stored

With sinks that raise both claims are false: `act.success()` on an action that was not begun publishes its begin event first, and if an
`on_begin` method raises then, nothing is recorded; `act.exception(key=value)` calls the `on_exception` methods first, and if one raises,
neither the status nor the value is recorded.  The laws here hold whatever foreign code does.
-/
namespace Verif
open scoped List
attribute [local irreducible] QUEUE_LIMIT

/-! ## Specification -/

/-- No method of a sink for one of the kinds `K` that was called on the way from `w` to `w'` raised. -/
def NoneOfRaised (K : List Kind) (env : Env) (w w' : World) : Prop :=
  ∀ (pre : List Obs) (s : SinkId) (k : Kind) (ev : Event) (post : List Obs), k ∈ K → w'.trace = pre ++ .hook s k ev :: post →
    w.trace.length ≤ pre.length → env.raises pre (.hook s k ev) = none

/-- If the item records an exception on `a`: its information can be extracted, and the default message built if it is needed. -/
def Item.Describable (env : Env) (w : World) (a : ActId) : Item → Prop
  | .op (.exception b (some e) m _ _) => b = a → env.excInfoErr (some e) = none ∧
      (m = none ∨ m = some "" → ∀ x, w.acts a = some x → ∃ t, env.excText (some e) x.name (!x.data.isEmpty) = .ok t)
  | .exit b (some e) => b = a → env.excInfoErr (some e) = none ∧
      ∀ x, w.acts a = some x → ∃ t, env.excText (some e) x.name (!x.data.isEmpty) = .ok t
  | _ => True

/-! ## Which calls raised -/

section
variable {env : Env} {w w' w'' : World} {K : List Kind} {a : ActId} {x : Act}

/-- More was called. -/
def Ext (w w' : World) : Prop := w.trace <+: w'.trace

theorem Ext.ofEq (h : w'.trace = w.trace) : Ext w w' := by unfold Ext; rw [h]; exact List.prefix_refl _
theorem Ext.trans (h : Ext w w') (g : Ext w' w'') : Ext w w'' := List.IsPrefix.trans h g

theorem noneOfRaised_of {t : List Obs} (h : w'.trace = w.trace ++ t) (ht : ∀ o ∈ t, ∀ s k ev, k ∈ K → o ≠ .hook s k ev) :
    NoneOfRaised K env w w' := by
  intro pre s k ev post hk hp hl
  exfalso
  obtain ⟨pre', rfl⟩ : ∃ pre', pre = w.trace ++ pre' := by
    obtain ⟨p, hp'⟩ := List.prefix_of_prefix_length_le (l₁ := w.trace) (l₂ := pre) (l₃ := w'.trace) (by rw [h]; simp) (by rw [hp]; simp) hl
    exact ⟨p, hp'.symm⟩
  rw [h, List.append_assoc, List.append_cancel_left_eq] at hp
  exact ht (.hook s k ev) (by rw [hp]; simp) s k ev hk rfl

theorem noneOfRaised_same (h : w'.trace = w.trace) : NoneOfRaised K env w w' :=
  noneOfRaised_of (t := []) (by simp [h]) (by simp)

theorem noneOfRaised_trans (h : Ext w w') (g : Ext w' w'') :
    NoneOfRaised K env w w'' ↔ NoneOfRaised K env w w' ∧ NoneOfRaised K env w' w'' := by
  constructor
  · intro hn
    refine ⟨?_, ?_⟩
    · intro pre s k ev post hk hp hl
      obtain ⟨t, ht⟩ := g
      exact hn pre s k ev (post ++ t) hk (by rw [← ht, hp]; simp) hl
    · intro pre s k ev post hk hp hl
      exact hn pre s k ev post hk hp (Nat.le_trans h.length_le hl)
  · rintro ⟨h1, h2⟩ pre s k ev post hk hp hl
    by_cases hlen : w'.trace.length ≤ pre.length
    · exact h2 pre s k ev post hk hp hlen
    · have : (pre ++ [.hook s k ev]) <+: w'.trace :=
        List.prefix_of_prefix_length_le (l₃ := w''.trace) (by rw [hp]; simp) g (by simp; omega)
      obtain ⟨t, ht⟩ := this
      exact h1 pre s k ev t hk (by rw [← ht]; simp) hl

theorem Ext.after {u : World} (g : Ext u w') (h : u.trace = w.trace) : Ext w w' := (Ext.ofEq h).trans g

theorem noneOfRaised_after {u : World} (g : Ext u w') (h : u.trace = w.trace) : NoneOfRaised K env w w' ↔ NoneOfRaised K env u w' := by
  rw [noneOfRaised_trans (.ofEq h) g]
  exact ⟨fun h => h.2, fun h' => ⟨noneOfRaised_same h, h'⟩⟩

theorem ext_callAll (os : List Obs) : Ext w (callAll env os w).1 := by
  rw [callAll_eq]; exact ⟨_, rfl⟩

theorem noneOfRaised_callAll (os : List Obs) (hos : ∀ o ∈ os, ∃ s k ev, k ∈ K ∧ o = .hook s k ev) :
    NoneOfRaised K env w (callAll env os w).1 ↔ (callAll env os w).2 = none := by
  induction os generalizing w with
  | nil => exact iff_of_true (noneOfRaised_same rfl) rfl
  | cons o os ih =>
    obtain ⟨s, k, ev, hk, rfl⟩ := hos o (by simp)
    simp only [callAll, callback]
    cases hr : env.raises w.trace (.hook s k ev) with
    | some e =>
      refine iff_of_false (fun h => ?_) (by simp)
      have := h w.trace s k ev [] hk rfl (Nat.le_refl _)
      rw [hr] at this; cases this
    | none =>
      simp only
      rw [noneOfRaised_trans (w' := { w with trace := w.trace ++ [.hook s k ev] }) ⟨_, rfl⟩ (ext_callAll _),
        ih (fun o ho => hos o (by simp [ho]))]
      refine ⟨fun h => h.2, fun h => ⟨?_, h⟩⟩
      intro pre s' k' ev' post _ hp hl
      have hp' : w.trace ++ [Obs.hook s k ev] = pre ++ .hook s' k' ev' :: post := hp
      have hlen := congrArg List.length hp'
      simp only [List.length_append, List.length_cons, List.length_nil] at hlen
      obtain rfl : post = [] := List.length_eq_zero_iff.1 (by omega)
      obtain ⟨h1, h2⟩ := List.append_inj' hp' rfl
      rw [← h1, ← (List.cons.inj h2).1]
      exact hr

theorem noneOfRaised_others (os : List Obs) (hos : ∀ o ∈ os, ∀ s k ev, k ∈ K → o ≠ .hook s k ev) :
    NoneOfRaised K env w (callAll env os w).1 := by
  rw [callAll_eq]
  exact noneOfRaised_of rfl fun o ho => hos o ((ran_prefix env os w.trace).subset ho)

theorem ext_publish (l : LogId) (k : Kind) (e : Event) : Ext w (publish env w l k e).1 := by
  simp only [publish]; split
  · exact .ofEq rfl
  · split
    · exact .ofEq rfl
    · exact Ext.trans (w' := { w with pub := w.pub ++ [(k, e)] }) (.ofEq rfl) (ext_callAll _)

theorem publish_others (l : LogId) {k : Kind} (hk : k ∉ K) (e : Event) : NoneOfRaised K env w (publish env w l k e).1 := by
  simp only [publish]; split
  · exact noneOfRaised_same rfl
  · split
    · exact noneOfRaised_same rfl
    · rename_i L _ _
      refine (noneOfRaised_trans (w' := { w with pub := w.pub ++ [(k, e)] }) (.ofEq rfl) (ext_callAll _)).2
        ⟨noneOfRaised_same rfl, noneOfRaised_others _ ?_⟩
      intro o ho s k' ev hk' h
      obtain ⟨s', -, rfl⟩ := List.mem_map.1 ho
      simp only [Obs.hook.injEq] at h
      exact hk (h.2.1 ▸ hk')

theorem publish_raised (l : LogId) {k : Kind} (hk : k ∈ K) (e : Event) :
    NoneOfRaised K env w (publish env w l k e).1 ↔ (publish env w l k e).2 = none := by
  simp only [publish]; split
  · exact iff_of_true (noneOfRaised_same rfl) rfl
  · split
    · exact iff_of_true (noneOfRaised_same rfl) rfl
    · rename_i L _ _
      refine (noneOfRaised_after (ext_callAll _) rfl).trans (noneOfRaised_callAll _ ?_)
      intro o ho
      obtain ⟨s', -, rfl⟩ := List.mem_map.1 ho
      exact ⟨s', k, e, hk, rfl⟩

theorem ext_publishExc (l : LogId) (e : Event) : Ext w (publishExc env w l e).1 := by
  simp only [publishExc]; split
  · exact .ofEq rfl
  · exact ext_callAll _

theorem publishExc_raised (l : LogId) (hk : .exception ∈ K) (e : Event) :
    NoneOfRaised K env w (publishExc env w l e).1 ↔ (publishExc env w l e).2 = none := by
  simp only [publishExc]; split
  · exact iff_of_true (noneOfRaised_same rfl) rfl
  · refine noneOfRaised_callAll _ ?_
    intro o ho
    obtain ⟨s', -, rfl⟩ := List.mem_map.1 ho
    exact ⟨s', .exception, e, hk, rfl⟩

theorem ext_note (n : String) : Ext w (noteAll env n w).1 := ext_callAll _
theorem note_others (n : String) : NoneOfRaised K env w (noteAll env n w).1 := by
  refine noneOfRaised_others _ ?_
  intro o ho s k ev _ h
  obtain ⟨s', -, rfl⟩ := List.mem_map.1 ho
  cases h

/-! ## Status calls -/

/-- `_end` from where the end event is made. -/
theorem endWith_took (hx : w.acts a = some x) (hK : .end_ ∉ K) (st : Status) (m : String) (f : List Val) (t : Int) (exc : Option Exc) :
    (endWith env w a st m f t exc).1.statusOf a = some st ∧ Ext w (endWith env w a st m f t exc).1 ∧
      NoneOfRaised K env w (endWith env w a st m f t exc).1 := by
  simp only [endWith, hx]
  split
  · exact ⟨by simp [World.statusOf, Act.status, mkEvent], .ofEq rfl, noneOfRaised_same rfl⟩
  · refine ⟨by simp [World.statusOf, Act.status, mkEvent], (ext_publish ..).after rfl, ?_⟩
    exact (noneOfRaised_after (ext_publish ..) rfl).2 (publish_others _ hK _)

/-- `_end`: it takes effect unless an `on_begin` method raises. -/
theorem end_took (hx : w.acts a = some x) (hK : .end_ ∉ K) (hb : .begin ∈ K) (st : Status)
    (m : String) (f : List Val) (kw : Dict) (et : Option Int) (exc : Option Exc) :
    Ext w (end_ env w a st m f kw et exc).1 ∧
    (NoneOfRaised K env w (end_ env w a st m f kw et exc).1 → (end_ env w a st m f kw et exc).1.statusOf a = some st) ∧
    (¬ NoneOfRaised K env w (end_ env w a st m f kw et exc).1 → (end_ env w a st m f kw et exc).1.statusOf a = w.statusOf a) := by
  have after : ∀ {u r : World}, Ext w u → NoneOfRaised K env w u →
      (r.statusOf a = some st ∧ Ext u r ∧ NoneOfRaised K env u r) →
      Ext w r ∧ (NoneOfRaised K env w r → r.statusOf a = some st) ∧ (¬ NoneOfRaised K env w r → r.statusOf a = w.statusOf a) := by
    rintro u r hu hn ⟨h1, h2, h3⟩
    exact ⟨hu.trans h2, fun _ => h1, fun h => absurd ((noneOfRaised_trans hu h2).2 ⟨hn, h3⟩) h⟩
  simp only [end_, hx]
  split
  · have hu : ∀ u : World, u.trace = w.trace → (∃ y, u.acts a = some y) → ∀ t,
        Ext w (endWith env u a st m f t exc).1 ∧
        (NoneOfRaised K env w (endWith env u a st m f t exc).1 → (endWith env u a st m f t exc).1.statusOf a = some st) ∧
        (¬ NoneOfRaised K env w (endWith env u a st m f t exc).1 → (endWith env u a st m f t exc).1.statusOf a = w.statusOf a) := by
      rintro u h1 ⟨y, h2⟩ t
      exact after (.ofEq h1) (noneOfRaised_same h1) (endWith_took h2 hK st m f t exc)
    have hd : (w.setAct a { x with data := x.data.update kw }).acts a = some { x with data := x.data.update kw } := updAct_same ..
    cases et with
    | none => exact hu (w.setAct a _).tick rfl ⟨_, hd⟩ _
    | some t =>
      simp only
      split
      · exact hu (w.setAct a _).tick rfl ⟨_, hd⟩ _
      · exact hu (w.setAct a _) rfl ⟨_, hd⟩ _
  · generalize hW : w.setAct a { x with data := x.data.update kw } = W
    have hWa : W.acts a = some { x with data := x.data.update kw } := by rw [← hW]; simp
    have hWt : W.trace = w.trace := by rw [← hW]; rfl
    obtain ⟨b, hba⟩ := begin_acts (env := env) hWa none [] []
    have hin : Ext W (begin_ env W a none [] []).1 ∧
        (NoneOfRaised K env W (begin_ env W a none [] []).1 ↔ (begin_ env W a none [] []).2 = none) := by
      simp only [begin_, hWa]
      cases hbe : x.beginEv with
      | some b => exact ⟨.ofEq rfl, iff_of_true (noneOfRaised_same rfl) rfl⟩
      | none =>
        simp only
        exact ⟨(ext_publish ..).after rfl, (noneOfRaised_after (ext_publish ..) rfl).trans (publish_raised _ hb _)⟩
    rcases hr : begin_ env W a none [] [] with ⟨w1, res⟩
    rw [hr] at hba hin
    replace hba : w1.acts = _ := hba
    have hext : Ext w w1 := (Ext.ofEq hWt).trans hin.1
    have hiff : NoneOfRaised K env w w1 ↔ res = none := by
      rw [noneOfRaised_trans (.ofEq hWt) hin.1, hin.2]
      exact ⟨fun h => h.2, fun h => ⟨noneOfRaised_same hWt, h⟩⟩
    have h1 : w1.acts a = some { x with data := (x.data.update kw).update [], beginEv := some b } := by
      rw [hba]; exact updAct_same ..
    cases res with
    | some e =>
      simp only [andThen]
      refine ⟨hext, fun h => (by cases hiff.1 h), fun _ => ?_⟩
      simp [World.statusOf, h1, hx, Act.status]
    | none =>
      simp only [andThen, h1, Option.bind_some]
      exact after hext (hiff.2 rfl) (endWith_took h1 hK st m f b.etime exc)

/-- `exception`: it takes effect unless the exception cannot be described, or an `on_exception` or `on_begin` method raises. -/
theorem exception_took (hx : w.acts a = some x) (ht : x.isTrans = true → x.beginEv.isSome) (hK : .end_ ∉ K) (hb : .begin ∈ K)
    (he : .exception ∈ K) (cur : Option Exc) (m : Option String) (f : List Val) (kw : Dict) :
    let r := exception_ env w a cur m f kw
    Ext w r.1 ∧
    (excEarly env x cur m = none → NoneOfRaised K env w r.1 → r.1.statusOf a = some .exception) ∧
    (¬ (excEarly env x cur m = none ∧ NoneOfRaised K env w r.1) → r.1.statusOf a = w.statusOf a) := by
  intro r
  rcases exception_spec (env := env) hx cur m f kw with ⟨err, h1, hr⟩ | ⟨h1, msg, ev, w1, hs, ⟨err, hp, hr⟩ | ⟨hp, hr⟩⟩
  · have hr' : r = _ := hr
    rw [hr']
    exact ⟨.ofEq rfl, fun h => by (rw [h1] at h; cases h), fun _ => rfl⟩
  · have hr' : r = _ := hr
    rw [hr']
    have hw1 : w1.trace = w.trace := hs.trace
    have hn : ¬ NoneOfRaised K env w (publishExc env w1 x.logger ev).1 := by
      rw [noneOfRaised_trans (.ofEq hw1) (ext_publishExc ..), publishExc_raised _ he, hp]
      simp
    refine ⟨Ext.trans (.ofEq hw1) (ext_publishExc ..), fun _ h => absurd h hn, fun _ => ?_⟩
    simp [World.statusOf, hs.acts, hx, Act.status]
  · have hr' : r = _ := hr
    rw [hr']
    have hw1 : w1.trace = w.trace := hs.trace
    have hext : Ext w (publishExc env w1 x.logger ev).1 := Ext.trans (.ofEq hw1) (ext_publishExc ..)
    have hn : NoneOfRaised K env w (publishExc env w1 x.logger ev).1 :=
      (noneOfRaised_trans (.ofEq hw1) (ext_publishExc ..)).2 ⟨noneOfRaised_same hw1, (publishExc_raised _ he _).2 hp⟩
    have hx1 : (publishExc env w1 x.logger ev).1.acts a = some { x with excEvs := x.excEvs ++ [ev] } := by
      rw [publishExc_acts', hs.acts]; simp
    obtain ⟨e1, e2, e3⟩ := end_took (K := K) (env := env) hx1 hK hb .exception msg f kw (some (w.now env)) cur
    have hiff := noneOfRaised_trans (K := K) (env := env) hext e1
    refine ⟨hext.trans e1, fun _ h => e2 (hiff.1 h).2, fun h => ?_⟩
    rw [e3 fun g => h ⟨h1, hiff.2 ⟨hn, g⟩⟩]
    simp [World.statusOf, hx1, hx, Act.status]

theorem excEarly_none_iff {e : Exc} {m : Option String} : excEarly env x (some e) m = none ↔
    env.excInfoErr (some e) = none ∧ (m = none ∨ m = some "" → ∃ t, env.excText (some e) x.name (!x.data.isEmpty) = .ok t) := by
  have hf : falsy m = true ↔ m = none ∨ m = some "" := by
    cases m <;> simp [falsy]
  simp only [excEarly]
  cases hi : env.excInfoErr (some e) with
  | some err => simp
  | none =>
    by_cases hm : falsy m = true
    · simp only [hm, if_true, hf.1 hm, true_and, forall_const]
      cases ht : env.excText (some e) x.name (!x.data.isEmpty) <;> simp
    · have : ¬ (m = none ∨ m = some "") := fun h => hm (hf.2 h)
      simp [hm, this]

/-- Leaving the block by an exception. -/
theorem exitExc_took (hx : w.acts a = some x) (ht : x.isTrans = true → x.beginEv.isSome) (hK : .end_ ∉ K) (hb : .begin ∈ K)
    (he : .exception ∈ K) (e : Exc) :
    (excEarly env x (some e) none = none → NoneOfRaised K env w (exit env w a (some e)).1 →
      (exit env w a (some e)).1.statusOf a = some .exception) ∧
    (¬ (excEarly env x (some e) none = none ∧ NoneOfRaised K env w (exit env w a (some e)).1) →
      (exit env w a (some e)).1.statusOf a = w.statusOf a) := by
  have q3 : (exit env w a (some e)).1.trace = (exitPublish env w a (some e)).1.trace := by
    simp only [exit, hx]
    cases exitPublish env w a (some e) with
    | mk w1 r => cases r <;> rfl
  have hst : (exit env w a (some e)).1.statusOf a = (exitPublish env w a (some e)).1.statusOf a := by
    simp [World.statusOf, (exit_acts_pub (env := env) hx (some e)).1]
  have hn : NoneOfRaised K env w (exit env w a (some e)).1 ↔ NoneOfRaised K env w (exitPublish env w a (some e)).1 := by
    simp [NoneOfRaised, q3]
  rw [hst, hn, exitPublish_exc hx]
  generalize hW : w.setAct a { x with defer := false } = W
  have hWa : W.acts a = some { x with defer := false } := by rw [← hW]; simp
  have hWt : W.trace = w.trace := by rw [← hW]; rfl
  obtain ⟨h1, h2, h3⟩ := exception_took (K := K) (env := env) hWa ht hK hb he (some e) none [] []
  have hws : W.statusOf a = w.statusOf a := by simp [World.statusOf, hWa, hx, Act.status]
  rw [hws] at h3
  have hearly : excEarly env { x with defer := false } (some e) none = excEarly env x (some e) none := rfl
  rw [hearly] at h2 h3
  rcases hr : exception_ env W a (some e) none [] [] with ⟨w1, res⟩
  rw [hr] at h1 h2 h3
  have key : ∀ r : World, Ext w1 r → NoneOfRaised K env w1 r → r.acts = w1.acts →
      (excEarly env x (some e) none = none → NoneOfRaised K env w r → r.statusOf a = some .exception) ∧
      (¬ (excEarly env x (some e) none = none ∧ NoneOfRaised K env w r) → r.statusOf a = w.statusOf a) := by
    intro r g1 g2 g3
    have hs : r.statusOf a = w1.statusOf a := by simp [World.statusOf, g3]
    have hi : NoneOfRaised K env w r ↔ NoneOfRaised K env W w1 := by
      rw [noneOfRaised_after (h1.trans g1) hWt, noneOfRaised_trans h1 g1]
      exact ⟨fun h => h.1, fun h => ⟨h, g2⟩⟩
    rw [hs, hi]
    exact ⟨h2, h3⟩
  cases res with
  | none => exact key w1 (.ofEq rfl) (noneOfRaised_same rfl) rfl
  | some err =>
    simp only
    cases err.cls with
    | ordinary => exact key _ (ext_note _) (note_others _) (noteAll_acts _)
    | baseOnly => exact key w1 (.ofEq rfl) (noneOfRaised_same rfl) rfl

/-- Leaving the block normally while the status is `begin`. -/
theorem exitNone_took (hx : w.acts a = some x) (ho : x.endEv = none) (hK : .end_ ∉ K) (hb : .begin ∈ K) :
    (NoneOfRaised K env w (exit env w a none).1 → (exit env w a none).1.statusOf a = some .success) ∧
    (¬ NoneOfRaised K env w (exit env w a none).1 → (exit env w a none).1.statusOf a = w.statusOf a) := by
  have q3 : (exit env w a none).1.trace = (exitPublish env w a none).1.trace := by
    simp only [exit, hx]
    cases exitPublish env w a none with
    | mk w1 r => cases r <;> rfl
  have hst : (exit env w a none).1.statusOf a = (exitPublish env w a none).1.statusOf a := by
    simp [World.statusOf, (exit_acts_pub (env := env) hx none).1]
  have hn : NoneOfRaised K env w (exit env w a none).1 ↔ NoneOfRaised K env w (exitPublish env w a none).1 := by
    simp [NoneOfRaised, q3]
  rw [hst, hn, exitPublish_open hx ho]
  generalize hW : w.setAct a { x with defer := false } = W
  have hWa : W.acts a = some { x with defer := false } := by rw [← hW]; simp
  have hWt : W.trace = w.trace := by rw [← hW]; rfl
  have hws : W.statusOf a = w.statusOf a := by simp [World.statusOf, hWa, hx, Act.status]
  simp only [success, hWa]
  obtain ⟨h1, h2, h3⟩ := end_took (K := K) (env := env) hWa hK hb .success (endMsg { x with defer := false } none " succeeded") [] [] none none
  rw [noneOfRaised_after h1 hWt, ← hws]
  exact ⟨h2, h3⟩

end

theorem lastWrite_append (k : String) (d e : Dict) : lastWrite k (d ++ e) = (lastWrite k e).or (lastWrite k d) := by
  simp only [lastWrite, List.filter_append, List.getLast?_append]
  cases (e.filter fun p => p.1 = k).getLast? <;> simp

theorem statusOn_other {a : ActId} {it : Item} (h : it.ends a = false) (st : Status) : it.statusOn a st = st := by
  cases it with
  | enter b => rfl
  | exit b e =>
    simp only [Item.ends, decide_eq_false_iff_not] at h
    cases e <;> simp [Item.statusOn, h]
  | op o =>
    cases o with
    | success b m f kw => simp only [Item.ends, decide_eq_false_iff_not] at h; simp [Item.statusOn, h]
    | failure b m f kw => simp only [Item.ends, decide_eq_false_iff_not] at h; simp [Item.statusOn, h]
    | exception b c m f kw => simp only [Item.ends, decide_eq_false_iff_not] at h; cases c <;> simp [Item.statusOn, h]
    | _ => rfl

/-! ## The laws -/

section laws
variable {env : Env} {w w0 : World} {l : LogId} {lv : Int} {nm : String} {kw : Dict} {a : ActId}

/-- The item takes effect: it can describe the exception it records, if any, and no `on_begin` or `on_exception` method it calls raises. -/
def Item.Works (env : Env) (w : World) (a : ActId) (it : Item) : Prop :=
  it.Describable env w a ∧ NoneOfRaised [.begin, .exception] env w (stepItem env w it)

/-- **C07, exactly.**  Whatever sinks, note handlers and other foreign code do: an item takes the status of an action to what the rule says if
it can describe the exception it records, if any, and no `on_begin` or `on_exception` method called by it raises; otherwise the status is
what it was.  What other methods of sinks raise makes no difference. -/
theorem C07_exact (hno : env.NeedsExc) (hr : Reachable env w) (hh : w.held a = true) (it : Item) :
    (it.Works env w a → (stepItem env w it).statusOf a = (w.statusOf a).map (it.statusOn a)) ∧
    (¬ it.Works env w a → (stepItem env w it).statusOf a = w.statusOf a) := by
  obtain ⟨x, hx, hxh⟩ := held_iff.1 hh
  have ht := hr.transOK a x hx
  have hK : Kind.end_ ∉ [Kind.begin, .exception] := by decide
  have hb : Kind.begin ∈ [Kind.begin, .exception] := by decide
  have he : Kind.exception ∈ [Kind.begin, .exception] := by decide
  have hws : w.statusOf a = some x.status := by simp [World.statusOf, hx]
  by_cases hend : it.ends a = false
  · have hu := status_unchanged (env := env) hr hh it hend
    refine ⟨fun _ => ?_, fun _ => hu⟩
    rw [hu, hws, Option.map_some, statusOn_other hend]
  · rw [Bool.not_eq_false] at hend
    cases it with
    | enter b => cases hend
    | exit b e =>
      simp only [Item.ends, decide_eq_true_eq] at hend; subst hend
      cases e with
      | none =>
        cases ho : x.endEv with
        | some ev =>
          have hse : (stepItem env w (.exit b none)).statusOf b = w.statusOf b := by
            simp only [stepItem, hh, if_true]
            simp [World.statusOf, (exit_acts_pub (env := env) hx none).1, exitPublish_ended hx ho, hx, Act.status]
          refine ⟨fun _ => ?_, fun _ => hse⟩
          have : x.status ≠ .begin := by
            have := (hr.evInv.endKind b x ev hx ho).2.1
            simp only [Act.status, ho]
            rcases this with h | h | h <;> rw [h] <;> decide
          rw [hse, hws]
          simp [Item.statusOn, this]
        | none =>
          obtain ⟨h1, h2⟩ := exitNone_took (env := env) hx ho hK hb
          have hs : stepItem env w (.exit b none) = (exit env w b none).1 := by simp [stepItem, hh]
          have hsb : x.status = .begin := by simp [Act.status, ho]
          simp only [Item.Works, Item.Describable, true_and, hs]
          refine ⟨fun h => ?_, h2⟩
          rw [h1 h, hws]
          simp [Item.statusOn, hsb]
      | some e =>
        obtain ⟨h1, h2⟩ := exitExc_took (env := env) hx ht hK hb he e
        have hs : stepItem env w (.exit b (some e)) = (exit env w b (some e)).1 := by simp [stepItem, hh]
        have hd : Item.Describable env w b (.exit b (some e)) ↔ excEarly env x (some e) none = none := by
          rw [excEarly_none_iff]
          simp [Item.Describable, hx]
        simp only [Item.Works, hd, hs]
        refine ⟨fun h => ?_, h2⟩
        rw [h1 h.1 h.2, hws]
        simp [Item.statusOn]
    | op o =>
      cases o <;> first | cases hend | skip
      case success b m f kw =>
        simp only [Item.ends, decide_eq_true_eq] at hend; subst hend
        have hs : stepItem env w (.op (.success b m f kw)) = (end_ env w b .success (endMsg x m " succeeded") f kw none none).1 := by
          simp [stepItem, step, guard, hh, success, hx, ret]
        obtain ⟨-, h1, h2⟩ := end_took (env := env) hx hK hb .success (endMsg x m " succeeded") f kw none none
        simp only [Item.Works, Item.Describable, true_and, hs]
        refine ⟨fun h => ?_, h2⟩
        rw [h1 h, hws]
        simp [Item.statusOn]
      case failure b m f kw =>
        simp only [Item.ends, decide_eq_true_eq] at hend; subst hend
        have hs : stepItem env w (.op (.failure b m f kw)) = (end_ env w b .failure (endMsg x m " failed") f kw none none).1 := by
          simp [stepItem, step, guard, hh, failure, hx, ret]
        obtain ⟨-, h1, h2⟩ := end_took (env := env) hx hK hb .failure (endMsg x m " failed") f kw none none
        simp only [Item.Works, Item.Describable, true_and, hs]
        refine ⟨fun h => ?_, h2⟩
        rw [h1 h, hws]
        simp [Item.statusOn]
      case exception b c m f kw =>
        simp only [Item.ends, decide_eq_true_eq] at hend; subst hend
        have hs : stepItem env w (.op (.exception b c m f kw)) = (exception_ env w b c m f kw).1 := by
          simp [stepItem, step, guard, hh, ret]
        obtain ⟨-, h1, h2⟩ := exception_took (env := env) hx ht hK hb he c m f kw
        cases c with
        | none =>
          have hne : excEarly env x none m ≠ none := by
            simp only [excEarly]
            cases hi : env.excInfoErr none with
            | none => exact absurd hi hno
            | some err => simp
          have := h2 fun h => hne h.1
          rw [hs, this]
          exact ⟨fun _ => by rw [hws]; rfl, fun _ => rfl⟩
        | some e =>
          have hd : Item.Describable env w b (.op (.exception b (some e) m f kw)) ↔ excEarly env x (some e) m = none := by
            rw [excEarly_none_iff]
            simp [Item.Describable, hx]
          simp only [Item.Works, hd, hs]
          refine ⟨fun h => ?_, h2⟩
          rw [h1 h.1 h.2, hws]
          simp [Item.statusOn]

/-- **C07**, whatever foreign code does, for a history in which every status call on the action, and every exit of its block, works. -/
theorem C07_works_partial (hno : env.NeedsExc) (hr : Reachable env w)
    (hnew : step env w (.newAction l lv nm kw) = (w0, .newAct a)) (its : List Item)
    (hw : ∀ pre it post, its = pre ++ it :: post → it.ends a = true → it.Works env (run env w0 pre) a) :
    (run env w0 its).statusOf a = some (its.foldl (fun st it => it.statusOn a st) .begin) := by
  obtain ⟨x, hx⟩ := hr.isNew hnew
  have h0 : w0.statusOf a = some .begin := by simp [World.statusOf, hx.acts, Act.status, hx.endEv]
  have hh0 : w0.held a = true := held_iff.2 ⟨x, hx.acts, hx.handle⟩
  have hreach := hx.reach
  clear hnew hx
  generalize Status.begin = st at h0
  induction its generalizing w0 st with
  | nil => exact h0
  | cons it its ih =>
    obtain ⟨x', hx', hxh'⟩ := held_iff.1 hh0
    obtain ⟨y, hy, hl⟩ := life_item hno hreach hx' hxh' it
    refine ih (w0 := stepItem env w0 it) (st := it.statusOn a st) ?_ ?_ ?_ ?_
    · intro pre i post hi hi'
      exact hw (it :: pre) i post (by rw [hi]; rfl) hi'
    · exact held_iff.2 ⟨y, hy, (Act.fixed_handle hl.fixed).trans hxh'⟩
    · exact hreach.run [it]
    · by_cases he : it.ends a = true
      · rw [(C07_exact hno hreach hh0 it).1 (hw [] it its rfl he), h0]; rfl
      · obtain ⟨h1, h2⟩ := C07_exact (env := env) hno hreach hh0 it
        by_cases hwk : it.Works env w0 a
        · rw [h1 hwk, h0]; rfl
        · rw [h2 hwk, h0]
          rw [statusOn_other (by simpa using he)]

/-- The item stores its keywords: only an explicit `exception` call may fail to, if it cannot describe the exception or an `on_exception`
method raises. -/
def Item.Stores (env : Env) (w : World) (a : ActId) (it : Item) : Prop :=
  it.isExceptionOn a = true → it.Describable env w a ∧ NoneOfRaised [.exception] env w (stepItem env w it)

/-- **C09, exactly.**  Whatever foreign code does: an item stores what it writes, except that an explicit `exception` call that cannot describe
the exception, or one of whose `on_exception` methods raises, stores nothing.  An `on_begin` method that raises makes no difference. -/
theorem C09_exact (hno : env.NeedsExc) (hr : Reachable env w) (hh : w.held a = true) (it : Item) (k : String) :
    (it.Stores env w a → (stepItem env w it).dataOf a k = (lastWrite k (it.writesOn a)).or (w.dataOf a k)) ∧
    (¬ it.Stores env w a → (stepItem env w it).dataOf a k = w.dataOf a k) := by
  obtain ⟨x, hx, hxh⟩ := held_iff.1 hh
  have ht := hr.transOK a x hx
  by_cases hne : it.isExceptionOn a = false
  · obtain ⟨y, hy, hl⟩ := life_item hno hr hx hxh it
    have hd : y.data = x.data.update (it.writesOn a) := by simpa using hl.data (by simpa using hne)
    refine ⟨fun _ => ?_, fun h => absurd (fun g => by rw [hne] at g; cases g) h⟩
    simp only [World.dataOf, hy, hx, Option.bind_some, hd, Dict.get?_update]
  · rw [Bool.not_eq_false] at hne
    cases it with
    | enter b => cases hne
    | exit b e => cases hne
    | op o =>
      cases o <;> first | cases hne | skip
      case exception b c m f kw =>
        simp only [Item.isExceptionOn, decide_eq_true_eq] at hne; subst hne
        have hs : stepItem env w (.op (.exception b c m f kw)) = (exception_ env w b c m f kw).1 := by
          simp [stepItem, step, guard, hh, ret]
        have hst : Item.Stores env w b (.op (.exception b c m f kw)) ↔
            Item.Describable env w b (.op (.exception b c m f kw)) ∧ NoneOfRaised [.exception] env w (exception_ env w b c m f kw).1 := by
          simp [Item.Stores, Item.isExceptionOn, hs]
        rw [hst, hs]
        have he : Kind.exception ∈ [Kind.exception] := by decide
        have hwd : w.dataOf b k = x.data.get? k := by simp [World.dataOf, hx]
        rw [hwd]
        rcases exception_spec (env := env) hx c m f kw with ⟨err, h1, h2⟩ | ⟨h1, msg, ev, w1, hsx, ⟨err, hp, h2⟩ | ⟨hp, h2⟩⟩
        · rw [h2]
          have hd : w.tick.dataOf b k = x.data.get? k := hwd
          refine ⟨fun h => ?_, fun _ => hd⟩
          cases c with
          | none => exact hd
          | some e =>
            have : excEarly env x (some e) m = none := by
              rw [excEarly_none_iff]
              simpa [Item.Describable, hx] using h.1
            rw [h1] at this; cases this
        · rw [h2]
          have hn : ¬ NoneOfRaised [.exception] env w (publishExc env w1 x.logger ev).1 := by
            rw [noneOfRaised_after (ext_publishExc ..) hsx.trace, publishExc_raised _ he, hp]
            simp
          refine ⟨fun h => absurd h.2 hn, fun _ => ?_⟩
          simp [World.dataOf, publishExc_acts', hsx.acts]
        · have hx1 : (publishExc env w1 x.logger ev).1.acts b = some { x with excEvs := x.excEvs ++ [ev] } := by
            rw [publishExc_acts', hsx.acts]; simp
          have hn : NoneOfRaised [.exception] env w (exception_ env w b c m f kw).1 := by
            obtain ⟨t, g1, g2⟩ := noExc_end (env := env) (w := (publishExc env w1 x.logger ev).1) b .exception msg f kw (some (w.now env)) c
            have hx2 : Ext (publishExc env w1 x.logger ev).1 (exception_ env w b c m f kw).1 := by rw [h2]; exact ⟨t, g1.symm⟩
            refine (noneOfRaised_after ((ext_publishExc ..).trans hx2) hsx.trace).2
              ((noneOfRaised_trans (ext_publishExc ..) hx2).2 ⟨(publishExc_raised _ he _).2 hp, ?_⟩)
            rw [h2]
            refine noneOfRaised_of g1 ?_
            intro o ho s k' ev' hk h
            have := g2 o ho
            simp only [List.mem_singleton] at hk
            rw [h, hk] at this
            simp [Obs.excHook] at this
          cases c with
          | none => exact absurd h1 (by
              simp only [excEarly]
              cases hi : env.excInfoErr none with
              | none => exact absurd hi hno
              | some err => simp)
          | some e =>
            have hd : Item.Describable env w b (.op (.exception b (some e) m f kw)) := by
              have := excEarly_none_iff.1 h1
              simpa [Item.Describable, hx] using this
            refine ⟨fun _ => ?_, fun h => absurd ⟨hd, hn⟩ h⟩
            obtain ⟨y, hy, -, -, hyd, -⟩ := rec_end (env := env) hx1 ht .exception msg f kw (some (w.now env)) (some e) 0 (Nat.zero_le _)
              (by
                intro t ht
                refine ⟨w.ticks, Nat.zero_le _, ?_, ?_⟩
                · rw [publishExc_ticks, hsx.ticks]; omega
                · cases ht; rfl)
            rw [h2]
            simp only [World.dataOf, hy, Option.bind_some, hyd, Dict.get?_update, Item.writesOn, if_true]

/-- **C09**, whatever foreign code does, for a history in which every explicit `exception` call on the action stores its keywords. -/
theorem C09_stores_partial (hno : env.NeedsExc) (hr : Reachable env w)
    (hnew : step env w (.newAction l lv nm kw) = (w0, .newAct a)) (its : List Item) (k : String)
    (hw : ∀ pre it post, its = pre ++ it :: post → it.Stores env (run env w0 pre) a) :
    (run env w0 its).dataOf a k =
      (lastWrite k (its.flatMap (·.writesOn a))).or (if k = "reraise" ∨ k = "parent_action" then none else kw.get? k) := by
  have h0 := data_last_writer_any_partial hno hr hnew [] (by simp) k
  simp only [run, List.foldl_nil, List.flatMap_nil] at h0
  have hl : lastWrite k [] = none := rfl
  rw [hl, Option.none_or] at h0
  rw [← h0]
  obtain ⟨x, hx⟩ := hr.isNew hnew
  have hh0 : w0.held a = true := held_iff.2 ⟨x, hx.acts, hx.handle⟩
  have hreach := hx.reach
  clear hnew hx h0
  induction its generalizing w0 with
  | nil => rfl
  | cons it its ih =>
    obtain ⟨x', hx', hxh'⟩ := held_iff.1 hh0
    obtain ⟨y, hy, hlf⟩ := life_item hno hreach hx' hxh' it
    have := ih (w0 := stepItem env w0 it) (fun pre i post hi => hw (it :: pre) i post (by rw [hi]; rfl))
      (held_iff.2 ⟨y, hy, (Act.fixed_handle hlf.fixed).trans hxh'⟩) (hreach.run [it])
    rw [show run env w0 (it :: its) = run env (stepItem env w0 it) its from rfl, this,
      (C09_exact hno hreach hh0 it k).1 (hw [] it its rfl), List.flatMap_cons, lastWrite_append]
    rw [Option.or_assoc]

end laws

/-- **C07 is false of the code** when a sink raises: an `on_begin` method that raises keeps `success()` from taking effect on an action that
was not begun. -/
theorem C07_violated : ∃ (env : Env) (w w0 : World) (it : Item), env.NeedsExc ∧ Reachable env w ∧
    step env w (.newAction 0 20 "a" []) = (w0, .newAct 0) ∧ it = .op (.success 0 none [] []) ∧
    (run env w0 [it]).statusOf 0 = some .begin ∧ ¬ it.Works env w0 0 := by
  refine ⟨Sample.badSink 0 .begin, run (Sample.badSink 0 .begin) World.init Sample.setup, _, _, Sample.quiet_needs, ⟨_, rfl⟩, rfl, rfl,
    by decide, ?_⟩
  intro h
  have := (C07_exact (env := Sample.badSink 0 .begin) (a := 0)
    (w := run (Sample.badSink 0 .begin) World.init (Sample.setup ++ [Sample.mk "a"])) Sample.quiet_needs ⟨_, rfl⟩ (by decide) _).1 h
  revert this; decide

/-- **C09 is false of the code** when a sink raises: an `on_exception` method that raises keeps `exception(k=v)` from storing the value. -/
theorem C09_violated : ∃ (env : Env) (w w0 : World) (it : Item), env.NeedsExc ∧ Reachable env w ∧
    step env w (.newAction 0 20 "a" []) = (w0, .newAct 0) ∧ it = .op (.exception 0 (some Sample.boom) none [] [("k", .other 1)]) ∧
    lastWrite "k" (it.writesOn 0) = some (.other 1) ∧ (run env w0 [it]).dataOf 0 "k" = none := by
  refine ⟨Sample.badSink 0 .exception, run (Sample.badSink 0 .exception) World.init Sample.setup, _, _, Sample.quiet_needs, ⟨_, rfl⟩, rfl,
    rfl, by decide, by decide⟩

/-- Sinks that raise at other times do no harm: with one whose `on_end` raises, every call works. -/
example : ∃ w w0, Reachable (Sample.badSink 0 .end_) w ∧ step (Sample.badSink 0 .end_) w (.newAction 0 20 "a" []) = (w0, .newAct 0) ∧
    Item.Works (Sample.badSink 0 .end_) w0 0 (.op (.success 0 none [] [])) ∧
    (run (Sample.badSink 0 .end_) w0 [.op (.success 0 none [] [])]).statusOf 0 = some .success := by
  refine ⟨run (Sample.badSink 0 .end_) World.init Sample.setup, _, ⟨_, rfl⟩, rfl, ⟨trivial, ?_⟩, by decide⟩
  intro pre s k ev post hk _ _
  simp only [List.mem_cons, List.not_mem_nil, or_false] at hk
  rcases hk with rfl | rfl <;> simp [Sample.badSink]

end Verif
