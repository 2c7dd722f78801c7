import Verif.Spec.Fields
import Verif.Spec.Samples
import Verif.Spec.Actions
import Verif.Lemmas.Grow
import Verif.Model.Message
/-!
# C75, C76, C77: the built-in fields
-/
namespace Verif.Fields

open Verif.Sens (Res)
variable {env : Env} {w : World}

/-- C75: whenever an event is rendered, at once or later, a field has a value if what it is about has happened according to
the event itself.  (Levels have names, and the data map can be written as JSON.) -/
theorem C75_available (hr : Reachable env w) (n : Names) (hn : ∀ l, (n.upper (n.level l)).toList ≠ [])
    (hj : ∀ d, n.jsonOk d = true) {k : Kind} {e : Event} (he : (k, e) ∈ w.pub) (f : Field) (nd : Need) (hf : f.need = some nd)
    (ht : tells k e.status nd = true) : ∃ v, read n w e f = .ok v := by
  have hi := hr.hasInv
  obtain ⟨hk, hkx, x, hx, hl, hh⟩ := hr.evInv.pub k e he
  have hx' : w.acts e.act = some x := hx
  have hb : tells k e.status .begun = true → ∃ b, x.beginEv = some b := by
    intro h
    simp only [tells, decide_eq_true_eq] at h
    rcases h with rfl | rfl | rfl
    · obtain ⟨y, hy, h1⟩ := hi.begin e he
      have : w.acts e.act = some y := hy
      rw [hx'] at this; cases this
      exact ⟨e, h1⟩
    · obtain ⟨y, hy, h1, _⟩ := hi.fin e he
      have : w.acts e.act = some y := hy
      rw [hx'] at this; cases this
      exact Option.isSome_iff_exists.1 h1
    · obtain ⟨y, hy, h1, _⟩ := hi.com e he
      have : w.acts e.act = some y := hy
      rw [hx'] at this; cases this
      exact Option.isSome_iff_exists.1 h1
  have hen : tells k e.status .ended = true → ∃ b, x.endEv = some b := by
    intro h
    simp only [tells, decide_eq_true_eq] at h
    rcases h with rfl | rfl
    · obtain ⟨y, hy, _, h1, _⟩ := hi.fin e he
      have : w.acts e.act = some y := hy
      rw [hx'] at this; cases this
      exact Option.isSome_iff_exists.1 h1
    · obtain ⟨y, hy, _, h1⟩ := hi.com e he
      have : w.acts e.act = some y := hy
      rw [hx'] at this; cases this
      exact Option.isSome_iff_exists.1 h1
  have hex : tells k e.status .failed = true → ∃ b, x.excEvs.getLast? = some b := by
    intro h
    simp only [tells, decide_eq_true_eq] at h
    obtain ⟨rfl, hs⟩ := h
    obtain ⟨y, hy, _, _, h1⟩ := hi.fin e he
    have : w.acts e.act = some y := hy
    rw [hx'] at this; cases this
    exact ⟨_, List.getLast?_eq_getLast_of_ne_nil (h1 hs)⟩
  unfold read
  rw [hx']
  cases f <;> simp only [Field.need, Option.some.injEq, reduceCtorEq] at hf <;> subst hf <;> simp only [getter]
  case levelChar =>
    have := hn x.level
    split
    · contradiction
    · exact ⟨_, rfl⟩
  case dataMap => rw [if_pos (hj _)]; exact ⟨_, rfl⟩
  case beginMessage => obtain ⟨b, h⟩ := hb ht; rw [h]; exact ⟨_, rfl⟩
  case beginMessageRaw => obtain ⟨b, h⟩ := hb ht; rw [h]; exact ⟨_, rfl⟩
  case beginTimestamp => obtain ⟨b, h⟩ := hb ht; rw [h]; exact ⟨_, rfl⟩
  case isoBegin => obtain ⟨b, h⟩ := hb ht; rw [h]; exact ⟨_, rfl⟩
  case endMessage => obtain ⟨b, h⟩ := hen ht; rw [h]; exact ⟨_, rfl⟩
  case endMessageRaw => obtain ⟨b, h⟩ := hen ht; rw [h]; exact ⟨_, rfl⟩
  case endTimestamp => obtain ⟨b, h⟩ := hen ht; rw [h]; exact ⟨_, rfl⟩
  case isoEnd => obtain ⟨b, h⟩ := hen ht; rw [h]; exact ⟨_, rfl⟩
  case excType => obtain ⟨b, h⟩ := hex ht; rw [h]; exact ⟨_, rfl⟩
  case excMessage => obtain ⟨b, h⟩ := hex ht; rw [h]; exact ⟨_, rfl⟩
  case excTbStr => obtain ⟨b, h⟩ := hex ht; rw [h]; exact ⟨_, rfl⟩
  case excTbList => obtain ⟨b, h⟩ := hex ht; rw [h]; exact ⟨_, rfl⟩
  all_goals exact ⟨_, rfl⟩

/-- C75: the identifying fields of a published event are the event's own, and the fields of the beginning are those of the one
begin event published for its action. -/
theorem C75_values (hr : Reachable env w) (n : Names) {k : Kind} {e : Event} (he : (k, e) ∈ w.pub) :
    read n w e .actionId = .ok (.num e.act) ∧ read n w e .loggerId = .ok (.num e.logger) ∧
    read n w e .loggerName = .ok (.text (n.logger e.logger)) ∧ read n w e .statusStr = .ok (.text (statusWord e.status)) ∧
    ∀ b, (Kind.begin, b) ∈ w.pub → b.act = e.act →
      read n w e .beginTimestamp = .ok (.time b.etime) ∧ read n w e .beginMessageRaw = .ok (.text b.msg) ∧
      read n w e .beginMessage = .ok (.message b) := by
  obtain ⟨hk, hkx, x, hx, hl, hh⟩ := hr.evInv.pub k e he
  have hx' : w.acts e.act = some x := hx
  unfold read
  rw [hx']
  refine ⟨rfl, by rw [hl]; rfl, by rw [hl]; rfl, rfl, ?_⟩
  intro b hb hba
  obtain ⟨y, hy, h1⟩ := hr.hasInv.begin b hb
  have : w.acts b.act = some y := hy
  rw [hba, hx'] at this; cases this
  simp only [getter, h1]
  exact ⟨rfl, rfl, rfl⟩

/-- C76: a lasting field that has a value keeps it, whatever happens before the event is rendered (again). -/
theorem C76_lasting_partial (hr : Reachable env w) (n : Names) {k : Kind} {e : Event} (he : (k, e) ∈ w.pub) (its : List Item)
    (f : Field) (hf : f.lasting = true) (v : FVal) (hv : read n w e f = .ok v) : read n (run env w its) e f = .ok v := by
  obtain ⟨_, _, x, hx, _⟩ := hr.evInv.pub k e he
  have hx' : w.acts e.act = some x := hx
  obtain ⟨y, hy, g⟩ := hr.grows its hx'
  have hfix := g.fixed
  simp only [Act.fixed, Prod.mk.injEq] at hfix
  obtain ⟨f1, f2, f3, f4, f5, f6⟩ := hfix
  unfold read at hv ⊢
  rw [hx'] at hv
  rw [hy]
  have hb : ∀ (h : Event → FVal), attr x.beginEv h = .ok v → attr y.beginEv h = .ok v := by
    intro h hv
    cases hbe : x.beginEv with
    | none => rw [hbe] at hv; simp [attr] at hv
    | some b => rw [g.begun b hbe]; rw [hbe] at hv; exact hv
  cases f <;> simp only [Field.lasting, Bool.false_eq_true] at hf <;> simp only [getter, f1, f2, f3] at hv ⊢
  case beginMessage => exact hb _ hv
  case beginMessageRaw => exact hb _ hv
  case beginTimestamp => exact hb _ hv
  case isoBegin => exact hb _ hv
  all_goals exact hv

theorem par_run (hr : Reachable env w) (its : List Item) {a : ActId} (ha : (w.acts a).isSome) :
    (run env w its).par a = w.par a := by
  obtain ⟨x, hx⟩ := Option.isSome_iff_exists.1 ha
  obtain ⟨y, hy, g⟩ := hr.grows its hx
  have := g.fixed
  simp only [Act.fixed, Prod.mk.injEq] at this
  simp [World.par, hx, hy, this.2.2.2.2.1]

theorem depthLoop_congr {p q : ActId → Option ActId} (P : ActId → Prop) (hpq : ∀ a, P a → p a = q a)
    (hP : ∀ a b, P a → p a = some b → P b) (a : ActId) (i : Nat) (ha : P a) : depthLoop p a i = depthLoop q a i := by
  unfold depthLoop
  rw [← hpq a ha]
  cases hb : p a with
  | none => rfl
  | some b =>
    dsimp only
    split
    · exact depthLoop_congr P hpq hP b (i + 1) (hP a b ha hb)
    · rfl
termination_by 500 - i

/-- C76: so does the depth.  (`parent_action` arguments are actions that exist.) -/
theorem C76_depth_partial (hr : Reachable env w) (hp : ∀ a b, w.par a = some b → (w.acts b).isSome) (n : Names) {k : Kind}
    {e : Event} (he : (k, e) ∈ w.pub) (its : List Item) :
    read n (run env w its) e .parentDepth = read n w e .parentDepth ∧
      read n (run env w its) e .parentDepthIndent = read n w e .parentDepthIndent := by
  obtain ⟨_, _, x, hx, _⟩ := hr.evInv.pub k e he
  have hx' : w.acts e.act = some x := hx
  obtain ⟨y, hy, g⟩ := hr.grows its hx'
  have : parentDepth (run env w its).par e.act = parentDepth w.par e.act := by
    symm
    exact depthLoop_congr (fun a => (w.acts a).isSome) (fun a ha => (par_run hr its ha).symm) (fun a b _ h => hp a b h) _ _
      (by simp [hx'])
  unfold read
  rw [hx', hy]
  simp only [getter, this, and_self]

/-! ## Witnesses -/

open Verif.Sample

/-- Names for the samples. -/
def names : Names := ⟨fun _ => "log", fun _ => "info", fun _ => "INFO", 0, fun _ => true⟩

/-- An asynchronous logger; an action succeeds with data. -/
def before : World := run quiet World.init (setupAsync ++ [mk "a", .op (.success 0 none [] [("k", .other 1)])])

/-- The end event in the queue. -/
def endEvent : Event := ⟨2, 0, 0, .end_, .success, 20, "a succeeded", [], none⟩

/-- Then the action is ended again, in a with block, with other data, before the queue is flushed. -/
def later : List Item := [.enter 0, .op (.failure 0 (some "broken") [] [("k", .other 2)]), .exit 0 none]

/-- C76 fails for the other fields: the end event in the queue changes its data, its end time and message, its duration and
its status character before it reaches a sink. -/
theorem C76_violated : (Kind.end_, endEvent) ∈ before.pub ∧
    read names before endEvent .dataMapRepr ≠ read names (run quiet before later) endEvent .dataMapRepr ∧
    read names before endEvent .endTimestamp ≠ read names (run quiet before later) endEvent .endTimestamp ∧
    read names before endEvent .endMessageRaw ≠ read names (run quiet before later) endEvent .endMessageRaw ∧
    read names before endEvent .durationS ≠ read names (run quiet before later) endEvent .durationS ∧
    read names before endEvent .statusChar ≠ read names (run quiet before later) endEvent .statusChar := by decide +kernel

/-- An action that fails by an exception in its with block, and then again by another. -/
def failed : World := run quiet World.init (setupAsync ++ [mk "a", .enter 0, .exit 0 (some boom)])
def failedEvent : Event := ⟨3, 0, 0, .end_, .exception, 30, "raised", [], some boom⟩
def again : List Item := [.enter 0, .exit 0 (some ⟨.ordinary, 78⟩)]

/-- C76: the fields of `C76_lasting_partial` and `C76_depth_partial` are all that last.  Each other field that ever has a value
(`warn_char` never has) changes the value it has for a published event in some history. -/
theorem C76_changing (f : Field) (h : f.lasting = false) (h1 : f ≠ .warnChar) (h2 : f ≠ .eventMessageRaw)
    (h3 : f ≠ .parentDepth) (h4 : f ≠ .parentDepthIndent) :
    ∃ (env : Env) (w : World) (its : List Item) (k : Kind) (e : Event) (v v' : FVal), Reachable env w ∧ (k, e) ∈ w.pub ∧
      read names w e f = .ok v ∧ read names (run env w its) e f = .ok v' ∧ v ≠ v' := by
  have key : ∀ (w : World) (its : List Item) (e : Event) (hr : Reachable quiet w) (he : (Kind.end_, e) ∈ w.pub),
      (∃ v v', read names w e f = .ok v ∧ read names (run quiet w its) e f = .ok v' ∧ v ≠ v') →
      ∃ (env : Env) (w : World) (its : List Item) (k : Kind) (e : Event) (v v' : FVal), Reachable env w ∧ (k, e) ∈ w.pub ∧
        read names w e f = .ok v ∧ read names (run env w its) e f = .ok v' ∧ v ≠ v' := by
    rintro w its e hr he ⟨v, v', h⟩
    exact ⟨quiet, w, its, .end_, e, v, v', hr, he, h⟩
  have hb : (Kind.end_, endEvent) ∈ before.pub := C76_violated.1
  have hf : (Kind.end_, failedEvent) ∈ failed.pub := by decide +kernel
  have kb := key before later endEvent ⟨_, rfl⟩ hb
  have kf := key failed again failedEvent ⟨_, rfl⟩ hf
  cases f <;> simp only [Field.lasting, Bool.true_eq_false, ne_eq, not_true_eq_false] at h h1 h2 h3 h4
  case statusChar => exact kb ⟨.text "s", .text "S", by decide +kernel, by decide +kernel, by decide⟩
  case dataMap => exact kb ⟨.dict [("k", .other 1)], .dict [("k", .other 2)], by decide +kernel, by decide +kernel, by decide⟩
  case dataMapRepr => exact kb ⟨.dict [("k", .other 1)], .dict [("k", .other 2)], by decide +kernel, by decide +kernel, by decide⟩
  case endMessage =>
    exact kb ⟨.message endEvent, .message ⟨3, 0, 0, .end_, .failure, 30, "broken", [], none⟩, by decide +kernel,
      by decide +kernel, by decide⟩
  case endMessageRaw => exact kb ⟨.text "a succeeded", .text "broken", by decide +kernel, by decide +kernel, by decide⟩
  case endTimestamp => exact kb ⟨.time 20, .time 30, by decide +kernel, by decide +kernel, by decide⟩
  case isoEnd v => exact kb ⟨.time 20, .time 30, by cases v <;> decide +kernel, by cases v <;> decide +kernel, by decide⟩
  case excType => exact kf ⟨.exc (some boom), .exc (some ⟨.ordinary, 78⟩), by decide +kernel, by decide +kernel, by decide⟩
  case excMessage => exact kf ⟨.exc (some boom), .exc (some ⟨.ordinary, 78⟩), by decide +kernel, by decide +kernel, by decide⟩
  case excTbStr => exact kf ⟨.exc (some boom), .exc (some ⟨.ordinary, 78⟩), by decide +kernel, by decide +kernel, by decide⟩
  case excTbList => exact kf ⟨.exc (some boom), .exc (some ⟨.ordinary, 78⟩), by decide +kernel, by decide +kernel, by decide⟩
  all_goals exact kb ⟨.span 0, .span 10, by decide +kernel, by decide +kernel, by decide⟩

/-- C77 fails: `warn_char` never has a value, for a warning or for anything else. -/
theorem C77_warn_char_violated (n : Names) (w : World) (e : Event) : read n w e .warnChar = .exc := by
  unfold read
  split <;> rfl

/-- C77 fails: `event_message_raw` always shows the rendered message. -/
theorem C77_raw_violated (hr : Reachable env w) (n : Names) {k : Kind} {e : Event} (he : (k, e) ∈ w.pub) :
    read n w e .eventMessageRaw = .ok (.message e) := by
  obtain ⟨hk, hkx, x, hx, hl, hh⟩ := hr.evInv.pub k e he
  have hx' : w.acts e.act = some x := hx
  unfold read
  rw [hx']
  rfl

/-- C77: the other raw messages are raw: `begin_message_raw` of every event of the action, and `end_message_raw` of its last
end event. -/
theorem C77_raw_partial (hr : Reachable env w) (n : Names) {k : Kind} {e : Event} (he : (k, e) ∈ w.pub) :
    (∀ b, (Kind.begin, b) ∈ w.pub → b.act = e.act → read n w e .beginMessageRaw = .ok (.text b.msg)) ∧
    (w.endOf e.act = some e → read n w e .endMessageRaw = .ok (.text e.msg) ∧ read n w e .endTimestamp = .ok (.time e.etime)) := by
  refine ⟨fun b hb hba => ((C75_values hr n he).2.2.2.2 b hb hba).2.1, ?_⟩
  intro h
  obtain ⟨hk, hkx, x, hx, hl, hh⟩ := hr.evInv.pub k e he
  have hx' : w.acts e.act = some x := hx
  have : x.endEv = some e := by simpa [World.endOf, hx'] using h
  unfold read
  rw [hx']
  simp only [getter, this]
  exact ⟨rfl, rfl⟩

theorem before_reachable : Reachable quiet before := ⟨_, rfl⟩

/-- The end event in the queue meets the hypotheses of C75, C76 and C77, before and after. -/
example : (∃ v, read names before endEvent (.isoEnd .plain) = .ok v) ∧
    read names (run quiet before later) endEvent .beginTimestamp = read names before endEvent .beginTimestamp ∧
    read names (run quiet before later) endEvent .parentDepth = read names before endEvent .parentDepth ∧
    read names before endEvent .endMessageRaw = .ok (.text "a succeeded") := by
  have he : (Kind.end_, endEvent) ∈ before.pub := C76_violated.1
  have hb : read names before endEvent .beginTimestamp = .ok (.time 20) := by decide +kernel
  refine ⟨C75_available before_reachable names (fun _ => by show "INFO".toList ≠ []; decide) (fun _ => rfl) he _ _ rfl rfl, ?_, ?_, ?_⟩
  · rw [hb]
    exact C76_lasting_partial before_reachable names he later _ rfl _ hb
  · refine (C76_depth_partial before_reachable ?_ names he later).1
    intro a b h
    have h3 : before.nextId = 3 := by decide +kernel
    have h0 : ∀ a < 3, before.par a = none := by decide +kernel
    have ha : a < 3 := by
      cases hx : before.acts a with
      | none => simp [World.par, hx] at h
      | some x => exact h3 ▸ before_reachable.idInv.actLt a x hx
    rw [h0 a ha] at h; cases h
  · exact ((C77_raw_partial before_reachable names he).2 (by decide +kernel)).1

/-- An exception recorded in a with block, with a warning before: the exception fields have values for the end event. -/
example : ∃ e, (Kind.end_, e) ∈ (run quiet World.init (setup ++ [mk "a", .enter 0, .op (.warn 0 "careful" [] []),
      .exit 0 (some boom)])).pub ∧ ∃ v, read names (run quiet World.init (setup ++ [mk "a", .enter 0,
        .op (.warn 0 "careful" [] []), .exit 0 (some boom)])) e .excType = .ok v :=
  ⟨⟨4, 0, 0, .end_, .exception, 40, "raised", [], some boom⟩, by decide +kernel,
    C75_available ⟨_, rfl⟩ names (fun _ => by show "INFO".toList ≠ []; decide) (fun _ => rfl) (k := .end_) (by decide +kernel) _ _ rfl rfl⟩

example := C75_values before_reachable names C76_violated.1

example := C76_changing .endTimestamp rfl (by decide) (by decide) (by decide) (by decide)

end Verif.Fields
