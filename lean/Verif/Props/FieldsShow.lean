import Verif.Props.Fields
import Verif.Props.Created
import Verif.Props.Depth
/-!
# C77: what the built-in fields show

Each field against the calls that were made: the one that created the action, whether its with block was entered, the end
and exception last recorded.
-/
namespace Verif.Fields

open Verif.Sens (Res)
variable {env : Env} {w w0 : World} {a : ActId} {l : LogId} {lv : Int} {nm : String} {kw : Dict}

/-- The first letter of a word, as upper or lower case. -/
def initialUpper (s : String) : String := String.ofList ((s.toList.head?.map Char.toUpper).toList)
def initialLower (s : String) : String := String.ofList ((s.toList.head?.map Char.toLower).toList)

/-- **C77, identity.**  `logger.info(name, ...)` made action `a` with level `lv`.  In every event published about it, whenever
it is rendered, the fields for action, level and logger show the arguments of that call, the time since import is counted
from the event's own time, and the callpoint is the action's. -/
theorem C77_identity (hr : Reachable env w) (hnew : step env w (.newAction l lv nm kw) = (w0, .newAct a)) (its : List Item)
    (n : Names) {k : Kind} {e : Event} (_ : (k, e) ∈ (run env w0 its).pub) (ha : e.act = a) :
    let v := read n (run env w0 its) e
    v .actionName = .ok (.text nm) ∧ v .actionId = .ok (.num a) ∧ v .actionGuid = .ok (.guid a) ∧
    v .loggerId = .ok (.num l) ∧ v .loggerName = .ok (.text (n.logger l)) ∧
    v .levelNumber = .ok (.num lv) ∧ v .levelName = .ok (.text (n.level lv)) ∧
    v .levelNameUpper = .ok (.text (n.upper (n.level lv))) ∧
    (∀ c r, (n.upper (n.level lv)).toList = c :: r → v .levelChar = .ok (.text (String.ofList [c]))) ∧
    v .statusStr = .ok (.text (statusWord e.status)) ∧ v .eventMessage = .ok (.message e) ∧
    v .importDeltaS = .ok (.span (e.etime - n.importTime)) ∧ v .importDeltaMs = .ok (.span (e.etime - n.importTime)) ∧
    (∀ f ∈ [Field.moduleName, .modulePath, .funcName, .lineNumber], v f = .ok (.callpoint a)) ∧ v .processId = .ok .pid := by
  obtain ⟨x, hx, h1, h2, h3, _⟩ := C81_created hr hnew its
  subst ha
  simp only [read, hx, getter, h1, h2, h3, List.mem_cons, List.not_mem_nil, or_false, true_and, forall_eq_or_imp,
    forall_eq, and_true]
  refine ⟨?_, by rw [statusText_eq]⟩
  intro c r hc
  rw [hc]

/-- **C77, beginning.**  The begin fields show the one begin event published for the action. -/
theorem C77_begin (hr : Reachable env w) (n : Names) {k : Kind} {e b : Event} (he : (k, e) ∈ w.pub)
    (hb : (Kind.begin, b) ∈ w.pub) (hba : b.act = e.act) :
    read n w e .beginMessage = .ok (.message b) ∧ read n w e .beginMessageRaw = .ok (.text b.msg) ∧
    read n w e .beginTimestamp = .ok (.time b.etime) ∧ ∀ v, read n w e (.isoBegin v) = .ok (.time b.etime) := by
  obtain ⟨_, _, x, hx, _⟩ := hr.evInv.pub k e he
  have hx' : w.acts e.act = some x := hx
  obtain ⟨y, hy, h1⟩ := hr.hasInv.begin b hb
  have : w.acts b.act = some y := hy
  rw [hba, hx'] at this; cases this
  simp only [read, hx', getter, h1]
  exact ⟨rfl, rfl, rfl, fun _ => rfl⟩

/-- **C77, end.**  The end fields show the end the action has, and the duration fields the time from its beginning to that
end. -/
theorem C77_end (n : Names) {e d : Event} (hd : w.endOf e.act = some d) :
    read n w e .endMessage = .ok (.message d) ∧ read n w e .endMessageRaw = .ok (.text d.msg) ∧
    read n w e .endTimestamp = .ok (.time d.etime) ∧ (∀ v, read n w e (.isoEnd v) = .ok (.time d.etime)) ∧
    ∀ b, w.beginOf e.act = some b → ∀ f ∈ [Field.durationS, .durationMs, .durationUs, .durationAuto],
      read n w e f = .ok (.span (d.etime - b.etime)) := by
  cases hx : w.acts e.act with
  | none => rw [World.endOf, hx] at hd; cases hd
  | some x =>
    have h1 : x.endEv = some d := by simpa [World.endOf, hx] using hd
    simp only [read, hx, getter, h1]
    refine ⟨rfl, rfl, rfl, fun _ => rfl, ?_⟩
    intro b hb f hf
    have h2 : x.beginEv = some b := by simpa [World.beginOf, hx] using hb
    simp only [List.mem_cons, List.not_mem_nil, or_false] at hf
    rcases hf with rfl | rfl | rfl | rfl <;> simp [Act.duration, h1, h2]

/-- **C77, a published end.**  Rendered as soon as it is published, when it is the end the action has, an end event shows its
own message and time as those of the end, and as duration the time since the begin event published for the action. -/
theorem C77_end_published (hr : Reachable env w) (n : Names) {e b : Event} (he : (Kind.end_, e) ∈ w.pub)
    (hlast : w.endOf e.act = some e) (hb : (Kind.begin, b) ∈ w.pub) (hba : b.act = e.act) :
    read n w e .endMessage = .ok (.message e) ∧ (∀ v, read n w e (.isoEnd v) = .ok (.time e.etime)) ∧
    read n w e .durationS = .ok (.span (e.etime - b.etime)) := by
  obtain ⟨h1, _, _, h4, h5⟩ := C77_end n hlast
  refine ⟨h1, h4, h5 b ?_ _ (by simp)⟩
  obtain ⟨y, hy, h1⟩ := hr.hasInv.begin b hb
  have : w.acts b.act = some y := hy
  rw [← hba, World.beginOf, this]
  exact h1

/-- **C77, unfinished.**  The duration of an action without an end is shown as 0. -/
theorem C77_unfinished (n : Names) {e : Event} (hx : (w.acts e.act).isSome) (hd : w.endOf e.act = none) :
    ∀ f ∈ [Field.durationS, .durationMs, .durationUs, .durationAuto], read n w e f = .ok (.span 0) := by
  obtain ⟨x, hx⟩ := Option.isSome_iff_exists.1 hx
  have h1 : x.endEv = none := by simpa [World.endOf, hx] using hd
  intro f hf
  simp only [List.mem_cons, List.not_mem_nil, or_false] at hf
  rcases hf with rfl | rfl | rfl | rfl <;> simp [read, hx, getter, Act.duration, h1]

/-- **C77, exceptions.**  Once a call has recorded exception `exc` on the action (`RecordsException`, shown by C83 for
`act.exception()` and for with blocks left by an exception), the exception fields of its events show that one, also if others
were recorded before. -/
theorem C77_exception (n : Names) {w' : World} {exc : Exc} (h : RecordsException env a exc w w') {e : Event} (ha : e.act = a) :
    ∀ f ∈ [Field.excType, .excMessage, .excTbStr, .excTbList], read n w' e f = .ok (.exc (some exc)) := by
  obtain ⟨x, L, ev, y, t1, t2, _, _, _, _, _, _, _, hinfo, hy, hexc, _⟩ := h
  subst ha
  intro f hf
  simp only [List.mem_cons, List.not_mem_nil, or_false] at hf
  rcases hf with rfl | rfl | rfl | rfl <;> simp [read, hy, getter, hexc, attr, hinfo]

/-- The status of a published end event. -/
theorem end_status (hr : Reachable env w) {e : Event} (he : (Kind.end_, e) ∈ w.pub) :
    e.status = .success ∨ e.status = .failure ∨ e.status = .exception := by
  have key : IdInv w.core ∧ EvInv w.core ∧ ∀ e, (Kind.end_, e) ∈ w.core.pub →
      e.status = .success ∨ e.status = .failure ∨ e.status = .exception := by
    refine hr.inv (P := fun c => IdInv c ∧ EvInv c ∧ ∀ e, (Kind.end_, e) ∈ c.pub →
      e.status = .success ∨ e.status = .failure ∨ e.status = .exception) (fun c d h s => ?_)
      ⟨idInv_init, evInv_init, by simp [World.core, World.init]⟩
    refine ⟨idInv_step h.1 s, evInv_step h.1 h.2.1 s, ?_⟩
    have old := h.2.2
    have hev := h.2.1
    cases s with
    | newAct => exact old
    | upd => exact old
    | begin => intro e' hm; exact old e' (by simpa using hm)
    | warn => intro e' hm; exact old e' (by simpa using hm)
    | exc => exact old
    | fin => exact old
    | pubEnd b y e' hy hh hend =>
      intro e'' hm
      rcases List.mem_append.1 hm with hm | hm
      · exact old e'' hm
      · rw [List.mem_singleton] at hm; cases hm
        exact (hev.endKind b y e' hy hend).2.1
    | comment => intro e' hm; exact old e' (by simpa using hm)
  exact key.2.2 e he

/-- **C77, status character.**  For an end event: the first letter of its status, in upper case exactly if the action's with
block had been entered. -/
theorem C77_status_char (hno : env.NeedsExc) (hr : Reachable env w)
    (hnew : step env w (.newAction l lv nm kw) = (w0, .newAct a)) (its : List Item) (n : Names) {e : Event}
    (he : (Kind.end_, e) ∈ (run env w0 its).pub) (ha : e.act = a) :
    read n (run env w0 its) e .statusChar =
      .ok (.text (open Classical in if Item.enter a ∈ its then initialUpper (statusWord e.status)
        else initialLower (statusWord e.status))) := by
  obtain ⟨x, hx⟩ := hr.isNew hnew
  obtain ⟨y, hy, h⟩ := life_run hno hx.reach hx.acts hx.handle its
  have hr' : Reachable env (run env w0 its) := hx.reach.run its
  have hk := (hr'.evInv.pub .end_ e he).1
  subst ha
  have hcase := end_status hr' he
  have ht : y.isTrans = true ↔ Item.enter e.act ∈ its := by
    rw [h.trans, hx.isTrans]; simp
  simp only [read, hy, getter, statusChar, hk]
  by_cases hin : Item.enter e.act ∈ its
  · rw [if_pos hin, ht.2 hin]
    rcases hcase with h | h | h <;> rw [h] <;> decide
  · rw [if_neg hin]
    have hf : y.isTrans = false := by
      cases hyt : y.isTrans with
      | false => rfl
      | true => exact absurd (ht.1 hyt) hin
    rw [hf]
    rcases hcase with h | h | h <;> rw [h] <;> decide

/-- **C77, status characters of the other events.** -/
theorem C77_status_char_other (hr : Reachable env w) (n : Names) {k : Kind} {e : Event} (he : (k, e) ∈ w.pub) :
    (k = .begin → read n w e .statusChar = .ok (.text "b")) ∧ (k = .warn → read n w e .statusChar = .ok (.text "W")) ∧
    (k = .comment → read n w e .statusChar = .ok (.text "#")) := by
  obtain ⟨hk, _, x, hx, _⟩ := hr.evInv.pub k e he
  have hx' : w.acts e.act = some x := hx
  simp only [read, hx', getter, statusChar, hk]
  refine ⟨?_, ?_, ?_⟩ <;> rintro rfl <;> rfl

/-- **C77, depth.**  Both depth fields show the number of ancestors, up to 500. -/
theorem C77_depth (n : Names) {e : Event} (hx : (w.acts e.act).isSome) (d : Nat) (h : Climbs w.par d e.act)
    (hmax : ¬ Climbs w.par (d + 1) e.act) :
    read n w e .parentDepth = .ok (.num (min 500 d : Nat)) ∧ read n w e .parentDepthIndent = .ok (.num (min 500 d : Nat)) := by
  obtain ⟨x, hx⟩ := Option.isSome_iff_exists.1 hx
  simp only [read, hx, getter, parent_depth_eq w.par e.act d h hmax, and_self]

/-- **C77, data.**  The data fields show the data map the action has. -/
theorem C77_data (n : Names) {e : Event} {x : Act} (hx : w.acts e.act = some x) (hj : n.jsonOk x.data = true) :
    read n w e .dataMapRepr = .ok (.dict x.data) ∧ read n w e .dataMap = .ok (.dict x.data) ∧
    ∀ k, w.dataOf e.act k = x.data.get? k := by
  simp [read, hx, getter, hj, World.dataOf]

/-! ### Concrete cases -/
open Verif.Sample

/-- An action in another one: entered, warned, left by an exception. -/
def shown : List Item := [.enter 0, mk "inner", .enter 2, .op (.warn 2 "careful" [] [("k", .other 1)]), .exit 2 (some boom)]
def shownW : World := run quiet World.init (setup ++ [mk "a"])

example : (run quiet shownW shown).pub.map (fun p => (p.1, p.2.act)) =
    [(.begin, 0), (.begin, 2), (.warn, 2), (.end_, 2)] := by decide +kernel
example : ((run quiet shownW shown).pub.getLast?).map (fun p => (p.1, p.2.status)) = some (.end_, .exception) := by decide +kernel

/-- Its fields. -/
example : ((run quiet shownW shown).pub.getLast?).map (fun p => [read names (run quiet shownW shown) p.2 .statusChar,
      read names (run quiet shownW shown) p.2 .parentDepth, read names (run quiet shownW shown) p.2 .excType,
      read names (run quiet shownW shown) p.2 .actionName]) =
    some [.ok (.text "E"), .ok (.num 1), .ok (.exc (some boom)), .ok (.text "inner")] := by decide +kernel

/-- The hypotheses of `C77_identity` and `C77_status_char` for the outer action. -/
example : step quiet (run quiet World.init setup) (.newAction 0 20 "a" []) = (shownW, .newAct 0) ∧
    (run quiet shownW shown).pub.any (fun p => decide (p.2.act = 0)) = true := by
  constructor
  · rfl
  · decide +kernel

/-- The events of the inner action. -/
def innerBegin : Event := ⟨3, 2, 0, .begin, .begin, 30, "inner beginning", [], none⟩
def innerWarn : Event := ⟨4, 2, 0, .warn, .warning, 40, "careful", [], none⟩
def innerEnd : Event := ⟨6, 2, 0, .end_, .exception, 50, "raised", [], some boom⟩

/-- The inner action is made by the second item of `shown`. -/
theorem shown_new : step quiet (run quiet shownW [.enter 0]) (.newAction 0 20 "inner" []) =
    (run quiet shownW [.enter 0, mk "inner"], .newAct 2) := rfl

theorem shown_inner : run quiet shownW shown = run quiet (run quiet shownW [.enter 0, mk "inner"])
    [.enter 2, .op (.warn 2 "careful" [] [("k", .other 1)]), .exit 2 (some boom)] := rfl

theorem shown_reachable : Reachable quiet (run quiet shownW shown) := ⟨_, by rw [shownW, ← run_append]⟩

example := C77_begin shown_reachable names (k := .end_) (e := innerEnd) (b := innerBegin) (by decide +kernel)
  (by decide +kernel) rfl

example := C77_identity (env := quiet) (w := run quiet shownW [.enter 0]) ⟨_, by rw [shownW, ← run_append]⟩ shown_new
  [.enter 2, .op (.warn 2 "careful" [] [("k", .other 1)]), .exit 2 (some boom)] names (k := .end_) (e := innerEnd)
  (by decide +kernel) rfl

example := C77_end (w := run quiet shownW shown) names (e := innerWarn) (d := innerEnd) (by decide +kernel)

example := C77_end_published shown_reachable names (e := innerEnd) (b := innerBegin) (by decide +kernel) (by decide +kernel)
  (by decide +kernel) rfl

/-- The outer action has not ended. -/
example := C77_unfinished (w := run quiet shownW shown) names (e := ⟨1, 0, 0, .begin, .begin, 20, "a beginning", [], none⟩)
  (by decide +kernel) (by decide +kernel)

example : read names (run quiet shownW shown) innerEnd .statusChar = .ok (.text (initialUpper "exception")) := by
  rw [shown_inner, C77_status_char (env := quiet) quiet_needs (w := run quiet shownW [.enter 0])
    ⟨_, by rw [shownW, ← run_append]⟩ shown_new _ names (e := innerEnd) (by decide +kernel) rfl]
  simp [innerEnd, statusWord]

example : read names (run quiet shownW shown) innerWarn .statusChar = .ok (.text "W") :=
  (C77_status_char_other shown_reachable names (k := .warn) (by decide +kernel)).2.1 rfl

/-- The inner action has one action above it. -/
example : read names (run quiet shownW shown) innerWarn .parentDepth = .ok (.num 1) := by
  have h2 : (run quiet shownW shown).par 2 = some 0 := by decide +kernel
  have h0 : (run quiet shownW shown).par 0 = none := by decide +kernel
  have := (C77_depth (w := run quiet shownW shown) names (e := innerWarn) (by decide +kernel) 1
    (.succ h2 (.zero 0)) (by
      intro h
      cases h with
      | succ h h' =>
        obtain rfl := Option.some.inj (h.symm.trans h2)
        cases h' with
        | succ h _ => rw [h0] at h; simp at h)).1
  simpa using this

example := C77_exception (env := quiet) (w := run quiet (run quiet shownW [.enter 0, mk "inner"]) [.enter 2]) names
  (C83_exit (a := 2) ⟨_, by rw [shownW, ← run_append, ← run_append]⟩ (by decide +kernel) boom rfl (fun _ _ => ⟨_, rfl⟩)) (e := innerWarn) rfl

end Verif.Fields
