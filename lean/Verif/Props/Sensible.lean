import Verif.Model.Sensible
import Verif.Props.Level
/-!
# C35, C36, C37, C38, C67: filter, sink, formatter
-/
namespace Verif.Sens

open Verif.Lvl

/-! ## C35 -/

/-- The level argument in force for an event: its own keyword if given, else the base.  (Comments have none.) -/
def setting (a : FilterArgs) : Ev → LevelArg
  | .begin => a.begin.getD a.base
  | .warn => a.warn.getD a.base
  | .success => a.success.getD a.base
  | .failure => a.failure.getD a.base
  | .exception => a.exception.getD a.base
  | .comment => none

/-- The argument stands for this level: None for the highest, otherwise one of the level's names. -/
def StandsFor (lower upper : String → String) (regs : List Level) (arg : LevelArg) (l : Level) : Prop :=
  match arg with
  | none => l = MAX_LEVEL
  | some k => l ∈ regs ∧ Names lower upper l k

theorem argLevel_eq {lower upper : String → String} {regs : List Level} (h : regs.Pairwise (NoClash lower upper))
    (hM : MAX_LEVEL ∈ regs) {arg : LevelArg} {l : Level} (hs : StandsFor lower upper regs arg l)
    (hz : arg ≠ some (.num 0) ∧ arg ≠ some (.str "")) : argLevel (table lower upper regs) arg = l := by
  cases arg with
  | none =>
    simp only [StandsFor] at hs
    subst hs
    exact (C33_get_level h _ _).1 _ hM rfl
  | some k =>
    have ht : truthy (some k) = true := by
      cases k with
      | str s => simp [truthy]; rintro rfl; exact hz.2 rfl
      | num n => simp [truthy]; rintro rfl; exact hz.1 rfl
      | level l => rfl
      | other n => rfl
    simp only [argLevel, ht, if_true]
    exact (C33_get_level h _ _).1 _ hs.1 hs.2

theorem ge_iff (a b : Level) : ge a b = true ↔ b.value ≤ a.value := by
  simp only [ge, Bool.not_eq_true', lt_eq_false]

theorem standsFor_mem {lower upper : String → String} {regs : List Level} (hM : MAX_LEVEL ∈ regs) {arg : LevelArg}
    {l : Level} (hs : StandsFor lower upper regs arg l) : l ∈ regs := by
  cases arg with
  | none => simp only [StandsFor] at hs; rw [hs]; exact hM
  | some k => exact hs.1

/-- C35: an event other than a comment passes iff its action's level is at or above the level its setting stands for,
or the verbose check holds.  Settings 0 and `''` are excluded (see `C35_zero_violated`). -/
theorem C35_threshold_partial {lower upper : String → String} {regs : List Level}
    (h : regs.Pairwise (NoClash lower upper)) (hM : MAX_LEVEL ∈ regs) (a : FilterArgs) (ev : Ev)
    (hev : ev ≠ .comment) {thr base : Level} (hthr : StandsFor lower upper regs (setting a ev) thr)
    (hz : setting a ev ≠ some (.num 0) ∧ setting a ev ≠ some (.str ""))
    (hbase : StandsFor lower upper regs a.base base)
    (hzb : a.base ≠ some (.num 0) ∧ a.base ≠ some (.str "")) (level : Level) (verbose : Bool) :
    passes (mkFilter (table lower upper regs) a) level verbose ev = true ↔
      level.value ≥ thr.value ∨ verbose = true := by
  have hb := argLevel_eq h hM hbase hzb
  have key : ∀ x : Option LevelArg, x.getD a.base = setting a ev →
      argLevel (table lower upper regs) (x.getD (some (.level (argLevel (table lower upper regs) a.base)))) = thr := by
    intro x hx
    cases x with
    | none =>
      simp only [Option.getD_none] at hx ⊢
      rw [hb]
      have e1 : thr = base := by rw [← hb, hx]; exact (argLevel_eq h hM hthr hz).symm
      rw [e1]
      exact argLevel_eq h hM (arg := some (.level base)) ⟨standsFor_mem hM hbase, rfl⟩ ⟨by simp, by simp⟩
    | some y =>
      simp only [Option.getD_some] at hx ⊢
      rw [hx]; exact argLevel_eq h hM hthr hz
  cases ev with
  | comment => exact absurd rfl hev
  | begin =>
    simp only [passes, mkFilter, key _ rfl]
    have := ge_iff level thr
    cases hg : ge level thr <;> cases verbose <;> simp_all
  | warn =>
    simp only [passes, mkFilter, key _ rfl]
    have := ge_iff level thr
    cases hg : ge level thr <;> cases verbose <;> simp_all
  | success =>
    simp only [passes, mkFilter, key _ rfl]
    have := ge_iff level thr
    cases hg : ge level thr <;> cases verbose <;> simp_all
  | failure =>
    simp only [passes, mkFilter, key _ rfl]
    have := ge_iff level thr
    cases hg : ge level thr <;> cases verbose <;> simp_all
  | exception =>
    simp only [passes, mkFilter, key _ rfl]
    have := ge_iff level thr
    cases hg : ge level thr <;> cases verbose <;> simp_all

/-- C35: raising an action's level never turns a passing event into a blocked one, whatever the settings. -/
theorem C35_monotone (f : Filter) (l l' : Level) (verbose : Bool) (ev : Ev) (hl : l.value ≤ l'.value)
    (h : passes f l verbose ev = true) : passes f l' verbose ev = true := by
  have mono : ∀ t, ge l t = true → ge l' t = true := fun t ht => by
    rw [ge_iff] at ht ⊢; omega
  cases ev with
  | comment => exact h
  | begin =>
    have := mono f.begin
    simp only [passes] at h ⊢
    cases hg : ge l f.begin <;> cases hg' : ge l' f.begin <;> cases verbose <;> simp_all
  | warn =>
    have := mono f.warn
    simp only [passes] at h ⊢
    cases hg : ge l f.warn <;> cases hg' : ge l' f.warn <;> cases verbose <;> simp_all
  | success =>
    have := mono f.success
    simp only [passes] at h ⊢
    cases hg : ge l f.success <;> cases hg' : ge l' f.success <;> cases verbose <;> simp_all
  | failure =>
    have := mono f.failure
    simp only [passes] at h ⊢
    cases hg : ge l f.failure <;> cases hg' : ge l' f.failure <;> cases verbose <;> simp_all
  | exception =>
    have := mono f.exception
    simp only [passes] at h ⊢
    cases hg : ge l f.exception <;> cases hg' : ge l' f.exception <;> cases verbose <;> simp_all

/-- C35: comments pass unless `block_comments`; the level and the verbose check do not matter. -/
theorem C35_comments (t : Table) (a : FilterArgs) (level : Level) (verbose : Bool) :
    passes (mkFilter t a) level verbose .comment = true ↔ a.blockComments = false := by
  simp [passes, mkFilter]

/-- Failures from INFO up, everything else from CRITICAL up. -/
def sampleArgs : FilterArgs := { base := some (.str "critical"), failure := some (some (.level INFO)) }

example : passes (mkFilter (table lowerS upperS builtins) sampleArgs) INFO false .failure = true ∧
    passes (mkFilter (table lowerS upperS builtins) sampleArgs) INFO false .success = false ∧
    passes (mkFilter (table lowerS upperS builtins) sampleArgs) DEBUG true .success = true := by
  refine ⟨?_, ?_, ?_⟩
  · exact (C35_threshold_partial (thr := INFO) (base := CRITICAL) builtins_noClash (by decide) sampleArgs .failure
      (by decide) ⟨by decide, rfl⟩ (by decide) ⟨by decide, .inl rfl⟩ (by decide) INFO false).2 (.inl (by decide))
  · rw [← Bool.not_eq_true, C35_threshold_partial (thr := CRITICAL) (base := CRITICAL) builtins_noClash (by decide)
      sampleArgs .success (by decide) ⟨by decide, .inl rfl⟩ (by decide) ⟨by decide, .inl rfl⟩ (by decide) INFO false]
    decide
  · exact (C35_threshold_partial (thr := CRITICAL) (base := CRITICAL) builtins_noClash (by decide)
      sampleArgs .success (by decide) ⟨by decide, .inl rfl⟩ (by decide) ⟨by decide, .inl rfl⟩ (by decide) DEBUG true).2
      (.inr rfl)

/-- C35 fails for the setting 0: it names the lowest level, and yet nothing below the highest passes. -/
theorem C35_zero_violated :
    getLevel (table lowerS upperS builtins) (.num 0) = MIN_LEVEL ∧
    passes (mkFilter (table lowerS upperS builtins) { base := some (.num 0) }) CRITICAL false .failure = false := by
  decide

/-! ## C36 -/

theorem allPass_iff {E : Type} (e : E) (fs : List (E → Option Bool)) :
    allPass e fs = some true ↔ ∀ f ∈ fs, f e = some true := by
  induction fs with
  | nil => simp [allPass]
  | cons f fs ih =>
    simp only [allPass, List.mem_cons, forall_eq_or_imp]
    cases hf : f e with
    | none => simp
    | some b =>
      cases ha : allPass e fs with
      | none =>
        rw [ha] at ih
        simp only [reduceCtorEq, false_iff, Option.some.injEq] at ih ⊢
        exact fun h => ih h.2
      | some c =>
        rw [ha] at ih
        simp only [Option.some.injEq, Bool.and_eq_true] at ih ⊢
        rw [ih]

/-- C36: over any history, the emitter gets one entry for each event whose kind is selected, that every filter accepts and
whose formatting does not raise; the entry is the formatter's output; in order. -/
theorem C36_emitted {E : Type} {on : List String} {filters : List (E → Option Bool)} {formatter : E → Option String}
    {s : Sink E} (hs : mkSink on filters formatter = some s) (evs : List (Kind × E)) :
    ((emitted s evs).map fun x => (x.1, x.2.1)) =
      evs.filter (fun x => decide (x.1.name ∈ on ∧ ∀ f ∈ filters, f x.2 = some true) && (formatter x.2).isSome) ∧
    ∀ x ∈ emitted s evs, formatter x.2.1 = some x.2.2 := by
  simp only [mkSink] at hs
  split at hs
  · cases hs
  · simp only [Option.some.injEq] at hs
    subst hs
    have hk : ∀ k : Kind, k ∈ ([Kind.begin, .warn, .end', .comment].filter fun k => on.contains k.name) ↔
        k.name ∈ on := by
      intro k
      simp only [List.mem_filter, List.contains_eq_mem, decide_eq_true_eq]
      refine ⟨fun h => h.2, fun h => ⟨?_, h⟩⟩
      cases k <;> decide
    generalize ([Kind.begin, .warn, .end', .comment].filter fun k => on.contains k.name) = hooks at hk ⊢
    induction evs with
    | nil => simp [emitted]
    | cons x evs ih =>
      obtain ⟨k, e⟩ := x
      simp only [emitted, List.flatMap_cons] at ih ⊢
      simp only [List.map_append, List.filter_cons, List.mem_append]
      rw [ih.1]
      have hcond : (filters.isEmpty = false ∧ allPass e filters ≠ some true) ↔ ¬ ∀ f ∈ filters, f e = some true := by
        rw [← allPass_iff]
        constructor
        · exact fun h => h.2
        · intro h
          refine ⟨?_, h⟩
          cases filters with
          | nil => exact absurd rfl h
          | cons _ _ => rfl
      constructor
      · simp only [handle, hk, hcond]
        by_cases h1 : k.name ∈ on
        · by_cases h2 : ∀ f ∈ filters, f e = some true
          · cases hfm : formatter e with
            | none => simp [h1, h2, hfm]
            | some en =>
              rw [if_pos h1, if_neg (not_not.2 h2), if_pos (by simp [h1, hfm]; exact h2)]
              rfl
          · simp [h1, h2]
        · simp [h1]
      · intro y hy
        rcases hy with hy | hy
        · simp only [handle] at hy
          split at hy
          · split at hy
            · simp at hy
            · split at hy
              · simp at hy
              · rename_i en hen
                simp only [List.mem_singleton] at hy
                rw [hy]; exact hen
          · simp at hy
        · exact ih.2 y hy

/-- C36: construction fails exactly for an unknown kind. -/
theorem C36_unknown {E : Type} (on : List String) (filters : List (E → Option Bool)) (formatter : E → Option String) :
    mkSink on filters formatter = none ↔
      ∃ e ∈ on, ¬ (e = "begin" ∨ e = "warn" ∨ e = "end" ∨ e = "exception" ∨ e = "comment") := by
  simp only [mkSink]
  by_cases h : (on.any fun e => !EVENTS.contains e) = true
  · rw [if_pos h]
    simp only [List.any_eq_true, EVENTS] at h
    simpa using h
  · rw [if_neg h]
    simp only [List.any_eq_true, EVENTS] at h
    simpa using h

/-- C36, a gap: `exception` is accepted in `on`, but selects nothing. -/
theorem C36_exception_selects_nothing {E : Type} (filters : List (E → Option Bool)) (formatter : E → Option String) :
    ∃ s, mkSink ["exception"] filters formatter = some s ∧ ∀ evs, emitted s evs = [] := by
  refine ⟨_, rfl, fun evs => ?_⟩
  induction evs with
  | nil => rfl
  | cons x evs ih =>
    simp only [emitted, List.flatMap_cons] at ih ⊢
    rw [ih, List.append_nil]
    have : ([Kind.begin, .warn, .end', .comment].filter fun k => ["exception"].contains k.name) = [] := by decide
    simp only [handle, this, List.not_mem_nil, if_false]

/-- Even numbers accepted by the filter, two kinds selected. -/
example : mkSink (E := Nat) ["begin", "end"] [fun n => some (n % 2 == 0)] (fun n => some s!"{n}") =
      some ⟨[.begin, .end'], [fun n => some (n % 2 == 0)], fun n => some s!"{n}"⟩ ∧
    (emitted (E := Nat) ⟨[.begin, .end'], [fun n => some (n % 2 == 0)], fun _ => some "x"⟩
      [(.begin, 1), (.begin, 2), (.warn, 4), (.end', 6)]) = [(.begin, 2, "x"), (.end', 6, "x")] := ⟨rfl, by decide⟩

/-! ## C37, C38 -/

/-- What a template token stands for in the output: the literal itself; or the field's text, quoted if it has a
quoter; or, when producing that raises an `Exception`, the default. -/
def segment {V : Type} (look : String → Res V) (args : List V) : Tok V → String
  | .lit s => s
  | .field name positional fmt fmtPos default quoter =>
    let raw : Res String :=
      if positional then fmtPos args
      else match look name with | .ok v => fmt v | _ => .exc
    let quoted : Res String := match raw, quoter with | .ok s, some q => q s | r, _ => r
    match quoted with | .ok s => s | _ => default

/-- No getter, formatting or quoting raises a BaseException that is not an Exception. -/
def NoBase {V : Type} (getters : String → Option (Res V)) (tokens : List (Tok V)) : Prop :=
  (∀ k, getters k ≠ some .base) ∧
  ∀ t ∈ tokens, match t with
    | .lit _ => True
    | .field _ _ fmt fmtPos _ quoter => (∀ v, fmt v ≠ .base) ∧ (∀ vs, fmtPos vs ≠ .base) ∧
        ∀ q, quoter = some q → ∀ s, q s ≠ .base

/-- C38: a field's value is the keyword argument if given, else the data map's entry, else the built-in getter's value, else
None; a getter that raises KeyError counts as no getter. -/
theorem C38_precedence {V : Type} (nothing : V) (kwargs dataMap : String → Option V)
    (getters : String → Option (Res V)) (key : String) :
    (∀ v, kwargs key = some v → lookup nothing kwargs dataMap getters key = .ok v) ∧
    (kwargs key = none → ∀ v, dataMap key = some v → lookup nothing kwargs dataMap getters key = .ok v) ∧
    (kwargs key = none → dataMap key = none → ∀ r, getters key = some r → r ≠ .keyError →
      lookup nothing kwargs dataMap getters key = r) ∧
    (kwargs key = none → dataMap key = none → (getters key = none ∨ getters key = some .keyError) →
      lookup nothing kwargs dataMap getters key = .ok nothing) := by
  refine ⟨?_, ?_, ?_, ?_⟩
  · intro v h; simp [lookup, h]
  · intro h v h'; simp [lookup, h, h']
  · intro h h' r hr hne
    simp only [lookup, h, h', hr]
  · rintro h h' (hr | hr) <;> simp [lookup, h, h', hr]

example : lookup 0 (fun _ => none) (fun k => if k = "x" then some 5 else none)
    (fun k => if k = "x" then some (.ok 7) else if k = "y" then some (.ok 8) else none) "x" = .ok 5 := by decide

theorem lookup_no_base {V : Type} {nothing : V} {kwargs dataMap : String → Option V}
    {getters : String → Option (Res V)} (h : ∀ k, getters k ≠ some .base) (key : String) :
    lookup nothing kwargs dataMap getters key ≠ .base := by
  simp only [lookup]
  split
  · simp
  · split
    · simp
    · split
      · simp
      · simp
      · rename_i r _ hr
        have := h key
        rw [hr] at this
        intro he; exact this (by rw [he])

theorem formatLoop_eq {V : Type} {look : String → Res V} {args : List V} (hlook : ∀ k, look k ≠ .base) :
    ∀ {tokens : List (Tok V)} {acc : String}, (∀ t ∈ tokens, match t with
    | .lit _ => True
    | .field _ _ fmt fmtPos _ quoter => (∀ v, fmt v ≠ .base) ∧ (∀ vs, fmtPos vs ≠ .base) ∧
        ∀ q, quoter = some q → ∀ s, q s ≠ .base) →
    formatLoop look args tokens acc = some (acc ++ String.join (tokens.map (segment look args))) := by
  intro tokens
  induction tokens with
  | nil => intro acc _; simp [formatLoop, String.join]
  | cons t ts ih =>
    intro acc h
    have ih' := fun acc => ih (acc := acc) (fun t ht => h t (by simp [ht]))
    have ht := h t (by simp)
    have hjoin : ∀ (a : String) (l : List String), String.join (a :: l) = a ++ String.join l := by
      intro a l; simp [String.join_cons]
    cases t with
    | lit s =>
      simp only [formatLoop, List.map_cons, segment, hjoin, ih', String.append_assoc]
    | field name pos fmt fmtPos default quoter =>
      simp only at ht
      obtain ⟨h1, h2, h3⟩ := ht
      simp only [formatLoop, List.map_cons, hjoin, ih']
      have e : (match renderField look args name pos fmt fmtPos quoter with
          | .ok s => some s | .keyError => some default | .exc => some default | .base => none) =
          some (segment look args (.field name pos fmt fmtPos default quoter)) := by
        simp only [renderField, segment]
        cases pos with
        | true =>
          simp only [if_true]
          have := h2 args
          cases hf : fmtPos args <;> simp only [hf] at this ⊢
          · cases quoter with
            | none => rfl
            | some q =>
              rename_i s
              have := h3 q rfl s
              cases hq : q s <;> simp_all
          · exact absurd rfl this
        | false =>
          simp only [Bool.false_eq_true, if_false]
          have hl := hlook name
          cases hv : look name <;> simp only [hv] at hl ⊢
          · rename_i v
            have := h1 v
            cases hf : fmt v <;> simp only [hf] at this ⊢
            · cases quoter with
              | none => rfl
              | some q =>
                rename_i s
                have := h3 q rfl s
                cases hq : q s <;> simp_all
            · exact absurd rfl this
          · exact absurd rfl hl
      cases hr : renderField look args name pos fmt fmtPos quoter <;>
        simp only [hr, Option.some.injEq, reduceCtorEq] at e ⊢ <;> rw [← e, String.append_assoc]

/-- C37: whatever the event, the arguments and the failures (short of a BaseException), `format` returns, and its result is
the segments one after the other: each literal verbatim, each field's own text or default, none depending on the
others. -/
theorem C37_format {V : Type} (tokens : List (Tok V)) (nothing : V) (kwargs dataMap : String → Option V)
    (getters : String → Option (Res V)) (args : List V) (h : NoBase getters tokens) :
    format tokens nothing kwargs dataMap getters args =
      some (String.join (tokens.map (segment (lookup nothing kwargs dataMap getters) args))) := by
  rw [format, formatLoop_eq (lookup_no_base h.1) h.2]
  simp

/-- A template with a literal, a field whose getter raises, and a good field. -/
def sampleTokens : List (Tok Nat) :=
  [.lit "a=", .field "a" false (fun _ => .ok "A") (fun _ => .exc) "{a}" none, .lit " b=",
   .field "b" false (fun n => if n = 3 then .ok "three" else .exc) (fun _ => .exc) "{b}" (some fun s => .ok ("<" ++ s ++ ">"))]

example : format sampleTokens 0 (fun _ => none) (fun k => if k = "b" then some 3 else none)
    (fun k => if k = "a" then some .exc else none) [] = some "a={a} b=<three>" := by
  rw [C37_format]
  · decide
  · refine ⟨fun k => by dsimp only; split <;> simp, fun t ht => ?_⟩
    simp only [sampleTokens, List.mem_cons, List.not_mem_nil, or_false] at ht
    rcases ht with rfl | rfl | rfl | rfl
    · trivial
    · simp
    · trivial
    · refine ⟨fun v => by dsimp only; split <;> simp, fun _ => by simp, fun q hq s => ?_⟩
      simp only [Option.some.injEq] at hq
      rw [← hq]; simp

/-! ## C67 -/

/-- C67 fails: a `SensibleFormatter` without a base template renders the literal text `None` for the events that have no
template of their own, instead of nothing. -/
theorem C67_violated : template none .absent = "None" ∧ template none .absent ≠ "" := by decide

/-- C67, the rest: an event's own template is used when given, a base template otherwise, and a template given as None is
empty. -/
theorem C67_template_partial (base : String) (s : String) :
    template (some base) (.text s) = s ∧ template none (.text s) = s ∧ template (some base) .absent = base ∧
    template (some base) .none' = "" := ⟨rfl, rfl, rfl, rfl⟩

example := C35_monotone (mkFilter (table lowerS upperS builtins) sampleArgs) INFO CRITICAL false .failure (by decide)
  (by decide)

example := C36_emitted (E := Nat) (on := ["begin", "end"]) (filters := [fun n => some (n % 2 == 0)])
  (formatter := fun n => some s!"{n}") rfl [(.begin, 1), (.begin, 2), (.warn, 4), (.end', 6)]

end Verif.Sens
