import Verif.Model.DebugOptions
/-!
# C129: the debug sink acts on the exceptions selected
-/
namespace Verif.Debug

variable {C : Type}

/-! ## Specification -/

/-- The exceptions an option selects, as documented: none, all exceptions, those of a type, those of one of several types. -/
def Selects (K : Classes C) (x : C) : Arg C → Prop
  | .none => False
  | .bool b => b = true ∧ K.sub x K.exception = true
  | .cls c => K.sub x c = true
  | .tuple cs => ∃ c ∈ cs, K.sub x c = true
  | .list cs => ∃ c ∈ cs, K.sub x c = true

/-- The full claim. -/
def C129 (K : Classes C) (reraise postMortem : Arg C) (x : C) : Prop :=
  let r := (Sink.make K reraise postMortem).onException K x
  (r.1 = true ↔ Selects K x postMortem) ∧ (r.2 = .reraises ↔ Selects K x reraise) ∧ r.2 ≠ .typeError

/-- The options that select nothing. -/
inductive Nothing : Arg C → Prop
  | none : Nothing .none
  | false : Nothing (.bool false)
  | tuple : Nothing (.tuple [])
  | list : Nothing (.list [])

/-! ## Theorems -/

theorem truth_iff (a : Arg C) : a.truth = true ↔ ¬ Nothing a := by
  have hn : ¬ Nothing a ↔ (a = .none ∨ a = .bool false ∨ a = .tuple [] ∨ a = .list [] → False) := by
    refine not_congr ⟨fun h => ?_, fun h => ?_⟩
    · cases h <;> simp
    · rcases h with rfl | rfl | rfl | rfl
      · exact .none
      · exact .false
      · exact .tuple
      · exact .list
  rw [hn]
  cases a with
  | none => simp [Arg.truth]
  | bool b => cases b <;> simp [Arg.truth]
  | cls c => simp [Arg.truth]
  | tuple cs => cases cs <;> simp [Arg.truth]
  | list cs => cases cs <;> simp [Arg.truth]

theorem postMortem_eq (K : Classes C) (r p : Arg C) (x : C) :
    matches_ K x (Sink.make K r p).postMortem = some (p.truth && K.sub x K.exception) := by
  show matches_ K x (if p.truth then .cls K.exception else p) = _
  by_cases h : p.truth = true
  · rw [if_pos h, h]
    rfl
  · rw [if_neg h, matches_, if_neg h]
    simp [h]

/-- C129: an exception is raised again exactly if the `reraise` option selects it, unless some types were given as an iterable
that is no tuple.  What is missing for the full claim: other iterables, see `C129_violated`. -/
theorem C129_reraise_partial (K : Classes C) (reraise postMortem : Arg C) (x : C) (h : ∀ c cs, reraise ≠ .list (c :: cs)) :
    let r := (Sink.make K reraise postMortem).onException K x
    (r.2 = .reraises ↔ Selects K x reraise) ∧ r.2 ≠ .typeError := by
  have key : matches_ K x (Sink.make K reraise postMortem).reraise = some true ∧ Selects K x reraise ∨
      matches_ K x (Sink.make K reraise postMortem).reraise = some false ∧ ¬ Selects K x reraise := by
    cases reraise with
    | none => simp [Sink.make, matches_, Arg.truth, Selects]
    | bool b => cases b <;> simp [Sink.make, matches_, Arg.truth, Selects, isInstance]
    | cls c => simp [Sink.make, matches_, Arg.truth, Selects, isInstance]
    | tuple cs =>
      cases cs with
      | nil => simp [Sink.make, matches_, Arg.truth, Selects]
      | cons c cs =>
        by_cases hc : ∃ d ∈ c :: cs, K.sub x d = true
        · exact .inl ⟨by simpa [Sink.make, matches_, Arg.truth, isInstance] using hc, hc⟩
        · refine .inr ⟨?_, hc⟩
          simp only [not_exists, not_and, Bool.not_eq_true] at hc
          simpa [Sink.make, matches_, Arg.truth, isInstance] using hc
    | list cs =>
      cases cs with
      | nil => simp [Sink.make, matches_, Arg.truth, Selects]
      | cons c cs => exact absurd rfl (h c cs)
  simp only [Sink.onException, postMortem_eq]
  rcases key with ⟨h1, h2⟩ | ⟨h1, h2⟩ <;> simp [h1, h2]

/-- C129: the debugger is opened for every `Exception`, and for nothing else, unless the `post_mortem` option is one of those that
select nothing; then it is opened for nothing. -/
theorem C129_debugger (K : Classes C) (reraise postMortem : Arg C) (x : C) :
    ((Sink.make K reraise postMortem).onException K x).1 = true ↔ ¬ Nothing postMortem ∧ K.sub x K.exception = true := by
  simp only [Sink.onException, postMortem_eq, Bool.and_eq_true, truth_iff]

theorem nothing_selects {K : Classes C} {a : Arg C} (h : Nothing a) (x : C) : ¬ Selects K x a := by
  cases h <;> simp [Selects]

/-- C129: the debugger is opened for the exceptions selected exactly if the option selects nothing, or just the Exceptions.
What is missing for the full claim: the other options, see `C129_violated`. -/
theorem C129_debugger_partial (K : Classes C) (reraise postMortem : Arg C) :
    (∀ x, ((Sink.make K reraise postMortem).onException K x).1 = true ↔ Selects K x postMortem) ↔
      (Nothing postMortem ∨ ∀ x, Selects K x postMortem ↔ K.sub x K.exception = true) := by
  simp only [C129_debugger]
  constructor
  · intro h
    by_cases hn : Nothing postMortem
    · exact .inl hn
    · exact .inr fun x => by rw [← h x]; simp [hn]
  · rintro (h | h) x
    · simp [h, nothing_selects h x]
    · rw [h x]
      refine ⟨And.right, fun hx => ⟨fun hn => ?_, hx⟩⟩
      exact nothing_selects hn x ((h x).2 hx)

/-- **C129, exactly.**  The claim holds for every exception if and only if `reraise` is no non-empty list and `post_mortem` selects
nothing or just the Exceptions (provided there are exceptions at all). -/
theorem C129_exact (K : Classes C) (x₀ : C) (reraise postMortem : Arg C) :
    (∀ x, C129 K reraise postMortem x) ↔
      (∀ c cs, reraise ≠ .list (c :: cs)) ∧
      (Nothing postMortem ∨ ∀ x, Selects K x postMortem ↔ K.sub x K.exception = true) := by
  constructor
  · intro h
    refine ⟨fun c cs hr => (h x₀).2.2 ?_, (C129_debugger_partial K reraise postMortem).1 fun x => (h x).1⟩
    subst hr
    simp only [Sink.onException, postMortem_eq]
    simp [Sink.make, matches_, Arg.truth, isInstance]
  · rintro ⟨hr, hp⟩ x
    exact ⟨(C129_debugger_partial K reraise postMortem).2 hp x, C129_reraise_partial K reraise postMortem x hr⟩

/-- Some of Python's exceptions. -/
inductive PyExc
  | baseException | keyboardInterrupt | exception | valueError | unicodeError | keyError
deriving DecidableEq, Repr

/-- Their bases. -/
def PyExc.above : PyExc → List PyExc
  | .baseException => [.baseException]
  | .keyboardInterrupt => [.keyboardInterrupt, .baseException]
  | .exception => [.exception, .baseException]
  | .valueError => [.valueError, .exception, .baseException]
  | .unicodeError => [.unicodeError, .valueError, .exception, .baseException]
  | .keyError => [.keyError, .exception, .baseException]

def python : Classes PyExc := ⟨fun a b => decide (b ∈ a.above), .exception⟩

example : ((Sink.make python (.tuple [.valueError]) (.bool true)).onException python .unicodeError) = (true, .reraises) := by
  decide +kernel

example : ((Sink.make python (.tuple [.valueError]) .none).onException python .keyError) = (false, .returns) := by
  decide +kernel

example : ((Sink.make python (.tuple [.valueError]) .none).onException python .unicodeError).2 = .reraises :=
  (C129_reraise_partial python (.tuple [.valueError]) .none .unicodeError (by simp)).1.2 ⟨.valueError, by decide, by decide⟩

example : ∀ x, C129 python (.tuple [.valueError, .keyError]) (.bool true) x :=
  (C129_exact python .keyError _ _).2 ⟨by simp, .inr fun x => by simp [Selects]⟩

/-- C129 fails for a list of types, with which every exception makes the sink raise TypeError; and for a type given for the
debugger, which is opened for other exceptions too and not for an interrupt asked for. -/
theorem C129_violated :
    (∀ (C : Type) (K : Classes C) (c : C) (cs : List C) (p : Arg C) (x : C),
      ((Sink.make K (.list (c :: cs)) p).onException K x).2 = .typeError) ∧
    ¬ C129 python .none (.cls .valueError) .keyError ∧
    ¬ C129 python .none (.cls .keyboardInterrupt) .keyboardInterrupt := by
  refine ⟨fun C K c cs p x => ?_, ?_, ?_⟩
  · simp only [Sink.onException, postMortem_eq]
    simp [Sink.make, matches_, Arg.truth, isInstance]
  · intro h
    have h1 : python.sub .keyError .valueError = true := h.1.1 (by decide +kernel)
    revert h1; decide +kernel
  · intro h
    have h1 := h.1.2 (show python.sub _ _ = true by decide +kernel)
    revert h1; decide +kernel

end Verif.Debug
