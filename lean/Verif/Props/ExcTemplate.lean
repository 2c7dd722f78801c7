import Verif.Model.ExcTemplate
import Verif.Props.ExcMessage
/-!
# C128: the template of an exception's message
-/
namespace Verif.ExcTpl

open Msg (ExcText excMessage)

variable {other : List Char → List Arg → Option (List Char)}

theorem percent_plain (s : List Char) (hs : '%' ∉ s) (t : List Char) (as : List Arg) :
    percent other (s ++ t) as = (percent other t as).map (s ++ ·) := by
  induction s with
  | nil => simp
  | cons c s ih =>
    have hc : c ≠ '%' := fun h => hs (h ▸ List.mem_cons_self)
    have ih := ih fun h => hs (List.mem_cons_of_mem _ h)
    rw [List.cons_append, percent, ih, Option.map_map]
    · rfl
    all_goals simp [hc]

/-- The texts that go into a message. -/
def texts (errno : Option String) (name type msg func line path : Arg) : ExcText where
  name := String.ofList name.str
  type := String.ofList type.str
  msgRepr := String.ofList msg.repr
  errno := errno
  func := String.ofList func.str
  line := String.ofList line.str
  path := String.ofList path.str

theorem percent_s (t : List Char) (a : Arg) (as : List Arg) :
    percent other ('%' :: 's' :: t) (a :: as) = (percent other t as).map (a.str ++ ·) := by simp [percent]

theorem percent_few (t : List Char) : percent other ('%' :: 's' :: t) [] = none := by simp [percent]

theorem percent_r (t : List Char) (a : Arg) (as : List Arg) :
    percent other ('%' :: 'r' :: t) (a :: as) = (percent other t as).map (a.repr ++ ·) := by simp [percent]

/-- The whole message, given what is put after the exception and at the end. -/
theorem percent_all (E E' D : List Char)
    (hE : ∀ t as, percent other (E ++ t) as = (percent other t as).map (E' ++ ·)) (hD : '%' ∉ D) (name type msg func line path : Arg) :
    percent other ("%s raised exception: %s(%r)".toList ++ (E ++ (" from %s on line %s of file '%s'".toList ++ D)))
        [name, type, msg, func, line, path] =
      some (name.str ++ (" raised exception: ".toList ++ (type.str ++ ("(".toList ++ (msg.repr ++ (")".toList ++ (E' ++
        (" from ".toList ++ (func.str ++ (" on line ".toList ++ (line.str ++ (" of file '".toList ++ (path.str ++
          ("'".toList ++ D)))))))))))))) := by
  have h : "%s raised exception: %s(%r)".toList ++ (E ++ (" from %s on line %s of file '%s'".toList ++ D)) =
      '%' :: 's' :: (" raised exception: ".toList ++ ('%' :: 's' :: ("(".toList ++ ('%' :: 'r' :: (")".toList ++ (E ++
        (" from ".toList ++ ('%' :: 's' :: (" on line ".toList ++ ('%' :: 's' :: (" of file '".toList ++ ('%' :: 's' ::
          ("'".toList ++ (D ++ [])))))))))))))) := by simp
  rw [h, percent_s, percent_plain _ (by decide), percent_s, percent_plain _ (by decide), percent_r, percent_plain _ (by decide),
    hE, percent_plain _ (by decide), percent_s, percent_plain _ (by decide), percent_s, percent_plain _ (by decide),
    percent_s, percent_plain _ (by decide), percent_plain _ hD]
  simp [percent]

theorem template_eq (errno : Option (List Char)) (hasData : Bool) : template errno hasData =
    "%s raised exception: %s(%r)".toList ++ ((match errno with
        | some n => if n <:+: excRepr then [] else " (errno ".toList ++ n ++ ")".toList
        | none => []) ++ (" from %s on line %s of file '%s'".toList ++ (if hasData then " - ({data_map_repr})".toList else []))) := by
  unfold template
  cases errno with
  | none => cases hasData <;> simp [excRepr]
  | some n => cases hasData <;> by_cases hn : n <:+: excRepr <;> simp [hn] <;> simp [excRepr]

/-- **C128, the template.**  The message of an exception event is made without an exception, and is the one the other theorems of C128 are
about, whatever the name of the action and the texts of the exception are, `%` included, if the text of its `errno` has no `%`; the `errno`
is told unless its text is a part of `%s(%r)`. -/
theorem C128_template (errno : Option String) (hasData : Bool) (name type msg func line path : Arg)
    (h : ∀ n, errno = some n → '%' ∉ n.toList) :
    message other (errno.map String.toList) hasData name type msg func line path =
      some (excMessage (texts (errno.filter fun n => ¬ n.toList <:+: "%s(%r)".toList) name type msg func line path) hasData).toList := by
  unfold message
  have hE : '%' ∉ (match errno.map String.toList with
      | some n => if n <:+: excRepr then [] else " (errno ".toList ++ n ++ ")".toList
      | none => []) := by
    cases errno with
    | none => simp
    | some n =>
      have := h n rfl
      simp only [Option.map_some]
      split
      · simp
      · simp [this]
  have hD : '%' ∉ (if hasData then " - ({data_map_repr})".toList else []) := by cases hasData <;> decide
  rw [template_eq, percent_all _ _ _ (percent_plain _ hE) hD]
  · cases errno with
    | none => cases hasData <;> simp [excMessage, ExcText.what, texts]
    | some n =>
      by_cases hn : n.toList <:+: excRepr
      · have hn' : n.toList <:+: "%s(%r)".toList := hn
        cases hasData <;> simp only [Option.map_some, hn, if_true, Option.filter_some, hn', not_true_eq_false, decide_false] <;>
          simp [excMessage, ExcText.what, texts]
      · have hn' : ¬ n.toList <:+: "%s(%r)".toList := hn
        cases hasData <;> simp only [Option.map_some, hn, if_false, Option.filter_some, hn', not_false_eq_true, decide_true] <;>
          simp [excMessage, ExcText.what, texts]

/-- A text with every `%` doubled. -/
def doubled (s : List Char) : List Char := s.flatMap fun c => if c = '%' then ['%', '%'] else [c]

theorem percent_doubled (s t : List Char) (as : List Arg) :
    percent other (doubled s ++ t) as = (percent other t as).map (s ++ ·) := by
  induction s with
  | nil => simp [doubled]
  | cons c s ih =>
    by_cases hc : c = '%'
    · subst hc
      rw [show doubled ('%' :: s) ++ t = '%' :: '%' :: (doubled s ++ t) by simp [doubled], percent, ih, Option.map_map]
      rfl
    · rw [show doubled (c :: s) ++ t = [c] ++ (doubled s ++ t) by simp [doubled, hc],
        percent_plain [c] (by simpa using Ne.symm hc), ih, Option.map_map]
      rfl

/-- C128: an `errno` in whose text every `%` is doubled is told with single ones. -/
theorem C128_doubled (n : String) (hi : ¬ doubled n.toList <:+: "%s(%r)".toList) (hasData : Bool)
    (name type msg func line path : Arg) :
    message other (some (doubled n.toList)) hasData name type msg func line path =
      some (excMessage (texts (some n) name type msg func line path) hasData).toList := by
  have hi' : ¬ doubled n.toList <:+: excRepr := hi
  unfold message
  rw [template_eq]
  simp only [hi', if_false]
  rw [percent_all _ (" (errno ".toList ++ n.toList ++ ")".toList)]
  · cases hasData <;> simp [excMessage, ExcText.what, texts]
  · intro t as
    rw [List.append_assoc, List.append_assoc, percent_plain _ (by decide), percent_doubled, percent_plain _ (by decide)]
    simp [Option.map_map, Function.comp_def]
  · cases hasData <;> simp

/-- C128: an `errno` that is a number is told. -/
theorem C128_number (n : String) (hn : n ≠ "") (hd : ∀ c ∈ n.toList, c.isDigit) (hasData : Bool) (name type msg func line path : Arg) :
    message other (some n.toList) hasData name type msg func line path =
      some (excMessage (texts (some n) name type msg func line path) hasData).toList := by
  have hc : ∀ c ∈ n.toList, c ≠ '%' ∧ c ∉ excRepr := by
    intro c hc
    have h1 := hd c hc
    have h2 : ∀ x ∈ excRepr, x.isDigit = false := by decide
    have h3 : c ∉ excRepr := fun hm => by rw [h2 c hm] at h1; cases h1
    exact ⟨fun he => h3 (he ▸ by decide), h3⟩
  have hi : ¬ n.toList <:+: "%s(%r)".toList := by
    intro hin
    cases hl : n.toList with
    | nil => exact hn (String.toList_injective (by rw [hl]; rfl))
    | cons c t =>
      have hm : c ∈ n.toList := by rw [hl]; simp
      exact (hc c hm).2 (hin.subset hm)
  have := C128_template (other := other) (some n) hasData name type msg func line path
    (by intro m hm hp; obtain rfl := Option.some.inj hm; exact (hc _ hp).1 rfl)
  simpa only [Option.map_some, Option.filter_some, hi, not_false_eq_true, decide_true, if_true] using this

/-- C128 is false for an `errno` whose text has a directive: then making the message raises, so that the exception is not recorded. -/
theorem C128_percent_violated : ∃ n : String, ∀ (hasData : Bool) (name type msg func line path : Arg),
    message other (some n.toList) hasData name type msg func line path = none := by
  refine ⟨"a%s", fun hasData name type msg func line path => ?_⟩
  have h : template (some "a%s".toList) hasData =
      '%' :: 's' :: (" raised exception: ".toList ++ ('%' :: 's' :: ("(".toList ++ ('%' :: 'r' :: (") (errno a".toList ++ ('%' :: 's' ::
        (") from ".toList ++ ('%' :: 's' :: (" on line ".toList ++ ('%' :: 's' :: (" of file '".toList ++ ('%' :: 's' ::
          ("'".toList ++ if hasData then " - ({data_map_repr})".toList else []))))))))))))) := by
    cases hasData <;> decide +kernel
  unfold message
  rw [h, percent_s, percent_plain _ (by decide), percent_s, percent_plain _ (by decide), percent_r, percent_plain _ (by decide),
    percent_s, percent_plain _ (by decide), percent_s, percent_plain _ (by decide), percent_s, percent_plain _ (by decide),
    percent_few]
  rfl

/-! ## The hypotheses can be met -/

/-- A text, shown as it is and in quotes. -/
def sampleArg (s : String) : Arg := ⟨s.toList, ("'" ++ s ++ "'").toList⟩

/-- The name of the action and the message have a `%`. -/
example : (message (fun _ _ => none) (some "2".toList) false (sampleArg "50%s") (sampleArg "OSError") (sampleArg "100% gone")
      (sampleArg "main") (sampleArg "7") (sampleArg "a.py")) =
    some "50%s raised exception: OSError('100% gone') (errno 2) from main on line 7 of file 'a.py'".toList :=
  (C128_number "2" (by decide) (by decide) false _ _ _ _ _ _).trans (by decide +kernel)

/-- `5%%` is told as `5%`. -/
example : (message (fun _ _ => none) (some "5%%".toList) false (sampleArg "x") (sampleArg "E") (sampleArg "m")
      (sampleArg "main") (sampleArg "7") (sampleArg "a.py")) =
    some "x raised exception: E('m') (errno 5%) from main on line 7 of file 'a.py'".toList :=
  (C128_doubled "5%" (by decide +kernel) false _ _ _ _ _ _).trans (by decide +kernel)

/-- An `errno` that is a part of `%s(%r)` is not told. -/
example : (message (fun _ _ => none) (some "r".toList) false (sampleArg "x") (sampleArg "E") (sampleArg "m")
      (sampleArg "main") (sampleArg "7") (sampleArg "a.py")) =
    some "x raised exception: E('m') from main on line 7 of file 'a.py'".toList :=
  (C128_template (some "r") false _ _ _ _ _ _ (by rintro n ⟨⟩; decide)).trans (by decide +kernel)

end Verif.ExcTpl
