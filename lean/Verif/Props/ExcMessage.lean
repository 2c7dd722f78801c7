import Verif.Model.ExcMessage
import Verif.Props.Template
/-!
# C128: the default message of an exception
-/
namespace Verif.Msg

open Verif.Sens

/-! ## Specification -/

/-- The texts that are put together. -/
def ExcText.texts (e : ExcText) : List String :=
  [e.name, e.type, e.msgRepr, e.errno.getD "", e.func, e.line, e.path]

/-- The whole, in words: what happened, and the errno, if any, after it. -/
def ExcText.story (e : ExcText) : String :=
  e.name ++ " raised exception: " ++ e.type ++ "(" ++ e.msgRepr ++ ")" ++
    (match e.errno with | some n => " (errno " ++ n ++ ")" | none => "") ++
    " from " ++ e.func ++ " on line " ++ e.line ++ " of file '" ++ e.path ++ "'"

/-! ## Proofs -/

theorem excMessage_eq (e : ExcText) (hasData : Bool) :
    excMessage e hasData = e.story ++ (if hasData then " - ({data_map_repr})" else "") := by
  unfold excMessage ExcText.story ExcText.what
  cases e.errno <;> (apply String.toList_injective; simp)

theorem not_mem_story {e : ExcText} {c : Char} (hc : c = '{' ∨ c = '}') (h : ∀ t ∈ e.texts, c ∉ t.toList) :
    c ∉ e.story.toList := by
  simp only [ExcText.texts, List.mem_cons, List.not_mem_nil, or_false, forall_eq_or_imp, forall_eq] at h
  obtain ⟨h1, h2, h3, h4, h5, h6, h7⟩ := h
  unfold ExcText.story
  cases he : e.errno with
  | none =>
    rcases hc with rfl | rfl <;>
      simp [h1, h2, h3, h5, h6, h7]
  | some n =>
    rw [he] at h4
    have h4' : c ∉ n.toList := h4
    rcases hc with rfl | rfl <;>
      simp [h1, h2, h3, h4', h5, h6, h7]

theorem message_tail {V : Type} (f : Fmt V) (s : String) (h0 : '{' ∉ s.toList) (h1 : '}' ∉ s.toList) (fargs : List V)
    (now : Now V) (hb : NoBase now.getters [f.mkField "data_map_repr".toList [] none]) :
    (message f ⟨some (s ++ " - ({data_map_repr})"), fargs, none⟩ now).1 =
      some (s ++ (" - (" ++ segment (lookup f.nothing (fun _ => none) now.dataMap now.getters) fargs
            (f.mkField "data_map_repr".toList [] none) ++ ")")) := by
  have lit : ∀ c ∈ " - (".toList, c ≠ '{' ∧ c ≠ '}' := by decide
  have hn : ∀ c ∈ s.toList ++ " - (".toList, c ≠ '{' ∧ c ≠ '}' := by
    intro c hc
    rcases List.mem_append.1 hc with hc | hc
    · exact ⟨fun e => h0 (e ▸ hc), fun e => h1 (e ▸ hc)⟩
    · exact lit c hc
  have hmem : '{' ∈ (s ++ " - ({data_map_repr})").toList := by simp
  have hr : render f (s ++ " - ({data_map_repr})") fargs now =
      some (s ++ (" - (" ++ segment (lookup f.nothing (fun _ => none) now.dataMap now.getters) fargs
          (f.mkField "data_map_repr".toList [] none) ++ ")")) := by
    have he : (s ++ " - ({data_map_repr})").toList =
        (s.toList ++ " - (".toList) ++ "{data_map_repr})".toList := by simp
    rw [render, he, tokenize_default _ _ (by simp) hn]
    dsimp only
    rw [C37_format]
    · congr 1
      simp only [List.map_cons, List.map_nil, toTok, segment, String.join_cons, String.join_nil]
      apply String.toList_injective
      simp
    · refine ⟨hb.1, fun t ht => ?_⟩
      simp only [List.map_cons, List.map_nil, toTok, List.mem_cons, List.not_mem_nil, or_false] at ht
      rcases ht with rfl | rfl | rfl
      · trivial
      · exact hb.2 _ (by simp)
      · trivial
  simp only [message, hmem, hr, if_true]

/-- C128: an exception event given no message tells the action's name, the exception and where it was raised, and shows the data
map if there is data, if none of the texts has a `{` (and none a `}` if there is data).  What is missing for the full claim:
texts with braces, see `C128_violated`. -/
theorem C128_default_partial {V : Type} (f : Fmt V) (e : ExcText) (hasData : Bool)
    (h0 : ∀ t ∈ e.texts, '{' ∉ t.toList) (h1 : hasData = true → ∀ t ∈ e.texts, '}' ∉ t.toList) (fargs : List V) (now : Now V)
    (hb : NoBase now.getters [f.mkField "data_map_repr".toList [] none]) :
    (message f ⟨some (excMessage e hasData), fargs, none⟩ now).1 =
      some (e.story ++ (if hasData then " - (" ++ segment (lookup f.nothing (fun _ => none) now.dataMap now.getters) fargs
            (f.mkField "data_map_repr".toList [] none) ++ ")" else "")) := by
  have hs0 := not_mem_story (.inl rfl) h0
  rw [excMessage_eq]
  cases hasData with
  | false => simp [message, hs0]
  | true => exact message_tail f e.story hs0 (not_mem_story (.inr rfl) (h1 rfl)) fargs now hb

/-- An exception raised while loading. -/
def sampleExc (msgRepr : String) : ExcText := ⟨"load", "ValueError", msgRepr, none, "main", "7", "a.py"⟩

example : (message sampleFmt ⟨some (excMessage (sampleExc "'bad }'") false), [], none⟩ (sampleNow "v")).1 =
    some "load raised exception: ValueError('bad }') from main on line 7 of file 'a.py'" :=
  (C128_default_partial sampleFmt (sampleExc "'bad }'") false (by decide +kernel) (by simp) [] (sampleNow "v")
    ⟨by intro n; simp [sampleNow], by intro t ht; simp only [List.mem_singleton] at ht; subst ht; simp [sampleFmt]⟩).trans
    (by decide +kernel)

example : (message sampleFmt ⟨some (excMessage ⟨"open", "OSError", "'gone'", some "2", "main", "7", "a.py"⟩ true), [], none⟩
      (sampleNow "v")).1 =
    some ("open raised exception: OSError('gone') (errno 2) from main on line 7 of file 'a.py' - (" ++
      segment (lookup sampleFmt.nothing (fun _ => none) (sampleNow "v").dataMap (sampleNow "v").getters) []
        (sampleFmt.mkField "data_map_repr".toList [] none) ++ ")") :=
  (C128_default_partial sampleFmt ⟨"open", "OSError", "'gone'", some "2", "main", "7", "a.py"⟩ true (by decide +kernel)
    (by decide +kernel) [] (sampleNow "v")
    ⟨by intro n; simp [sampleNow], by intro t ht; simp only [List.mem_singleton] at ht; subst ht; simp [sampleFmt]⟩).trans
    (by decide +kernel)

/-- C128 is false for texts with braces: a message about an opening brace cannot be read, and anonymous fields in it are
numbered; so is, with data, one about a closing brace. -/
theorem C128_violated :
    (message (Tmpl.fmtOf Tmpl.sampleConf) ⟨some (excMessage (sampleExc "'unexpected {'") false), [], none⟩
      (Tmpl.nowOf Tmpl.sampleConf fun _ => none)).1 = none ∧
    (message (Tmpl.fmtOf Tmpl.sampleConf) ⟨some (excMessage (sampleExc "'unexpected }'") true), [], none⟩
      (Tmpl.nowOf Tmpl.sampleConf fun _ => none)).1 = none ∧
    (message (Tmpl.fmtOf Tmpl.sampleConf) ⟨some (excMessage (sampleExc "'no {} in {}'") false), [], none⟩
      (Tmpl.nowOf Tmpl.sampleConf fun _ => none)).1 =
        some "load raised exception: ValueError('no {0} in {1}') from main on line 7 of file 'a.py'" := by
  decide +kernel

end Verif.Msg
