import Verif.Props.Shown
/-!
# C38, as seen in entries: a name that means nothing shows None
-/
namespace Verif.Py

open Verif.Fields (Field)
open Verif.Tmpl (Part write)

variable {P : Foreign} {F : Facts} {w : World} {e : Event}

/-- **C38, in entries.**  A field whose name is neither in the action's data nor built in shows None, quoted like all free text,
whatever stands around it and whatever the version of Python. -/
theorem C38_absent {env : Env} (hP : P.Calm) (hnone : P.str .none = "None".toList) (_ : Reachable env w) {k : Kind}
    (_ : (k, e) ∈ w.pub) (name : List Char) (hord : ∀ c ∈ name, Tmpl.Ordinary c) (hdig : ∃ c ∈ name, c.isDigit = false)
    (hdata : w.dataOf e.act (String.ofList name) = none) (hnew : ∀ f : Field, nameOf f ≠ String.ofList name)
    (before after : List Char) :
    entry P F (write [.lit before, .name name none [], .lit after]) w e =
      .ok (String.ofList before ++ "\"None\"" ++ String.ofList after) := by
  have hdef : (conf P F w e).defs (String.ofList name) = none := by
    by_contra h
    obtain ⟨f, hf⟩ := (C120_names (P := P) (F := F) (w := w) (e := e)).2 (String.ofList name) |>.1
      (Option.isSome_iff_ne_none.2 h)
    exact hnew f hf
  rw [entry, Tmpl.C89_entry (conf_calm hP) (q := Tmpl.jsonQuoter) (by intro s; simp [Tmpl.jsonQuoter])]
  · have hfmt : format P .none [] = .ok "None" := by
      rw [format, show parse [] = some ⟨none, none, none, false, false, 0, false, none, none⟩ from by decide]
      simp only [ne_eq, not_true_eq_false, and_false, if_false, hnone]
      decide
    have ht : Part.text (conf P F w e) (fun _ => none) (fun k => (w.dataOf e.act k).map .app) [] (.name name none []) =
        .ok "None" := by
      simp only [Part.text, Tmpl.named, hdata, hdef, Option.map_none, if_true, Option.getD_none]
      change fmt P [] none [] [] .none = _
      rw [fmt, if_pos ⟨rfl, rfl⟩, hfmt]
    have hq : Tmpl.jsonQuoter "None" = .ok "\"None\"" := by decide +kernel
    have hn : Part.entry (conf P F w e) Tmpl.jsonQuoter (fun _ => none) (fun k => (w.dataOf e.act k).map .app) []
        (.name name none []) = "\"None\"" := by
      simp only [Part.entry, ht, Part.quoted, hdef, if_true, hq, Tmpl.orWritten]
    have hl : ∀ s, Part.entry (conf P F w e) Tmpl.jsonQuoter (fun _ => none) (fun k => (w.dataOf e.act k).map .app) [] (.lit s) =
        String.ofList s := fun s => by simp [Part.entry, Part.text, Part.quoted]
    simp only [Tmpl.numbered, List.map_cons, List.map_nil, hn, hl]
    simp [String.join]
  · intro p hp
    simp only [List.mem_cons, List.not_mem_nil, or_false] at hp
    rcases hp with rfl | rfl | rfl
    · trivial
    · exact ⟨hord, hdig, by simp, rfl⟩
    · trivial

/-- An event of the sample program and a name that means nothing meet the hypotheses. -/
example : ∃ k e, (k, e) ∈ sampleW.pub ∧ sampleW.dataOf e.act "user" = none ∧ (∀ f : Field, nameOf f ≠ "user") := by
  obtain ⟨q, hq⟩ : ∃ q, sampleW.pub.find? (fun q => q.1 = .end_) = some q := Option.isSome_iff_exists.1 (by decide +kernel)
  have hm := List.mem_of_find?_eq_some hq
  have hd : ∀ q ∈ sampleW.pub, sampleW.dataOf q.2.act "user" = none := by decide +kernel
  refine ⟨q.1, q.2, hm, hd q hm, ?_⟩
  have : ∀ p ∈ LineOf.fieldNames, p.1 ≠ "user" := by decide +kernel
  intro f
  exact this _ (name_mem f)

end Verif.Py
