import Verif.Model.Formatter
import Verif.Props.Template
/-!
# C67: which template an event is formatted with
-/
namespace Verif.Tmpl

open Verif.Sens Verif.Msg

/-- The fields known to two formatters are the same, apart from what their getters return. -/
def SameFields {V : Type} (c c' : Conf V) : Prop :=
  ∀ k, (c.defs k).map (fun f => (f.spec, f.quote)) = (c'.defs k).map fun f => (f.spec, f.quote)

theorem defaultQuoter_congr {V : Type} {c c' : Conf V} (h : SameFields c c') (q : String → Res String) :
    defaultQuoter c q = defaultQuoter c' q := by
  funext t
  have := h (String.ofList t.name)
  unfold defaultQuoter
  cases h1 : c.defs (String.ofList t.name) <;> cases h2 : c'.defs (String.ofList t.name) <;> simp_all

theorem construct_congr {V : Type} {c c' : Conf V} (h : SameFields c c') (d : TField → Res String) (q : TField → Res Quoter)
    (template : List Char) : construct c d q template = construct c' d q template := by
  have hf : ∀ t, mkField c d q t = mkField c' d q t := by
    intro t
    have := h (String.ofList t.name)
    unfold mkField
    cases h1 : c.defs (String.ofList t.name) <;> cases h2 : c'.defs (String.ofList t.name) <;> simp_all
  have hm : ∀ ps, mkTokens c d q ps = mkTokens c' d q ps := by
    intro ps
    induction ps with
    | nil => rfl
    | cons p ps ih => cases p <;> simp only [mkTokens, ih, hf]
  unfold construct
  cases tokenize dec template with
  | none => rfl
  | some ps => exact hm ps

theorem mkFormatters_lookup {V : Type} {c : Conf V} {d : TField → Res String} {q : TField → Res Quoter} {a : FormatterArgs} :
    ∀ {evs : List String} {fs : List (String × List Token)}, mkFormatters c d q a evs = .ok fs → ∀ ev ∈ evs,
      ∃ ts, fs.lookup ev = some ts ∧ construct c d q (template a.base (a.kw ev)).toList = .ok ts := by
  intro evs
  induction evs with
  | nil => intro fs _ ev he; cases he
  | cons x evs ih =>
    intro fs hfs ev he
    simp only [mkFormatters] at hfs
    cases hc : construct c d q (template a.base (a.kw x)).toList with
    | ok ts =>
      rw [hc] at hfs
      cases hm : mkFormatters c d q a evs with
      | ok fs' =>
        rw [hm] at hfs
        cases hfs
        by_cases e : ev = x
        · subst e
          exact ⟨ts, by simp [List.lookup_cons], hc⟩
        · obtain ⟨ts', h1, h2⟩ := ih hm ev ((List.mem_cons.1 he).resolve_left e)
          refine ⟨ts', ?_, h2⟩
          rw [List.lookup_cons, show (ev == x) = false by simpa using e]
          exact h1
      | keyError => rw [hm] at hfs; cases hfs
      | exc => rw [hm] at hfs; cases hfs
      | base => rw [hm] at hfs; cases hfs
    | keyError => rw [hc] at hfs; cases hfs
    | exc => rw [hc] at hfs; cases hfs
    | base => rw [hc] at hfs; cases hfs

/-- `SensibleMessageFormatter(template)` made and called with an event: what one template makes of the event. -/
def rendered {V : Type} (c : Conf V) (template : String) (dataMap : String → Option V) : Out String :=
  formatAll c defaultDefaulter (defaultQuoter c jsonQuoter) template.toList (fun _ => none) dataMap []

theorem rendered_empty {V : Type} (c : Conf V) (dm : String → Option V) : rendered c "" dm = .ok "" := rfl

theorem rendered_none {V : Type} (c : Conf V) (dm : String → Option V) : rendered c "None" dm = .ok "None" := by
  have : tokenize dec "None".toList = some [.lit "None".toList] := by decide
  simp only [rendered, formatAll, construct, this, mkTokens, formatTokens]
  rfl

/-- C67, exactly: what a `SensibleFormatter` makes of an event.  Its own template decides if it is given, else the base; a
template given as None makes nothing of it; and with neither, it is the text `None`.  `c0` has the fields known when the formatter
was made, `c` the same fields with their values for the event. -/
theorem C67_exact {V : Type} {c0 c : Conf V} (hs : SameFields c0 c) (a : FormatterArgs) {fs : List (String × List Token)}
    (hm : mkFormatter c0 a = .ok fs) (k : Sens.Kind) (dm : String → Option V) :
    (∀ t, a.kw k.name = .text t → onEvent c fs k dm = rendered c t dm) ∧
    (∀ b, a.kw k.name = .absent → a.base = some b → onEvent c fs k dm = rendered c b dm) ∧
    (a.kw k.name = .none' → onEvent c fs k dm = .ok "") ∧
    (a.kw k.name = .absent → a.base = none → onEvent c fs k dm = .ok "None") := by
  have key : onEvent c fs k dm = rendered c (template a.base (a.kw k.name)) dm := by
    obtain ⟨ts, h1, h2⟩ := mkFormatters_lookup hm k.name (by cases k <;> decide)
    rw [defaultQuoter_congr hs, construct_congr hs] at h2
    simp only [onEvent, h1, rendered, formatAll, h2]
  rw [key]
  refine ⟨fun t h => by rw [h]; rfl, fun b h hb => by rw [h, hb]; rfl, fun h => ?_, fun h hb => ?_⟩
  · rw [h]; exact rendered_empty c dm
  · rw [h, hb]; exact rendered_none c dm

theorem construct_default {V : Type} (c : Conf V) (t : List Char) :
    (∃ ts, construct c defaultDefaulter (defaultQuoter c jsonQuoter) t = .ok ts) ↔ tokenize dec t ≠ none :=
  C87_valid c (fun t => ⟨_, rfl⟩)
    (fun t => by
      unfold defaultQuoter
      cases c.defs (String.ofList t.name) with
      | none => exact ⟨_, rfl⟩
      | some f => dsimp only; split <;> exact ⟨_, rfl⟩) t

/-- C67: a formatter can be made iff each of the five templates is valid: an invalid template for any event,
also for exceptions, which are never formatted, is found at once. -/
theorem C67_made {V : Type} (c : Conf V) (a : FormatterArgs) :
    (∃ fs, mkFormatter c a = .ok fs) ↔
      ∀ ev ∈ ["begin", "warn", "end", "exception", "comment"],
        match a.kw ev, a.base with
        | .text t, _ => tokenize dec t.toList ≠ none
        | .absent, some b => tokenize dec b.toList ≠ none
        | _, _ => True := by
  have hv : ∀ ev, (match a.kw ev, a.base with
        | .text t, _ => tokenize dec t.toList ≠ none
        | .absent, some b => tokenize dec b.toList ≠ none
        | _, _ => True) ↔
      ∃ ts, construct c defaultDefaulter (defaultQuoter c jsonQuoter) (template a.base (a.kw ev)).toList = .ok ts := by
    intro ev
    rw [construct_default]
    cases a.kw ev with
    | text t => exact Iff.rfl
    | none' => exact ⟨fun _ => (by decide : tokenize dec "".toList ≠ none), fun _ => trivial⟩
    | absent =>
      cases a.base with
      | none => exact ⟨fun _ => (by decide : tokenize dec "None".toList ≠ none), fun _ => trivial⟩
      | some b => exact Iff.rfl
  simp only [hv]
  refine ⟨fun ⟨fs, h⟩ ev hev => ?_, fun h => ?_⟩
  · obtain ⟨ts, -, h2⟩ := mkFormatters_lookup h ev hev
    exact ⟨ts, h2⟩
  · have key : ∀ evs : List String, (∀ ev ∈ evs, ∃ ts, construct c defaultDefaulter (defaultQuoter c jsonQuoter)
        (template a.base (a.kw ev)).toList = .ok ts) →
        ∃ fs, mkFormatters c defaultDefaulter (defaultQuoter c jsonQuoter) a evs = .ok fs := by
      intro evs
      induction evs with
      | nil => intro _; exact ⟨_, rfl⟩
      | cons ev evs ih =>
        intro h
        obtain ⟨ts, h1⟩ := h ev (by simp)
        obtain ⟨fs, h2⟩ := ih fun e he => h e (by simp [he])
        exact ⟨_, by simp only [mkFormatters, h1, h2]; rfl⟩
    exact key _ h

/-- A template for all events, another for the end, none for comments. -/
def sampleFArgs : FormatterArgs where
  base := some "{status_str}"
  kw := fun ev => if ev = "end" then .text "end {x}" else if ev = "comment" then .none' else .absent

/-- It can be made; what it makes of a begin, an end and a comment. -/
example : ∃ fs, mkFormatter sampleConf sampleFArgs = .ok fs ∧
    onEvent sampleConf fs .begin (fun _ => none) = .ok "success" ∧
    onEvent sampleConf fs .end' (fun _ => some "v") = .ok "end \"v\"" ∧
    onEvent sampleConf fs .comment (fun _ => none) = .ok "" := by
  obtain ⟨fs, h⟩ := (C67_made sampleConf sampleFArgs).2 (by
    intro ev hev
    simp only [List.mem_cons, List.not_mem_nil, or_false] at hev
    have h1 : tokenize dec "{status_str}".toList ≠ none := by decide +kernel
    have h2 : tokenize dec "end {x}".toList ≠ none := by decide +kernel
    rcases hev with rfl | rfl | rfl | rfl | rfl
    · exact h1
    · exact h1
    · exact h2
    · exact h1
    · exact trivial)
  refine ⟨fs, h, ?_, ?_, ?_⟩
  · rw [(C67_exact (fun _ => rfl) sampleFArgs h .begin _).2.1 "{status_str}" rfl rfl]; decide +kernel
  · rw [(C67_exact (fun _ => rfl) sampleFArgs h .end' _).1 "end {x}" rfl]; decide +kernel
  · exact (C67_exact (fun _ => rfl) sampleFArgs h .comment _).2.2.1 rfl

/-- An unbalanced template for exceptions prevents the formatter from being made. -/
example : ¬ ∃ fs, mkFormatter sampleConf ⟨some "", fun ev => if ev = "exception" then .text "{" else .absent⟩ = .ok fs := by
  rw [C67_made]
  intro h
  exact h "exception" (by decide) (by decide +kernel)

end Verif.Tmpl
