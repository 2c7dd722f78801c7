import Verif.Props.Template
/-!
# C87: exactly when using a formatter raises
-/
namespace Verif.Tmpl

open Verif.Sens Verif.Msg

/-- The function that gives fields their default text raises KeyError for a field of the template. -/
def LacksDefault (defaulter : TField → Res String) (ps : List Piece) : Prop :=
  ∃ nm spec conv, Piece.field nm spec conv ∈ ps ∧ defaulter ⟨nm, spec, conv⟩ = .keyError

theorem lacks_lit {defaulter : TField → Res String} {s : List Char} {ps : List Piece} :
    LacksDefault defaulter (.lit s :: ps) ↔ LacksDefault defaulter ps := by
  simp [LacksDefault]

theorem lacks_field {defaulter : TField → Res String} {nm spec : List Char} {conv : Option Char} {ps : List Piece} :
    LacksDefault defaulter (.field nm spec conv :: ps) ↔
      defaulter ⟨nm, spec, conv⟩ = .keyError ∨ LacksDefault defaulter ps := by
  constructor
  · rintro ⟨a, b, c, h, h'⟩
    rcases List.mem_cons.1 h with h | h
    · cases h; exact Or.inl h'
    · exact Or.inr ⟨a, b, c, h, h'⟩
  · rintro (h | ⟨a, b, c, h, h'⟩)
    · exact ⟨_, _, _, List.mem_cons_self, h⟩
    · exact ⟨a, b, c, List.mem_cons_of_mem _ h, h'⟩

/-- What construction leaves of a field. -/
theorem mkField_ok {V : Type} {c : Conf V} {defaulter : TField → Res String} {quoter : TField → Res Quoter} {t : TField} {k : Token}
    (h : mkField c defaulter quoter t = .ok k) :
    (defaulter t = .keyError ∧ k = .field t none none) ∨
    (defaulter t ≠ .keyError ∧ ∃ t' d q, k = .field t' (some d) q ∧ ∀ q', q = some q' → quoter t = .ok q') := by
  unfold mkField at h
  cases hd : defaulter t with
  | keyError => rw [hd] at h; cases h; exact Or.inl ⟨rfl, rfl⟩
  | exc => rw [hd] at h; cases h
  | base => rw [hd] at h; cases h
  | ok d =>
    right
    refine ⟨by simp, ?_⟩
    rw [hd] at h
    cases hq : quoter t with
    | exc => simp [hq] at h
    | base => simp [hq] at h
    | keyError => simp only [hq, Res.ok.injEq] at h; exact ⟨_, _, _, h.symm, by simp⟩
    | ok q =>
      simp only [hq] at h
      split at h
      · split at h <;> cases h <;> exact ⟨_, _, _, rfl, by rintro _ ⟨⟩; rfl⟩
      · cases h; exact ⟨_, _, _, rfl, by rintro _ ⟨⟩; rfl⟩

theorem attempt_calm {V : Type} {c : Conf V} (hc : c.Calm) {quoter : TField → Res Quoter} (hq : CalmQuoter quoter)
    (kwargs dataMap : String → Option V) (args : List V) (t : TField) {t' : TField} {q : Option Quoter}
    (h : ∀ q', q = some q' → quoter t' = .ok q') : attempt c kwargs dataMap args t q ≠ .base := by
  simp only [attempt]
  have hv := value_ne_base' hc kwargs dataMap args t
  cases hval : value c kwargs dataMap args t with
  | ok s =>
    simp only
    cases q with
    | none => simp
    | some q =>
      cases q with
      | none => simp
      | some q => exact hq t' q (h _ rfl) s
  | keyError => simp
  | exc => simp
  | base => exact absurd hval hv

theorem attempt_none {V : Type} {c : Conf V} (kwargs dataMap : String → Option V) (args : List V) (t : TField) (s : String) :
    attempt c kwargs dataMap args t none ≠ .ok s := by
  simp only [attempt]
  cases value c kwargs dataMap args t <;> simp

theorem format_exact {V : Type} {c : Conf V} (hc : c.Calm) {defaulter : TField → Res String} {quoter : TField → Res Quoter}
    (hq : CalmQuoter quoter) (kwargs dataMap : String → Option V) (args : List V) : ∀ (ps : List Piece) (ts : List Token) (acc : String),
    mkTokens c defaulter quoter ps = .ok ts →
    (formatTokens c kwargs dataMap args ts acc = .keyError ∧ LacksDefault defaulter ps) ∨
    ((∃ s, formatTokens c kwargs dataMap args ts acc = .ok s) ∧ ¬ LacksDefault defaulter ps) := by
  intro ps
  induction ps with
  | nil =>
    intro ts acc h
    simp only [mkTokens, Res.ok.injEq] at h; subst h
    exact Or.inr ⟨⟨acc, rfl⟩, by simp [LacksDefault]⟩
  | cons p ps ih =>
    intro ts acc h
    cases p with
    | lit s =>
      simp only [mkTokens] at h
      cases hm : mkTokens c defaulter quoter ps with
      | ok us => simp only [hm, Res.ok.injEq] at h; subst h; rw [lacks_lit]; exact ih us _ hm
      | keyError => simp [hm] at h
      | exc => simp [hm] at h
      | base => simp [hm] at h
    | field nm spec conv =>
      simp only [mkTokens] at h
      rw [lacks_field]
      cases hf : mkField c defaulter quoter ⟨nm, spec, conv⟩ with
      | keyError => simp [hf] at h
      | exc => simp [hf] at h
      | base => simp [hf] at h
      | ok t0 =>
        simp only [hf] at h
        cases hm : mkTokens c defaulter quoter ps with
        | keyError => simp [hm] at h
        | exc => simp [hm] at h
        | base => simp [hm] at h
        | ok us =>
          simp only [hm, Res.ok.injEq] at h; subst h
          rcases mkField_ok hf with ⟨hd, rfl⟩ | ⟨hd, t', d, q, rfl, hq'⟩
          · left
            refine ⟨?_, Or.inl hd⟩
            simp only [formatTokens]
            cases ha : attempt c kwargs dataMap args ⟨nm, spec, conv⟩ none with
            | ok s => exact absurd ha (attempt_none kwargs dataMap args _ s)
            | base => exact absurd ha (attempt_calm hc hq kwargs dataMap args _ (t' := ⟨nm, spec, conv⟩) (by simp))
            | keyError => rfl
            | exc => rfl
          · simp only [formatTokens]
            have e : (defaulter ⟨nm, spec, conv⟩ = .keyError ∨ LacksDefault defaulter ps) ↔ LacksDefault defaulter ps :=
              ⟨fun h => h.resolve_left hd, Or.inr⟩
            rw [e]
            cases ha : attempt c kwargs dataMap args t' q with
            | ok s => exact ih us _ hm
            | base => exact absurd ha (attempt_calm hc hq kwargs dataMap args t' hq')
            | keyError => exact ih us _ hm
            | exc => exact ih us _ hm

/-- **C87**, exactly: using a formatter that could be made raises if and only if the function that gives fields their default text
raised KeyError for a field of the template; then KeyError, and whatever it is used with. -/
theorem C87_exact {V : Type} {c : Conf V} (hc : c.Calm) {defaulter : TField → Res String} {quoter : TField → Res Quoter}
    (hq : CalmQuoter quoter) {template : List Char} {ps : List Piece} (hp : tokenize dec template = some ps) {ts : List Token}
    (h : construct c defaulter quoter template = .ok ts) (kwargs dataMap : String → Option V) (args : List V) :
    (formatTokens c kwargs dataMap args ts "" = .keyError ↔ LacksDefault defaulter ps) ∧
    ((∃ s, formatTokens c kwargs dataMap args ts "" = .ok s) ↔ ¬ LacksDefault defaulter ps) := by
  simp only [construct, hp] at h
  rcases format_exact hc hq kwargs dataMap args ps ts "" h with ⟨h1, h2⟩ | ⟨⟨s, h1⟩, h2⟩
  · rw [h1]; simp [h2]
  · rw [h1]; simp [h2]

/-- A defaulter that knows no default for `n`. -/
def noDefault (t : TField) : Res String := if t.name = ['n'] then .keyError else .ok "-"

/-- Templates with `{n}` make formatters that raise KeyError even if `n` has a value. -/
example : ∃ ts, construct sampleConf noDefault noQuoter "a {x} {n}".toList = .ok ts ∧
    formatTokens sampleConf (fun _ => some "7") (fun _ => none) [] ts "" = .keyError := by
  have hp : tokenize dec "a {x} {n}".toList =
      some [.lit "a ".toList, .field ['x'] [] none, .lit [' '], .field ['n'] [] none] := by decide +kernel
  have h : ∃ ts, construct sampleConf noDefault noQuoter "a {x} {n}".toList = .ok ts := by
    simp only [construct, hp]
    exact ⟨_, rfl⟩
  obtain ⟨ts, h⟩ := h
  exact ⟨ts, h, (C87_exact sampleConf_calm (by intro t; simp [noQuoter]) hp h _ _ _).1.2 ⟨['n'], [], none, by simp, rfl⟩⟩

example : ∃ ts, construct sampleConf noDefault noQuoter "a {x}".toList = .ok ts ∧
    ∃ s, formatTokens sampleConf (fun _ => none) (fun _ => none) [] ts "" = .ok s := by
  have hp : tokenize dec "a {x}".toList = some [.lit "a ".toList, .field ['x'] [] none] := by decide +kernel
  have h : ∃ ts, construct sampleConf noDefault noQuoter "a {x}".toList = .ok ts := by
    simp only [construct, hp]
    exact ⟨_, rfl⟩
  obtain ⟨ts, h⟩ := h
  exact ⟨ts, h, (C87_exact sampleConf_calm (by intro t; simp [noQuoter]) hp h _ _ _).2.2 (by simp [LacksDefault, noDefault])⟩

end Verif.Tmpl
