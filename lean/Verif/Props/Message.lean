import Verif.Model.Message
import Verif.Props.Sensible
/-!
# C40, C68, C69, C70: event messages
-/
namespace Verif.Msg

open Verif.Sens

/-! ## C40 -/

/-- C40: a message without `{` never changes: every read, whatever happened to the data map, gives the text itself. -/
theorem C40_plain_partial {V : Type} (f : Fmt V) (raw : String) (h : '{' ∉ raw.toList) (fargs : List V)
    (nows : List (Now V)) : ∀ r ∈ reads f ⟨some raw, fargs, none⟩ nows, r = some raw := by
  suffices key : ∀ (nows : List (Now V)) (e : Ev V), e.raw = some raw → (e.cache = none ∨ e.cache = some raw) →
      ∀ r ∈ reads f e nows, r = some raw from key nows _ rfl (.inl rfl)
  intro nows
  induction nows with
  | nil => intro e _ _ r hr; simp [reads] at hr
  | cons now rest ih =>
    intro e he hc r hr
    have hm : (message f e now).1 = some raw ∧ (message f e now).2.raw = some raw ∧
        ((message f e now).2.cache = none ∨ (message f e now).2.cache = some raw) := by
      rcases hc with hc | hc
      · simp [message, he, hc, h]
      · simp only [message, he, hc, h, if_false]
        split <;> simp_all
    simp only [reads, List.mem_cons] at hr
    rcases hr with rfl | hr
    · exact hm.1
    · exact ih _ hm.2.1 hm.2.2 r hr

/-- C40: once a read has given a non-empty message, all later reads give the same, whatever happens to the data map. -/
theorem C40_after_read_partial {V : Type} (f : Fmt V) (e : Ev V) (now : Now V) (m : String)
    (h : (message f e now).1 = some m) (hm : m ≠ "") (nows : List (Now V)) :
    ∀ r ∈ reads f (message f e now).2 nows, r = some m := by
  have hc : (message f e now).2.cache = some m := by
    simp only [message] at h ⊢
    split at h
    · split at h
      · rename_i hce he
        simp only [he, if_true]
        revert h
        cases e.raw with
        | none => simp
        | some raw =>
          dsimp only
          split
          · cases hrr : render f raw e.fargs now with
            | none => simp
            | some m' => simp
          · simp
      · rename_i hce he
        simp only [he, if_false]
        rw [hce]; exact h
    · revert h
      cases e.raw with
      | none => simp
      | some raw =>
        dsimp only
        split
        · cases hrr : render f raw e.fargs now with
          | none => simp
          | some m' => simp
        · simp
  revert hc
  generalize (message f e now).2 = e'
  induction nows generalizing e' with
  | nil => intro _ r hr; simp [reads] at hr
  | cons now rest ih =>
    intro hc r hr
    have h1 : message f e' now = (some m, e') := by simp [message, hc, hm]
    simp only [reads, h1, List.mem_cons] at hr
    rcases hr with rfl | hr
    · rfl
    · exact ih e' hc r hr

/-- A formatter over text values whose fields show the value. -/
def sampleFmt : Fmt String :=
  { num := fun n => (toString n).toList
    mkField := fun nm _ _ => .field (String.ofList nm) false (fun v => .ok v) (fun _ => .exc)
      ("{" ++ String.ofList nm ++ "}") none
    nothing := "None" }

/-- The data map `{x: v}`. -/
def sampleNow (v : String) : Now String := ⟨fun k => if k = "x" then some v else none, fun _ => none⟩

/-- C40 fails: the message of one event is first empty and then not, as the data map changes; and it shows the data map at
the time of the first read, not of the event's creation. -/
theorem C40_violated :
    reads sampleFmt ⟨some "{x}", [], none⟩ [sampleNow "", sampleNow "a"] = [some "", some "a"] ∧
    reads sampleFmt ⟨some "{x}", [], none⟩ [sampleNow "a", sampleNow "b"] = [some "a", some "a"] ∧
    reads sampleFmt ⟨some "{x}", [], none⟩ [sampleNow "b"] = [some "b"] := by decide

/-! ## C69: escaping -/

/-- Text with every brace doubled. -/
def escape : List Char → List Char
  | [] => []
  | c :: cs => if c = '{' ∨ c = '}' then c :: c :: escape cs else c :: escape cs

theorem infer_cons {num : Nat → List Char} {n : Nat} {c : Char} (h : c ≠ '{' ∧ c ≠ '}') (s : List Char) :
    infer num n (c :: s) = c :: infer num n s := by
  cases s with
  | nil => simp [infer]
  | cons d s => rw [infer, if_neg (by simp [h.1]), if_neg (by simp [h.2]), if_neg (by simp [h.1])]

theorem infer_escape (num : Nat → List Char) (n : Nat) : ∀ s, infer num n (escape s) = escape s := by
  intro s
  induction s with
  | nil => rfl
  | cons c s ih =>
    simp only [escape]
    by_cases h1 : c = '{'
    · subst h1; simp [infer, ih]
    · by_cases h2 : c = '}'
      · subst h2; simp [infer, ih]
      · rw [if_neg (by simp [h1, h2]), infer_cons ⟨h1, h2⟩, ih]

/-- The text of literal pieces. -/
def lits : List Piece → Option (List Char)
  | [] => some []
  | .lit s :: ps => (lits ps).map (s ++ ·)
  | .field _ _ _ :: _ => none

theorem lits_emitLit (s : List Char) (ps : List Piece) : lits (emitLit s ++ ps) = (lits ps).map (s ++ ·) := by
  unfold emitLit
  split
  · rename_i h; subst h; simp
  · rfl

theorem parse_escape : ∀ (s acc : List Char), ∃ ps, parse (.lit acc) (escape s) = some ps ∧ lits ps = some (acc ++ s) := by
  intro s
  induction s with
  | nil =>
    intro acc
    refine ⟨emitLit acc, rfl, ?_⟩
    have := lits_emitLit acc []
    simpa [lits] using this
  | cons c s ih =>
    intro acc
    simp only [escape]
    by_cases h1 : c = '{'
    · subst h1
      obtain ⟨ps, h, hl⟩ := ih []
      refine ⟨emitLit (acc ++ ['{']) ++ ps, ?_, ?_⟩
      · simp [parse, pstep, h]
      · rw [lits_emitLit, hl]; simp
    · by_cases h2 : c = '}'
      · subst h2
        obtain ⟨ps, h, hl⟩ := ih []
        refine ⟨emitLit (acc ++ ['}']) ++ ps, ?_, ?_⟩
        · simp [parse, pstep, h]
        · rw [lits_emitLit, hl]; simp
      · obtain ⟨ps, h, hl⟩ := ih (acc ++ [c])
        refine ⟨ps, ?_, by rw [hl]; simp⟩
        rw [if_neg (by simp [h1, h2])]
        simp [parse, pstep, h1, h2, h]

theorem format_lits {V : Type} (mk : List Char → List Char → Option Char → Tok V) (look : String → Res V)
    (args : List V) : ∀ (ps : List Piece) (s : List Char) (acc : String), lits ps = some s →
    formatLoop look args (ps.map (toTok mk)) acc = some (acc ++ String.ofList s) := by
  intro ps
  induction ps with
  | nil => intro s acc h; simp only [lits, Option.some.injEq] at h; subst h; simp [formatLoop]
  | cons p ps ih =>
    intro s acc h
    cases p with
    | field _ _ _ => simp [lits] at h
    | lit t =>
      simp only [lits, Option.map_eq_some_iff] at h
      obtain ⟨u, hu, rfl⟩ := h
      simp only [List.map_cons, toTok, formatLoop, ih u _ hu]
      simp [String.append_assoc]

/-- C69: text with its braces doubled appears literally, if the text contains a `{`, whatever the data map. -/
theorem C69_escape_partial {V : Type} (f : Fmt V) (s : List Char) (h : '{' ∈ s) (fargs : List V) (now : Now V) :
    (message f ⟨some (String.ofList (escape s)), fargs, none⟩ now).1 = some (String.ofList s) := by
  have hmem : '{' ∈ escape s := by
    induction s with
    | nil => simp at h
    | cons c s ih =>
      simp only [escape]
      by_cases hc : c = '{'
      · subst hc; simp
      · have : '{' ∈ s := by
          rcases List.mem_cons.1 h with h | h
          · exact absurd h.symm hc
          · exact h
        split <;> simp [ih this]
  obtain ⟨ps, hp, hl⟩ := parse_escape s []
  have hr : render f (String.ofList (escape s)) fargs now = some (String.ofList s) := by
    simp only [render, tokenize, String.toList_ofList, infer_escape, hp, format]
    rw [format_lits _ _ _ ps s _ (by simpa using hl)]
    simp
  simp only [message, String.toList_ofList, hmem, if_true, hr]

example : (message sampleFmt ⟨some (String.ofList (escape "a {x} b".toList)), [], none⟩ (sampleNow "v")).1 =
    some "a {x} b" := C69_escape_partial sampleFmt "a {x} b".toList (by decide) [] (sampleNow "v")

/-- C69 fails for text with a `}` but no `{`: the doubled brace stays doubled. -/
theorem C69_violated :
    escape "a } b".toList = "a }} b".toList ∧
    (message sampleFmt ⟨some "a }} b", [], none⟩ (sampleNow "v")).1 = some "a }} b" := by decide

/-- C69: exactly the texts with a `{` or without a `}` appear literally after doubling their braces. -/
theorem C69_iff {V : Type} (f : Fmt V) (s : List Char) (fargs : List V) (now : Now V) :
    (message f ⟨some (String.ofList (escape s)), fargs, none⟩ now).1 = some (String.ofList s) ↔ '{' ∈ s ∨ '}' ∉ s := by
  by_cases h : '{' ∈ s
  · exact ⟨fun _ => .inl h, fun _ => C69_escape_partial f s h fargs now⟩
  · have hlen : ∀ t : List Char, (escape t).length = t.length ↔ ∀ c ∈ t, c ≠ '{' ∧ c ≠ '}' := by
      have hge : ∀ t : List Char, t.length ≤ (escape t).length := by
        intro t
        induction t with
        | nil => exact Nat.le_refl _
        | cons c t ih => simp only [escape]; split <;> simp only [List.length_cons] <;> omega
      intro t
      induction t with
      | nil => simp [escape]
      | cons c t ih =>
        have := hge t
        simp only [escape, List.mem_cons, forall_eq_or_imp, ← ih]
        split
        · rename_i hc
          simp only [List.length_cons]
          constructor
          · intro h; omega
          · rintro ⟨h1, _⟩; exact absurd hc (by simp [h1])
        · rename_i hc
          simp only [not_or] at hc
          simp [hc]
    have hsame : (∀ c ∈ s, c ≠ '{' ∧ c ≠ '}') → escape s = s := by
      intro hs
      clear h hlen
      induction s with
      | nil => rfl
      | cons c t ih =>
        have hc := hs c (by simp)
        rw [escape, if_neg (by simp [hc]), ih fun c h => hs c (by simp [h])]
    have hmem : '{' ∉ escape s := by
      clear hlen hsame
      induction s with
      | nil => simp [escape]
      | cons c t ih =>
        simp only [List.mem_cons, not_or] at h
        simp only [escape]
        split <;> simp [h.1, ih h.2]
    have hm : (message f ⟨some (String.ofList (escape s)), fargs, none⟩ now).1 = some (String.ofList (escape s)) := by
      simp [message, hmem]
    rw [hm, Option.some.injEq, String.ofList_inj]
    constructor
    · intro he
      refine .inr fun hc => ?_
      exact ((hlen s).1 (congrArg List.length he) _ hc).2 rfl
    · rintro (h' | h')
      · exact absurd h' h
      · exact hsame fun c hc => ⟨fun e => h (e ▸ hc), fun e => h' (e ▸ hc)⟩

/-! ## C68: reading never raises -/

/-- C68: reading a message raises only if the text has a `{` and is not a valid template (getters and fields raising no
BaseException). -/
theorem C68_no_raise_partial {V : Type} (f : Fmt V) (e : Ev V) (now : Now V) (hg : ∀ k, now.getters k ≠ some .base)
    (hf : ∀ nm spec conv, ∃ n pos fmt fmtPos d q, f.mkField nm spec conv = .field n pos fmt fmtPos d q ∧
      (∀ v, fmt v ≠ .base) ∧ (∀ vs, fmtPos vs ≠ .base) ∧ ∀ q', q = some q' → ∀ s, q' s ≠ .base)
    (h : (message f e now).1 = none) :
    ∃ raw, e.raw = some raw ∧ '{' ∈ raw.toList ∧ tokenize f.num raw.toList = none := by
  have key : ∀ raw fargs, render f raw fargs now = none → tokenize f.num raw.toList = none := by
    intro raw fargs hr
    simp only [render] at hr
    split at hr
    · assumption
    · rename_i ps _
      rw [C37_format] at hr
      · cases hr
      · refine ⟨hg, fun t ht => ?_⟩
        simp only [List.mem_map] at ht
        obtain ⟨p, _, rfl⟩ := ht
        cases p with
        | lit s => trivial
        | field nm spec conv =>
          obtain ⟨n, pos, fmt, fmtPos, d, q, h1, h2⟩ := hf nm spec conv
          simp only [toTok, h1]
          exact h2
  have comp : (match e.raw with
      | none => ((some "", { e with cache := some "" }) : Option String × Ev V)
      | some raw =>
        if '{' ∈ raw.toList then
          match render f raw e.fargs now with
          | none => (none, e)
          | some m => (some m, { e with cache := some m })
        else (some raw, { e with cache := some raw })).1 = none →
      ∃ raw, e.raw = some raw ∧ '{' ∈ raw.toList ∧ tokenize f.num raw.toList = none := by
    cases hr : e.raw with
    | none => simp
    | some raw =>
      dsimp only
      split
      · rename_i hb
        cases hrr : render f raw e.fargs now with
        | none => exact fun _ => ⟨raw, rfl, hb, key raw _ hrr⟩
        | some m => simp
      · simp
  simp only [message] at h
  split at h
  · split at h
    · exact comp h
    · cases h
  · exact comp h

/-- C68: every such text does raise when its message is read, each time. -/
theorem C68_raises {V : Type} (f : Fmt V) (raw : String) (fargs : List V) (h : '{' ∈ raw.toList)
    (ht : tokenize f.num raw.toList = none) (nows : List (Now V)) :
    reads f ⟨some raw, fargs, none⟩ nows = nows.map fun _ => none := by
  induction nows with
  | nil => rfl
  | cons now nows ih =>
    have : message f ⟨some raw, fargs, none⟩ now = (none, ⟨some raw, fargs, none⟩) := by
      simp [message, h, render, ht]
    rw [reads, this, ih, List.map_cons]

/-- C68 fails: the default message of an action whose name has a lone `{` cannot be read; nor can a message whose text has
one; nor one with a lone `}` beside a field. -/
theorem C68_violated :
    (message sampleFmt ⟨some (defaultMessage .begin "parse {" false), [], none⟩ (sampleNow "v")).1 = none ∧
    (message sampleFmt ⟨some "got '{'", [], none⟩ (sampleNow "v")).1 = none ∧
    (message sampleFmt ⟨some "{x} }", [], none⟩ (sampleNow "v")).1 = none := by decide

example : (message sampleFmt ⟨some "x is {x}!", [], none⟩ (sampleNow "v")).1 = some "x is v!" := by decide

/-! ## C70: default messages -/

theorem infer_plain {num : Nat → List Char} {n : Nat} (q : List Char) : ∀ (p : List Char),
    (∀ c ∈ p, c ≠ '{' ∧ c ≠ '}') → infer num n (p ++ q) = p ++ infer num n q := by
  intro p
  induction p with
  | nil => intro _; rfl
  | cons c p ih =>
    intro h
    rw [List.cons_append, infer_cons (h c (by simp)), ih fun c hc => h c (by simp [hc])]
    rfl

theorem parse_plain (q : List Char) : ∀ (p acc : List Char), (∀ c ∈ p, c ≠ '{' ∧ c ≠ '}') →
    parse (.lit acc) (p ++ q) = parse (.lit (acc ++ p)) q := by
  intro p
  induction p with
  | nil => intro acc _; simp
  | cons c p ih =>
    intro acc h
    have hc := h c (by simp)
    rw [List.cons_append, parse]
    · simp only [pstep, hc.1, hc.2, if_false]
      rw [ih _ fun c hc => h c (by simp [hc])]
      simp

theorem tokenize_default (num : Nat → List Char) (p : List Char) (hp : p ≠ []) (h : ∀ c ∈ p, c ≠ '{' ∧ c ≠ '}') :
    tokenize num (p ++ "{data_map_repr})".toList) =
      some [.lit p, .field "data_map_repr".toList [] none, .lit [')']] := by
  rw [tokenize, infer_plain _ p h]
  have : infer num 0 "{data_map_repr})".toList = "{data_map_repr})".toList := by
    show infer num 0 ['{','d','a','t','a','_','m','a','p','_','r','e','p','r','}',')'] = _
    simp [infer]
  rw [this, parse_plain _ p [] h, List.nil_append]
  show parse (.lit p) ['{','d','a','t','a','_','m','a','p','_','r','e','p','r','}',')'] = _
  simp [parse, pstep, nameChar, emitLit, hp]

/-- C70: the default message of an action whose name has no `{` (and no `}` either, if the data map is to be shown) reads as the
name followed by what happened, and, if there is data, the rendered data map. -/
theorem C70_default_partial {V : Type} (f : Fmt V) (name : String) (d : Default) (hasData : Bool) (hn0 : '{' ∉ name.toList)
    (hn1 : hasData = true → d ≠ .begin → '}' ∉ name.toList) (fargs : List V) (now : Now V)
    (hb : NoBase now.getters [f.mkField "data_map_repr".toList [] none]) :
    (message f ⟨some (defaultMessage d name hasData), fargs, none⟩ now).1 =
      some (name ++ (match d, hasData with
        | .begin, _ => " beginning"
        | .success, false => " succeeded"
        | .failure, false => " failed"
        | .success, true => " succeeded - (" ++ segment (lookup f.nothing (fun _ => none) now.dataMap now.getters) fargs
            (f.mkField "data_map_repr".toList [] none) ++ ")"
        | .failure, true => " failed - (" ++ segment (lookup f.nothing (fun _ => none) now.dataMap now.getters) fargs
            (f.mkField "data_map_repr".toList [] none) ++ ")")) := by
  have plain : ∀ t : String, '{' ∉ t.toList →
      (message f ⟨some (name ++ t), fargs, none⟩ now).1 = some (name ++ t) := by
    intro t ht
    simp [message, hn0, ht]
  have data : ∀ t : String, (∀ c ∈ t.toList, c ≠ '{' ∧ c ≠ '}') → t.toList ≠ [] → '}' ∉ name.toList →
      (message f ⟨some (name ++ (t ++ "{data_map_repr})")), fargs, none⟩ now).1 =
        some (name ++ (t ++ segment (lookup f.nothing (fun _ => none) now.dataMap now.getters) fargs
            (f.mkField "data_map_repr".toList [] none) ++ ")")) := by
    intro t ht ht0 hn1
    have hn : ∀ c ∈ name.toList, c ≠ '{' ∧ c ≠ '}' := fun c hc => ⟨fun e => hn0 (e ▸ hc), fun e => hn1 (e ▸ hc)⟩
    have hmem : '{' ∈ (name ++ (t ++ "{data_map_repr})")).toList := by simp
    have hr : render f (name ++ (t ++ "{data_map_repr})")) fargs now =
        some (name ++ (t ++ segment (lookup f.nothing (fun _ => none) now.dataMap now.getters) fargs
            (f.mkField "data_map_repr".toList [] none) ++ ")")) := by
      have e : (name ++ (t ++ "{data_map_repr})")).toList = (name.toList ++ t.toList) ++ "{data_map_repr})".toList := by
        simp
      rw [render, e, tokenize_default _ _ (by simp [ht0])
        (by intro c hc; rcases List.mem_append.1 hc with hc | hc; exacts [hn c hc, ht c hc])]
      dsimp only
      rw [C37_format]
      · congr 1
        simp only [List.map_cons, List.map_nil, toTok, segment, String.join_cons, String.join_nil]
        apply String.toList_injective
        simp
      · refine ⟨hb.1, fun t ht => ?_⟩
        simp only [List.map_cons, List.map_nil, toTok, List.mem_cons, List.not_mem_nil, or_false] at ht
        rcases ht with rfl | rfl | rfl
        · trivial
        · exact hb.2 _ (by simp)
        · trivial
    simp only [message, hmem, if_true, hr]
  cases d <;> cases hasData
  · exact plain _ (by decide)
  · exact plain _ (by decide)
  · exact plain _ (by decide)
  · have := data " succeeded - (" (by decide) (by decide) (hn1 rfl (by simp))
    simp only [defaultMessage]
    exact this
  · exact plain _ (by decide)
  · have := data " failed - (" (by decide) (by decide) (hn1 rfl (by simp))
    simp only [defaultMessage]
    exact this

example : (message sampleFmt ⟨some (defaultMessage .failure "load } x" false), [], none⟩ (sampleNow "v")).1 =
    some "load } x failed" :=
  C70_default_partial sampleFmt "load } x" .failure false (by decide) (by decide) [] (sampleNow "v")
    ⟨by intro n; simp [sampleNow], by intro t ht; simp only [List.mem_singleton] at ht; subst ht; simp [sampleFmt]⟩

/-- C70 fails for a name with braces: the name is itself taken as a template; and with a `}` and data it cannot be read. -/
theorem C70_violated :
    (message sampleFmt ⟨some (defaultMessage .success "job {x}" false), [], none⟩ (sampleNow "v")).1 =
      some "job v succeeded" ∧
    (message sampleFmt ⟨some (defaultMessage .success "job }" true), [], none⟩ (sampleNow "v")).1 = none ∧
    (message sampleFmt ⟨some (defaultMessage .success "job }" false), [], none⟩ (sampleNow "v")).1 =
      some "job } succeeded" := by decide

example := C40_plain_partial sampleFmt "a } b" (by decide) ["1"] [sampleNow "v", sampleNow "w"]

example : ∀ r ∈ reads sampleFmt (message sampleFmt ⟨some "x is {x}!", [], none⟩ (sampleNow "v")).2 [sampleNow "w"],
    r = some "x is v!" := C40_after_read_partial sampleFmt _ _ _ (by decide) (by decide) _

/-- A message with a brace that is not closed. -/
example := C68_no_raise_partial sampleFmt ⟨some "a {x", [], none⟩ (sampleNow "v") (by intro k; simp [sampleNow])
  (by intro nm spec conv; exact ⟨_, _, _, _, _, _, rfl, by simp, by simp, by simp⟩) (by decide)

example := C68_raises sampleFmt "a {x" [] (by decide) (by decide) [sampleNow "v", sampleNow "w"]

end Verif.Msg
