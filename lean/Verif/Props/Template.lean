import Verif.Spec.Template
import Verif.Props.Message
import Verif.Props.Json
/-!
# C86: what messages show; C87, C88: formatters
-/
namespace Verif.Tmpl

open Verif.Sens Verif.Msg

/-! ## Numbers -/

theorem digit_spec : ∀ d < 10, (digit d).isDigit = true ∧ (digit d).toNat - 48 = d := by decide

theorem dec_digits (n : Nat) : ∀ c ∈ dec n, c.isDigit = true := by
  induction n using Nat.strongRecOn with
  | ind n ih =>
    rw [dec]
    split
    · rename_i h; intro c hc; simp only [List.mem_singleton] at hc; subst hc; exact (digit_spec n h).1
    · intro c hc
      rcases List.mem_append.1 hc with hc | hc
      · exact ih (n / 10) (by omega) c hc
      · simp only [List.mem_singleton] at hc; subst hc; exact (digit_spec (n % 10) (by omega)).1

theorem dec_ne_nil (n : Nat) : dec n ≠ [] := by
  rw [dec]; split <;> simp

theorem readDec_dec (n : Nat) : readDec (dec n) = n := by
  induction n using Nat.strongRecOn with
  | ind n ih =>
    rw [dec]
    split
    · rename_i h; simp [readDec, (digit_spec n h).2]
    · rw [readDec, List.foldl_append]
      have := ih (n / 10) (by omega)
      rw [readDec] at this
      rw [this]
      simp only [List.foldl_cons, List.foldl_nil, (digit_spec (n % 10) (by omega)).2]
      omega

theorem digit_ordinary {c : Char} (h : c.isDigit = true) : Ordinary c := by
  refine ⟨?_, ?_, ?_, ?_, ?_, ?_⟩ <;> rintro rfl <;> revert h <;> decide

/-! ## Numbering -/

theorem infer_close (num : Nat → List Char) (n : Nat) : ∀ q, infer num n ('}' :: q) = '}' :: infer num n q := by
  intro q
  induction q with
  | nil => simp [infer]
  | cons d q ih =>
    by_cases hd : d = '}'
    · subst hd; rw [ih]; simp [infer]
    · rw [infer, if_neg (by simp), if_neg (by simp [hd]), if_neg (by simp)]

theorem infer_skip {num : Nat → List Char} {n : Nat} {c : Char} (h : c ≠ '{') (q : List Char) :
    infer num n (c :: q) = c :: infer num n q := by
  by_cases hc : c = '}'
  · subst hc; exact infer_close num n q
  · exact infer_cons ⟨h, hc⟩ q

theorem infer_skips {num : Nat → List Char} {n : Nat} : ∀ (p q : List Char), (∀ c ∈ p, c ≠ '{') →
    infer num n (p ++ q) = p ++ infer num n q := by
  intro p
  induction p with
  | nil => intros; rfl
  | cons c p ih =>
    intro q h
    rw [List.cons_append, infer_skip (h c (by simp)), ih q fun c hc => h c (by simp [hc])]; rfl

/-- The part of a field after its name. -/
def opts (conv : Option Char) (spec : List Char) : List Char :=
  (match conv with | some c => ['!', c] | none => []) ++ (if spec = [] then [] else [':'] ++ spec) ++ ['}']

theorem field_eq (k : List Char) (conv : Option Char) (spec : List Char) : field k conv spec = '{' :: (k ++ opts conv spec) := by
  simp only [field, opts, List.append_assoc, List.cons_append, List.nil_append]
  rfl

theorem opts_cons (conv : Option Char) (spec : List Char) :
    ∃ d r, opts conv spec = d :: r ∧ (d = ':' ∨ d = '!' ∨ d = '}') := by
  unfold opts
  cases conv with
  | some c => exact ⟨'!', _, rfl, .inr (.inl rfl)⟩
  | none =>
    by_cases h : spec = []
    · subst h; exact ⟨'}', _, rfl, .inr (.inr rfl)⟩
    · rw [if_neg h]; exact ⟨':', _, rfl, .inl rfl⟩

theorem balanced_plain : ∀ {s : List Char}, (∀ c ∈ s, c ≠ '{' ∧ c ≠ '}') → Balanced 0 s
  | [], _ => rfl
  | c :: s, h => by
    have hc := h c (by simp)
    simp only [Balanced, hc.1, hc.2, if_false]
    exact balanced_plain fun c hc => h c (by simp [hc])

/-- Text that numbering leaves alone, whatever follows. -/
def Fixed (p : List Char) : Prop := ∀ (num : Nat → List Char) (n : Nat) (q : List Char), infer num n (p ++ q) = p ++ infer num n q

theorem fixed_skips {p : List Char} (h : ∀ c ∈ p, c ≠ '{') : Fixed p := fun _ _ q => infer_skips p q h

theorem Fixed.append {p r : List Char} (hp : Fixed p) (hr : Fixed r) : Fixed (p ++ r) := fun num n q => by
  rw [List.append_assoc, hp, hr, List.append_assoc]

theorem infer_open {num : Nat → List Char} {n : Nat} {d : Char} (hd : Ordinary d) (q : List Char) :
    infer num n ('{' :: d :: q) = '{' :: infer num n (d :: q) := by
  rw [infer, if_neg (by simp [hd.1]), if_neg (by simp), if_neg]
  simp [hd.2.1, hd.2.2.1, hd.2.2.2.1, hd.2.2.2.2.1, hd.2.2.2.2.2]

theorem fixed_balanced : ∀ (s : List Char) (d : Nat), Balanced d s → Fixed s
  | [], _, _ => fun _ _ _ => rfl
  | c :: s, d, h => by
    intro num n q
    simp only [Balanced] at h
    by_cases h1 : c = '{'
    · subst h1
      rw [if_pos rfl] at h
      obtain ⟨⟨e, r, rfl, he⟩, hb⟩ := h
      have := fixed_balanced (e :: r) _ hb num n q
      simp only [List.cons_append] at this ⊢
      rw [infer_open he, this]
    · have hs : ∃ d, Balanced d s := by
        rw [if_neg h1] at h
        split at h
        · exact ⟨_, h.2⟩
        · exact ⟨_, h⟩
      obtain ⟨d, hs⟩ := hs
      rw [List.cons_append, infer_skip h1, fixed_balanced s d hs]; rfl

theorem opts_fixed {conv : Option Char} {spec : List Char} (h1 : ∀ c, conv = some c → c ≠ '{' ∧ c ≠ '}')
    (h2 : Balanced 0 spec) : Fixed (opts conv spec) := by
  unfold opts
  refine (Fixed.append (fixed_skips ?_) ?_).append (fixed_skips (by simp))
  · intro c hc
    cases conv with
    | none => simp at hc
    | some d =>
      simp only [List.mem_cons, List.not_mem_nil, or_false] at hc
      rcases hc with rfl | rfl
      · decide
      · exact (h1 _ rfl).1
  · split
    · exact fixed_skips (by simp)
    · exact (fixed_skips (by simp)).append (fixed_balanced _ _ h2)

theorem infer_named {num : Nat → List Char} {n : Nat} {k r : List Char} (hk : k ≠ []) (ho : ∀ c ∈ k, Ordinary c)
    (hr : Fixed r) (q : List Char) :
    infer num n ('{' :: (k ++ r) ++ q) = '{' :: (k ++ r) ++ infer num n q := by
  obtain ⟨d, k, rfl⟩ := List.exists_cons_of_ne_nil hk
  have h1 := infer_open (num := num) (n := n) (ho d (by simp)) (k ++ r ++ q)
  have h2 := (fixed_skips fun c hc => (ho c hc).1).append hr num n q
  simp only [List.cons_append, List.append_assoc] at h1 h2 ⊢
  rw [h1, h2]

theorem infer_lit {num : Nat → List Char} {n : Nat} (q : List Char) : ∀ s : List Char,
    infer num n ((Part.lit s).write ++ q) = (Part.lit s).write ++ infer num n q := by
  intro s
  induction s with
  | nil => rfl
  | cons c s ih =>
    simp only [Part.write, List.flatMap_cons, List.append_assoc] at ih ⊢
    by_cases h1 : c = '{'
    · subst h1
      simp only [true_or, if_true, List.cons_append, List.nil_append]
      rw [infer, if_pos ⟨rfl, rfl⟩, ih]
    · rw [infer_skips _ _ (by intro d hd; split at hd <;> simp at hd <;> rw [hd] <;> exact h1), ih]

theorem infer_write : ∀ (ps : List Part) (n : Nat), (∀ p ∈ ps, p.Ok) → infer dec n (write ps) = write (numbered n ps) := by
  intro ps
  induction ps with
  | nil => intro n _; rfl
  | cons p ps ih =>
    intro n h
    have ih' := fun n => ih n (fun p hp => h p (by simp [hp]))
    have hp := h p (by simp)
    cases p with
    | lit s => simp only [write, List.flatMap_cons, numbered] at ih' ⊢; rw [infer_lit, ih']
    | auto conv spec =>
      simp only [Part.Ok] at hp
      simp only [write, List.flatMap_cons, numbered, Part.write, field_eq, List.nil_append] at ih' ⊢
      obtain ⟨d, r, ho, hd⟩ := opts_cons conv spec
      have hfix := opts_fixed hp.1 hp.2
      rw [ho] at hfix ⊢
      simp only [List.cons_append]
      have hr := hfix dec (n + 1) (List.flatMap Part.write ps)
      rw [List.cons_append, infer_skip (by rcases hd with rfl | rfl | rfl <;> decide), List.cons_append, List.cons.injEq] at hr
      replace hr := hr.2
      have : infer dec n ('{' :: d :: (r ++ List.flatMap Part.write ps)) =
          '{' :: (dec n ++ d :: infer dec (n + 1) (r ++ List.flatMap Part.write ps)) := by
        rw [infer, if_neg (by rcases hd with rfl | rfl | rfl <;> decide),
          if_neg (by simp), if_pos (by rcases hd with rfl | rfl | rfl <;> simp)]
      rw [this, hr, ih']
      simp [List.append_assoc]
    | num i conv spec =>
      simp only [Part.Ok] at hp
      simp only [write, List.flatMap_cons, numbered, Part.write, field_eq] at ih' ⊢
      rw [infer_named (dec_ne_nil i) (fun c hc => digit_ordinary (dec_digits i c hc)) (opts_fixed hp.1 hp.2), ih']
    | name k conv spec =>
      simp only [Part.Ok] at hp
      have hk : k ≠ [] := by rintro rfl; simp at hp
      simp only [write, List.flatMap_cons, numbered, Part.write, field_eq] at ih' ⊢
      rw [infer_named hk hp.1 (opts_fixed hp.2.2.1 hp.2.2.2), ih']

/-! ## Parsing -/

/-- Pieces character by character. -/
def Piece.flat : Piece → List (Char ⊕ TField)
  | .lit s => s.map .inl
  | .field nm spec conv => [.inr ⟨nm, spec, conv⟩]

def flat (ps : List Piece) : List (Char ⊕ TField) := ps.flatMap Piece.flat

def Part.flat : Part → List (Char ⊕ TField)
  | .lit s => s.map .inl
  | .auto conv spec => [.inr ⟨[], spec, conv⟩]
  | .num i conv spec => [.inr ⟨dec i, spec, conv⟩]
  | .name k conv spec => [.inr ⟨k, spec, conv⟩]

theorem flat_emitLit (s : List Char) : flat (emitLit s) = s.map .inl := by
  unfold emitLit; split
  · rename_i h; subst h; rfl
  · simp [flat, Piece.flat]

theorem parse_name (acc k q : List Char) (ho : ∀ c ∈ k, Ordinary c) : parse (.name acc) (k ++ q) = parse (.name (acc ++ k)) q := by
  induction k generalizing acc with
  | nil => simp
  | cons c k ih =>
    have hc := ho c (by simp)
    rw [List.cons_append, parse]
    · simp only [pstep, nameChar, hc.1, hc.2.1, hc.2.2.1, hc.2.2.2.2.1, hc.2.2.2.2.2, if_false]
      rw [ih _ fun c hc => ho c (by simp [hc])]
      simp

theorem parse_opened {acc k q : List Char} (hk : k ≠ []) (ho : ∀ c ∈ k, Ordinary c) :
    parse (.lit acc) ('{' :: (k ++ q)) = (parse (.name k) q).map (emitLit acc ++ ·) := by
  obtain ⟨d, k, rfl⟩ := List.exists_cons_of_ne_nil hk
  have hd := ho d (by simp)
  have h1 : parse (.opened acc) (d :: (k ++ q)) = (parse (.name [d]) (k ++ q)).map (emitLit acc ++ ·) := by
    rw [parse]
    · simp only [pstep, nameChar, hd.1, hd.2.1, hd.2.2.1, hd.2.2.2.2.1, hd.2.2.2.2.2, if_false]
      simp
  rw [parse]
  · simp only [pstep, if_true, List.cons_append, h1]
    rw [parse_name _ _ _ fun c hc => ho c (by simp [hc])]
    simp; rfl

theorem parse_spec {nm q : List Char} {conv : Option Char} : ∀ (spec acc : List Char) (d : Nat), Balanced d spec →
    parse (.spec nm acc conv (d + 1)) (spec ++ '}' :: q) = (parse (.lit []) q).map ([.field nm (acc ++ spec) conv] ++ ·)
  | [], acc, d, h => by
    simp only [Balanced] at h; subst h
    rw [List.nil_append, parse]; simp [pstep]
  | c :: spec, acc, d, h => by
    simp only [Balanced] at h
    rw [List.cons_append, parse]
    by_cases h1 : c = '{'
    · subst h1
      rw [if_pos rfl] at h
      simp only [pstep, if_true]
      rw [parse_spec spec _ _ h.2]; simp; rfl
    · rw [if_neg h1] at h
      by_cases h2 : c = '}'
      · subst h2
        rw [if_pos rfl] at h
        obtain ⟨e, rfl⟩ : ∃ e, d = e + 1 := ⟨d - 1, by omega⟩
        simp only [pstep, h1, if_false, if_true]
        rw [if_neg (by omega), show e + 1 + 1 - 1 = e + 1 by omega]
        have hb : Balanced e spec := h.2
        show Option.map _ (parse _ _) = _
        rw [parse_spec spec _ _ hb]; simp; rfl
      · rw [if_neg h2] at h
        simp only [pstep, h1, h2, if_false]
        rw [parse_spec spec _ _ h]; simp; rfl

theorem parse_opts {k q : List Char} {conv : Option Char} {spec : List Char}
    (h1 : ∀ c, conv = some c → c ≠ '{' ∧ c ≠ '}') (h2 : Balanced 0 spec) :
    parse (.name k) (opts conv spec ++ q) = (parse (.lit []) q).map ([.field k spec conv] ++ ·) := by
  unfold opts
  cases conv with
  | none =>
    by_cases hs : spec = []
    · subst hs; simp only [if_true, List.nil_append, List.cons_append]; rw [parse]; simp [pstep, nameChar]
    · simp only [if_neg hs, List.nil_append, List.cons_append, List.append_assoc]
      rw [parse]
      · simp only [pstep, nameChar]
        simp only [show (':' : Char) ≠ '{' by decide, show (':' : Char) ≠ '[' by decide, show (':' : Char) ≠ '}' by decide,
          if_false, if_true]
        rw [parse_spec _ _ 0 h2]; simp; rfl
  | some c =>
    by_cases hs : spec = []
    · subst hs
      simp only [if_true, List.nil_append, List.cons_append]
      simp [parse, pstep, nameChar]; rfl
    · simp only [if_neg hs, List.nil_append, List.cons_append, List.append_assoc]
      have hp := parse_spec (nm := k) (q := q) (conv := some c) spec [] 0 h2
      simp only [List.nil_append] at hp
      simp [parse, pstep, nameChar, hp]; rfl

theorem parse_lit : ∀ (s acc q : List Char), ∃ pre a, (∀ out, parse (.lit a) q = some out →
      parse (.lit acc) ((Part.lit s).write ++ q) = some (pre ++ out)) ∧
      flat pre ++ a.map .inl = (acc ++ s).map (.inl : Char → Char ⊕ TField) := by
  intro s
  induction s with
  | nil => intro acc q; exact ⟨[], acc, fun out h => by simpa [Part.write] using h, by simp [flat]⟩
  | cons c s ih =>
    intro acc q
    simp only [Part.write, List.flatMap_cons, List.append_assoc] at ih ⊢
    have brace : ∀ b : Char, (b = '{' ∨ b = '}') → c = b → ∃ pre a, (∀ out, parse (.lit a) q = some out →
        parse (.lit acc) ((if c = '{' ∨ c = '}' then [c, c] else [c]) ++
          (List.flatMap (fun c => if c = '{' ∨ c = '}' then [c, c] else [c]) s ++ q)) = some (pre ++ out)) ∧
        flat pre ++ a.map .inl = (acc ++ c :: s).map (.inl : Char → Char ⊕ TField) := by
      rintro b hb rfl
      obtain ⟨pre, a, h1, h2⟩ := ih [] q
      refine ⟨emitLit (acc ++ [c]) ++ pre, a, fun out h => ?_, ?_⟩
      · rw [if_pos hb]
        have := h1 out h
        rcases hb with rfl | rfl <;> simp [parse, pstep, this]
      · rw [flat, List.flatMap_append, List.append_assoc]
        show flat (emitLit (acc ++ [c])) ++ (flat pre ++ _) = _
        rw [h2, flat_emitLit]; simp
    by_cases h1 : c = '{'
    · exact brace '{' (.inl rfl) h1
    · by_cases h2 : c = '}'
      · exact brace '}' (.inr rfl) h2
      · obtain ⟨pre, a, h3, h4⟩ := ih (acc ++ [c]) q
        refine ⟨pre, a, fun out h => ?_, by rw [h4]; simp⟩
        rw [if_neg (by simp [h1, h2])]
        have := h3 out h
        simp only [List.cons_append, List.nil_append]
        rw [parse]
        · simp [pstep, h1, h2, this]

theorem parse_write : ∀ (ps : List Part) (acc : List Char), (∀ p ∈ ps, p.Ok) → (∀ c s, Part.auto c s ∉ ps) →
    ∃ out, parse (.lit acc) (write ps) = some out ∧ flat out = acc.map .inl ++ ps.flatMap Part.flat := by
  intro ps
  induction ps with
  | nil => intro acc _ _; exact ⟨emitLit acc, rfl, by rw [flat_emitLit]; simp⟩
  | cons p ps ih =>
    intro acc h ha
    have ih' := fun acc => ih acc (fun p hp => h p (by simp [hp])) (fun c s hm => ha c s (by simp [hm]))
    have hp := h p (by simp)
    have fieldCase : ∀ (k : List Char) conv spec, k ≠ [] → (∀ c ∈ k, Ordinary c) →
        (∀ c, conv = some c → c ≠ '{' ∧ c ≠ '}') → Balanced 0 spec →
        ∃ out, parse (.lit acc) (field k conv spec ++ write ps) = some out ∧
          flat out = acc.map .inl ++ ([.inr ⟨k, spec, conv⟩] ++ ps.flatMap Part.flat) := by
      intro k conv spec hk ho h1 h2
      obtain ⟨out, h3, h4⟩ := ih' []
      refine ⟨emitLit acc ++ ([.field k spec conv] ++ out), ?_, ?_⟩
      · rw [field_eq, List.cons_append, List.append_assoc, parse_opened hk ho, parse_opts h1 h2, h3]; rfl
      · rw [flat, List.flatMap_append, List.flatMap_append]
        show flat (emitLit acc) ++ (_ ++ flat out) = _
        rw [flat_emitLit, h4]
        simp [Piece.flat]
    cases p with
    | auto c s => exact absurd List.mem_cons_self (ha c s)
    | lit s =>
      obtain ⟨pre, a, h1, h2⟩ := parse_lit s acc (write ps)
      obtain ⟨out, h3, h4⟩ := ih' a
      refine ⟨pre ++ out, h1 out h3, ?_⟩
      rw [flat, List.flatMap_append]
      show flat pre ++ flat out = _
      rw [h4, ← List.append_assoc, h2]
      simp [Part.flat]
    | num i conv spec =>
      simp only [Part.Ok] at hp
      exact fieldCase (dec i) conv spec (dec_ne_nil i) (fun c hc => digit_ordinary (dec_digits i c hc)) hp.1 hp.2
    | name k conv spec =>
      simp only [Part.Ok] at hp
      exact fieldCase k conv spec (by rintro rfl; simp at hp) hp.1 hp.2.2.1 hp.2.2.2

/-! ## Formatting -/

/-- The token of a piece in a formatter without quoting and with default defaults. -/
def tokOf {V : Type} (c : Conf V) : Piece → Token
  | .lit s => .lit s
  | .field nm spec conv =>
    .field ⟨nm, if spec = [] then ((c.defs (String.ofList nm)).map (·.spec)).getD [] else spec, conv⟩
      (some (String.ofList (TField.text ⟨nm, spec, conv⟩))) (some none)

theorem mkField_plain {V : Type} (c : Conf V) (nm spec : List Char) (conv : Option Char) :
    mkField c defaultDefaulter noQuoter ⟨nm, spec, conv⟩ = .ok (tokOf c (.field nm spec conv)) := by
  simp only [mkField, defaultDefaulter, noQuoter, tokOf]
  by_cases h : spec = []
  · subst h; simp only [if_true]
    cases hd : c.defs (String.ofList nm) <;> simp
  · simp only [if_neg h]

theorem mkTokens_plain {V : Type} (c : Conf V) : ∀ ps, mkTokens c defaultDefaulter noQuoter ps = .ok (ps.map (tokOf c)) := by
  intro ps
  induction ps with
  | nil => rfl
  | cons p ps ih =>
    cases p with
    | lit s => simp only [mkTokens, ih, List.map_cons, tokOf]
    | field nm spec conv => simp only [mkTokens, mkField_plain, ih, List.map_cons]

/-- What one atom of a template shows. -/
def atom {V : Type} (c : Conf V) (dataMap : String → Option V) (args : List V) : Char ⊕ TField → String
  | .inl ch => String.ofList [ch]
  | .inr t => orWritten t.text (value c (fun _ => none) dataMap args
      ⟨t.name, if t.spec = [] then ((c.defs (String.ofList t.name)).map (·.spec)).getD [] else t.spec, t.conv⟩)

theorem look_eq {V : Type} (c : Conf V) (dataMap : String → Option V) (k : String) :
    look c (fun _ => none) dataMap k = named c dataMap k := by
  simp only [look, lookup, named]
  cases dataMap k with
  | some v => rfl
  | none =>
    cases c.defs k with
    | none => rfl
    | some f =>
      cases hg : f.getter with
      | none => simp [hg]
      | some r => cases r <;> simp [hg]

theorem named_ne_base {V : Type} {c : Conf V} (hc : c.Calm) (dataMap : String → Option V) (k : String) :
    named c dataMap k ≠ .base := by
  simp only [named]
  split
  · simp
  · split
    · simp
    · rename_i f hf
      split
      · simp
      · rename_i r hr
        rintro rfl
        exact hc.getter _ _ hf hr
      · simp

theorem value_ne_base {V : Type} {c : Conf V} (hc : c.Calm) (dataMap : String → Option V) (args : List V) (t : TField) :
    value c (fun _ => none) dataMap args t ≠ .base := by
  simp only [value, look_eq]
  split
  · split
    · exact hc.fmt _ _ _ _ _
    · simp
  · have := named_ne_base hc dataMap (String.ofList t.base)
    cases hn : named c dataMap (String.ofList t.base) <;> simp_all
    exact hc.fmt _ _ _ _ _

theorem join_chars (s : List Char) (f : Char ⊕ TField → String) (hf : ∀ c, f (.inl c) = String.ofList [c]) :
    String.join ((s.map .inl).map f) = String.ofList s := by
  induction s with
  | nil => simp
  | cons c s ih =>
    simp only [List.map_cons, String.join_cons, ih, hf]
    apply String.toList_injective; simp

theorem join_append (a b : List String) : String.join (a ++ b) = String.join a ++ String.join b := by
  induction a with
  | nil => simp
  | cons x a ih => simp [String.join_cons, ih, String.append_assoc]

theorem format_plain {V : Type} {c : Conf V} (hc : c.Calm) (dataMap : String → Option V) (args : List V) :
    ∀ (ps : List Piece) (acc : String), formatTokens c (fun _ => none) dataMap args (ps.map (tokOf c)) acc =
      .ok (acc ++ String.join ((flat ps).map (atom c dataMap args))) := by
  intro ps
  induction ps with
  | nil => intro acc; simp [formatTokens, flat]
  | cons p ps ih =>
    intro acc
    simp only [flat, List.flatMap_cons, List.map_append, join_append] at ih ⊢
    cases p with
    | lit s =>
      simp only [List.map_cons, tokOf, formatTokens, ih, Piece.flat]
      rw [join_chars _ _ (fun _ => rfl), String.append_assoc]
    | field nm spec conv =>
      simp only [List.map_cons, tokOf, formatTokens, attempt, Piece.flat, List.map_nil, String.join_cons,
        String.join_nil, String.append_empty, atom]
      have hb := value_ne_base hc dataMap args
        ⟨nm, if spec = [] then ((c.defs (String.ofList nm)).map (·.spec)).getD [] else spec, conv⟩
      cases hv : value c (fun _ => none) dataMap args
        ⟨nm, if spec = [] then ((c.defs (String.ofList nm)).map (·.spec)).getD [] else spec, conv⟩ with
      | base => exact absurd hv hb
      | ok s => simp only [ih, orWritten, String.append_assoc]
      | keyError => simp only [ih, orWritten, String.append_assoc]
      | exc => simp only [ih, orWritten, String.append_assoc]

theorem takeWhile_ordinary {k : List Char} (ho : ∀ c ∈ k, Ordinary c) :
    k.takeWhile (fun c => decide (c ≠ '.' ∧ c ≠ '[')) = k ∧ k.dropWhile (fun c => decide (c ≠ '.' ∧ c ≠ '[')) = [] := by
  have h : ∀ c ∈ k, (decide (c ≠ '.' ∧ c ≠ '[')) = true := fun c hc => by
    have := ho c hc
    simp [this.2.2.1, this.2.2.2.1]
  clear ho
  induction k with
  | nil => exact ⟨rfl, rfl⟩
  | cons c k ih =>
    have h1 := h c (by simp)
    have h2 := ih fun c hc => h c (by simp [hc])
    exact ⟨by rw [List.takeWhile_cons, h1, if_pos rfl, h2.1], by rw [List.dropWhile_cons, h1, if_pos rfl, h2.2]⟩

theorem text_eq (k : List Char) (conv : Option Char) (spec : List Char) : TField.text ⟨k, spec, conv⟩ = field k conv spec := by
  simp only [TField.text, field, List.append_assoc, List.cons_append, List.nil_append]
  rfl

theorem atom_part {V : Type} {c : Conf V} (hc : c.Calm) (dataMap : String → Option V) (args : List V) (p : Part)
    (hp : p.Ok) (ha : ∀ cv s, p ≠ .auto cv s) :
    String.join (p.flat.map (atom c dataMap args)) = p.shown c dataMap args := by
  cases p with
  | auto cv s => exact absurd rfl (ha cv s)
  | lit s => exact join_chars s _ (fun _ => rfl)
  | num i conv spec =>
    have ho : ∀ c ∈ dec i, Ordinary c := fun c hc => digit_ordinary (dec_digits i c hc)
    have ht := takeWhile_ordinary ho
    simp only [Part.flat, List.map_cons, List.map_nil, String.join_cons, String.join_nil, String.append_empty, atom,
      text_eq, Part.shown, hc.numbers i, Option.map_none, Option.getD_none]
    have hs : (if spec = [] then [] else spec) = spec := by split <;> simp_all
    simp only [value, TField.positional, TField.base, TField.path, ht.1, ht.2, hs, readDec_dec]
    rw [if_pos (List.all_eq_true.2 (dec_digits i))]
    cases args[i]? with
    | none => rfl
    | some v => rfl
  | name k conv spec =>
    simp only [Part.Ok] at hp
    have ht := takeWhile_ordinary hp.1
    simp only [Part.flat, List.map_cons, List.map_nil, String.join_cons, String.join_nil, String.append_empty, atom,
      text_eq, Part.shown]
    simp only [value, TField.positional, TField.base, TField.path, ht.1, ht.2, look_eq]
    obtain ⟨d, hd, hd'⟩ := hp.2.1
    rw [if_neg (by intro h; rw [List.all_eq_true] at h; rw [h d hd] at hd'; cases hd')]
    cases named c dataMap (String.ofList k) <;> rfl

theorem numbered_ok : ∀ (ps : List Part) (n : Nat), (∀ p ∈ ps, p.Ok) →
    (∀ p ∈ numbered n ps, p.Ok) ∧ ∀ cv s, Part.auto cv s ∉ numbered n ps := by
  intro ps
  induction ps with
  | nil => intro n _; simp [numbered]
  | cons p ps ih =>
    intro n h
    have ih' := fun n => ih n (fun p hp => h p (by simp [hp]))
    have hp := h p (by simp)
    cases p with
    | auto cv s =>
      simp only [numbered, List.mem_cons, forall_eq_or_imp, reduceCtorEq, false_or]
      exact ⟨⟨hp, (ih' (n + 1)).1⟩, (ih' (n + 1)).2⟩
    | _ =>
      simp only [numbered, List.mem_cons, forall_eq_or_imp, reduceCtorEq, false_or]
      exact ⟨⟨hp, (ih' n).1⟩, (ih' n).2⟩

/-- **C86.**  The message of an event, when it is first read, is what its template shows, part by part: literal text as it
is; fields without a name the positional arguments in order, numbered ones the argument of that number; named ones the
value from the data map, else that of the built-in field of that name (with the format the field has unless the template
says another), else None; and a field that cannot be shown appears as it is written, disturbing nothing else.  For
templates that contain a `{`; others are shown verbatim. -/
theorem C86_message {V : Type} {c : Conf V} (hc : c.Calm) (ps : List Part) (hok : ∀ p ∈ ps, p.Ok)
    (hb : '{' ∈ write ps) (dataMap : String → Option V) (args : List V) :
    messageText c (write ps) dataMap args = .ok (shown c dataMap args ps) := by
  obtain ⟨h1, h2⟩ := numbered_ok ps 0 hok
  obtain ⟨out, h3, h4⟩ := parse_write (numbered 0 ps) [] h1 h2
  simp only [messageText, if_pos hb, formatAll, construct, tokenize, infer_write ps 0 hok, h3, mkTokens_plain,
    format_plain hc, h4]
  congr 1
  simp only [List.map_nil, List.nil_append, shown, String.empty_append]
  clear h3 h4 out hb
  generalize numbered 0 ps = qs at h1 h2
  induction qs with
  | nil => rfl
  | cons p qs ih =>
    simp only [List.flatMap_cons, List.map_append, join_append, List.map_cons, String.join_cons]
    rw [atom_part hc dataMap args p (h1 p (by simp)) (fun cv s h => h2 cv s (by simp [h])),
      ih (fun p hp => h1 p (by simp [hp])) (fun cv s hm => h2 cv s (by simp [hm]))]

/-- The message formatter of Model/Message.lean with all its parts. -/
def fmtOf {V : Type} (c : Conf V) : Fmt V :=
  { num := dec
    mkField := fun nm spec conv =>
      let spec' := if spec = [] then ((c.defs (String.ofList nm)).map (·.spec)).getD [] else spec
      let t : TField := ⟨nm, spec', conv⟩
      .field (String.ofList t.base) t.positional (fun v => c.fmt t.path conv spec' [] v)
        (fun args => match args[readDec t.base]? with | some v => c.fmt t.path conv spec' args v | none => .exc)
        (String.ofList (TField.text ⟨nm, spec, conv⟩)) none
    nothing := c.nothing }

/-- The state of the world a message is read in. -/
def nowOf {V : Type} (c : Conf V) (dataMap : String → Option V) : Now V :=
  ⟨dataMap, fun k => (c.defs k).map fun f => f.getter.getD .exc⟩

theorem formatLoop_tokens {V : Type} (c : Conf V) (dataMap : String → Option V) (args : List V) :
    ∀ (ps : List Piece) (acc : String),
      formatLoop (look c (fun _ => none) dataMap) args (ps.map (toTok (fmtOf c).mkField)) acc =
        (match formatTokens c (fun _ => none) dataMap args (ps.map (tokOf c)) acc with
          | .ok s => some s
          | _ => none) := by
  intro ps
  induction ps with
  | nil => intro acc; rfl
  | cons p ps ih =>
    intro acc
    cases p with
    | lit s => simp only [List.map_cons, toTok, tokOf, formatLoop, formatTokens, ih]
    | field nm spec conv =>
      simp only [List.map_cons, toTok, tokOf, formatLoop, formatTokens, fmtOf, renderField, attempt, value] at ih ⊢
      generalize (if spec = [] then ((c.defs (String.ofList nm)).map (·.spec)).getD [] else spec) = sp
      by_cases hpos : TField.positional ⟨nm, sp, conv⟩ = true
      · simp only [hpos, if_true]
        cases hv : args[readDec (TField.base ⟨nm, sp, conv⟩)]? with
        | none => simp only [ih]
        | some v =>
          simp only
          cases c.fmt (TField.path ⟨nm, sp, conv⟩) conv sp args v <;> simp only [ih]
      · simp only [hpos]
        cases hl : look c (fun _ => none) dataMap (String.ofList (TField.base ⟨nm, sp, conv⟩)) with
        | ok v =>
          simp only [Bool.false_eq_true, if_false]
          cases c.fmt (TField.path ⟨nm, sp, conv⟩) conv sp [] v <;> simp only [ih]
        | keyError => simp only [Bool.false_eq_true, if_false, ih]
        | exc => simp only [Bool.false_eq_true, if_false, ih]
        | base => simp only [Bool.false_eq_true, if_false]

/-- The first read of `Event.message` gives `messageText`. -/
theorem message_first {V : Type} (c : Conf V) (raw : List Char) (dataMap : String → Option V) (fargs : List V) :
    (message (fmtOf c) ⟨some (String.ofList raw), fargs, none⟩ (nowOf c dataMap)).1 =
      (match messageText c raw dataMap fargs with
        | .ok s => some s
        | _ => none) := by
  simp only [message, messageText, String.toList_ofList]
  by_cases h : '{' ∈ raw
  · simp only [if_pos h, render, formatAll, construct, String.toList_ofList]
    show (match (match tokenize dec raw with
      | none => none
      | some ps => format (ps.map (toTok (fmtOf c).mkField)) c.nothing (fun _ => none) dataMap
          (fun k => (c.defs k).map fun (f : FieldDef V) => f.getter.getD .exc) fargs) with
      | none => (none, _) | some m => (some m, _)).1 = _
    cases tokenize dec raw with
    | none => rfl
    | some ps =>
      simp only [mkTokens_plain]
      have hf := formatLoop_tokens c dataMap fargs ps ""
      have hg : format (ps.map (toTok (fmtOf c).mkField)) c.nothing (fun _ => none) dataMap
          (fun k => (c.defs k).map fun (f : FieldDef V) => f.getter.getD .exc) fargs =
        formatLoop (look c (fun _ => none) dataMap) fargs (ps.map (toTok (fmtOf c).mkField)) "" := rfl
      rw [hg, hf]
      cases formatTokens c (fun _ => none) dataMap fargs (ps.map (tokOf c)) "" <;> rfl
  · simp only [if_neg h]

/-- C86 for `Event.message`: the first read, and every later one while it is not empty, whatever the data map then. -/
theorem C86_reads {V : Type} {c : Conf V} (hc : c.Calm) (ps : List Part) (hok : ∀ p ∈ ps, p.Ok)
    (hb : '{' ∈ write ps) (dataMap : String → Option V) (args : List V) (later : List (Now V))
    (hne : shown c dataMap args ps ≠ "") :
    reads (fmtOf c) ⟨some (String.ofList (write ps)), args, none⟩ (nowOf c dataMap :: later) =
      some (shown c dataMap args ps) :: later.map fun _ => some (shown c dataMap args ps) := by
  have h1 := message_first c (write ps) dataMap args
  rw [C86_message hc ps hok hb] at h1
  simp only at h1
  have h2 := C40_after_read_partial (fmtOf c) ⟨some (String.ofList (write ps)), args, none⟩ (nowOf c dataMap)
    (shown c dataMap args ps) h1 hne
  simp only [reads, h1, List.cons.injEq, true_and]
  have h3 : ∀ r ∈ reads (fmtOf c) (message (fmtOf c) ⟨some (String.ofList (write ps)), args, none⟩ (nowOf c dataMap)).2 later,
      r = some (shown c dataMap args ps) := h2 later
  have hlen : ∀ (e : Msg.Ev V) (l : List (Now V)), (reads (fmtOf c) e l).length = l.length := by
    intro e l; induction l generalizing e with
    | nil => rfl
    | cons n l ih => simp [reads, ih]
  rw [List.map_const', ← hlen _ later]
  exact List.eq_replicate_iff.2 ⟨rfl, h3⟩

/-- Values are text; formatting shows them, except that the spec `d` takes digits only; one known field, `status_str`. -/
def sampleConf : Conf String :=
  { defs := fun k => if k = "status_str" then some ⟨['s'], false, some (.ok "success")⟩ else none
    nothing := "None"
    fmt := fun _ cv s _ v =>
      if s = ['d'] ∧ v.toList.all Char.isDigit = false then .exc
      else if cv = some 'r' then .ok ("'" ++ v ++ "'") else .ok v }

theorem dec_head_digit (i : Nat) : ∃ c r, dec i = c :: r ∧ c.isDigit = true := by
  obtain ⟨c, r, h⟩ := List.exists_cons_of_ne_nil (dec_ne_nil i)
  exact ⟨c, r, h, dec_digits i c (by simp [h])⟩

theorem sampleConf_calm : sampleConf.Calm where
  fmt := by
    intro p cv s o v
    simp only [sampleConf]
    split
    · simp
    · split <;> simp
  getter := by
    intro k f h
    simp only [sampleConf] at h
    split at h
    · cases h; simp
    · cases h
  numbers := by
    intro i
    simp only [sampleConf]
    rw [if_neg]
    intro h
    have h1 : dec i = "status_str".toList := by rw [← h]; simp
    obtain ⟨c, r, h2, h3⟩ := dec_head_digit i
    rw [h2] at h1
    have : c = 's' := by
      have := List.head_eq_of_cons_eq h1; exact this
    subst this; revert h3; decide

/-- `"{{{}}} has {n:d} of {1!r}, {status_str}, {x}, {:d}"` with arguments `a` and `b c`, and `n` in the data map. -/
def samplePs : List Part :=
  [.lit ['{'], .auto none [], .lit "} has ".toList, .name ['n'] none ['d'], .lit " of ".toList, .num 1 (some 'r') [],
   .lit [' '], .name "status_str".toList none [], .lit [' '], .name ['x'] none [], .lit [' '], .auto none ['d']]

example : String.ofList (write samplePs) = "{{{}}} has {n:d} of {1!r} {status_str} {x} {:d}" := by decide +kernel
example : messageText sampleConf (write samplePs) (fun k => if k = "n" then some "7" else none) ["a", "b c"] =
    .ok "{a} has 7 of 'b c' success None {1:d}" := by
  rw [C86_message sampleConf_calm samplePs (by simp [samplePs, Part.Ok, Ordinary, Balanced]) (by decide +kernel)]
  decide +kernel

/-- `"{0:{1}}"`: a spec that refers to another argument. -/
example : messageText sampleConf (write [.num 0 none "{1}".toList, .lit ['!']]) (fun _ => none) ["a", "b c"] = .ok "a!" := by
  rw [C86_message sampleConf_calm _ (by simp [Part.Ok, Ordinary, Balanced]) (by decide +kernel)]
  decide +kernel

/-! ## C86: extra fields -/

/-- What a field map with extra fields is to be: of fields of the same name the last given counts, and it takes the place
of a built-in one; the other built-in fields are as they were. -/
structure Extends {V : Type} (base : String → Option (FieldDef V)) (extra : List (String × FieldDef V))
    (defs : String → Option (FieldDef V)) : Prop where
  given : ∀ pre k f post, extra = pre ++ (k, f) :: post → (∀ b ∈ post, b.1 ≠ k) → defs k = some f
  others : ∀ k, (∀ b ∈ extra, b.1 ≠ k) → defs k = base k

theorem withExtra_extends {V : Type} (base : String → Option (FieldDef V)) (extra : List (String × FieldDef V)) :
    Extends base extra (withExtra base extra) where
  given := by
    rintro pre k f post rfl hpost
    have : post.reverse.find? (fun b => decide (b.1 = k)) = none := by
      rw [List.find?_eq_none]
      intro b hb
      simpa using hpost b (List.mem_reverse.1 hb)
    simp only [withExtra, List.reverse_append, List.reverse_cons, List.append_assoc, List.find?_append, this]
    simp
  others := by
    intro k h
    have : extra.reverse.find? (fun b => decide (b.1 = k)) = none := by
      rw [List.find?_eq_none]
      intro b hb
      simpa using h b (List.mem_reverse.1 hb)
    simp only [withExtra, this]

theorem extends_unique {V : Type} {base : String → Option (FieldDef V)} {extra : List (String × FieldDef V)}
    {d d' : String → Option (FieldDef V)} (h : Extends base extra d) (h' : Extends base extra d') : d = d' := by
  funext k
  by_cases hk : ∀ b ∈ extra, b.1 ≠ k
  · rw [h.others k hk, h'.others k hk]
  · push Not at hk
    obtain ⟨b, hb, rfl⟩ := hk
    have hlast : ∀ l : List (String × FieldDef V), (∃ y ∈ l, y.1 = b.1) →
        ∃ pre f post, l = pre ++ (b.1, f) :: post ∧ ∀ x ∈ post, x.1 ≠ b.1 := by
      intro l
      induction l with
      | nil => rintro ⟨_, h, _⟩; simp at h
      | cons x l ih =>
        intro hm
        by_cases hl : ∃ y ∈ l, y.1 = b.1
        · obtain ⟨pre, f, post, rfl, h2⟩ := ih hl
          exact ⟨x :: pre, f, post, rfl, h2⟩
        · push Not at hl
          obtain ⟨y, hy, hyb⟩ := hm
          rcases List.mem_cons.1 hy with rfl | hy
          · exact ⟨[], y.2, l, by rw [← hyb]; rfl, hl⟩
          · exact absurd hyb (hl y hy)
    obtain ⟨pre, f, post, he, h2⟩ := hlast extra ⟨b, hb, rfl⟩
    rw [h.given pre b.1 f post he h2, h'.given pre b.1 f post he h2]

/-- **C86** for a formatter with extra fields (and `quoter=False`): it shows what the template means with the extra fields
known beside the built-in ones, the last given of a name counting, before a built-in one of that name. -/
theorem C86_extra {V : Type} (base : String → Option (FieldDef V)) (extra : List (String × FieldDef V))
    (defs : String → Option (FieldDef V)) (hx : Extends base extra defs) (nothing : V)
    (fmt : List Char → Option Char → List Char → List V → V → Res String) (hc : Conf.Calm ⟨defs, nothing, fmt⟩)
    (ps : List Part) (hok : ∀ p ∈ ps, p.Ok) (dataMap : String → Option V) (args : List V) :
    formatAll ⟨withExtra base extra, nothing, fmt⟩ defaultDefaulter noQuoter (write ps) (fun _ => none) dataMap args =
      .ok (shown ⟨defs, nothing, fmt⟩ dataMap args ps) := by
  rw [extends_unique (withExtra_extends base extra) hx]
  obtain ⟨h1, h2⟩ := numbered_ok ps 0 hok
  obtain ⟨out, h3, h4⟩ := parse_write (numbered 0 ps) [] h1 h2
  simp only [formatAll, construct, tokenize, infer_write ps 0 hok, h3, mkTokens_plain, format_plain hc, h4]
  congr 1
  simp only [List.map_nil, List.nil_append, shown, String.empty_append]
  clear h3 h4 out
  generalize numbered 0 ps = qs at h1 h2
  induction qs with
  | nil => rfl
  | cons p qs ih =>
    simp only [List.flatMap_cons, List.map_append, join_append, List.map_cons, String.join_cons]
    rw [atom_part hc dataMap args p (h1 p (by simp)) (fun cv s h => h2 cv s (by simp [h])),
      ih (fun p hp => h1 p (by simp [hp])) (fun cv s hm => h2 cv s (by simp [hm]))]

/-- An extra field in the place of a built-in one, given twice, and another. -/
example : formatAll ⟨withExtra sampleConf.defs [("status_str", ⟨['s'], true, some (.ok "one")⟩),
      ("host", ⟨['s'], true, some (.ok "h1")⟩), ("status_str", ⟨['s'], true, some (.ok "two")⟩)], "None", sampleConf.fmt⟩
      defaultDefaulter noQuoter "{status_str}@{host}".toList (fun _ => none) (fun _ => none) [] = .ok "two@h1" := by
  decide +kernel

/-! ## C87: construction -/

/-- Quoters made for a field do not raise BaseExceptions. -/
def CalmQuoter (quoter : TField → Res Quoter) : Prop := ∀ t q, quoter t = .ok (some q) → ∀ s, q s ≠ .base

/-- What construction leaves in the tokens. -/
def Token.Ready {V : Type} (_ : Conf V) (quoter : TField → Res Quoter) : Token → Prop
  | .lit _ => True
  | .field _ d q => d.isSome ∧ ∀ q', q = some q' → ∃ t, quoter t = .ok q'

theorem mkTokens_ready {V : Type} (c : Conf V) {defaulter : TField → Res String} {quoter : TField → Res Quoter}
    (hd : ∀ t, defaulter t ≠ .keyError) : ∀ {ps : List Piece} {ts : List Token},
    mkTokens c defaulter quoter ps = .ok ts → ∀ t ∈ ts, t.Ready c quoter := by
  intro ps
  induction ps with
  | nil => intro ts h; simp only [mkTokens, Res.ok.injEq] at h; subst h; simp
  | cons p ps ih =>
    intro ts h
    cases p with
    | lit s =>
      simp only [mkTokens] at h
      cases hm : mkTokens c defaulter quoter ps with
      | ok us =>
        simp only [hm, Res.ok.injEq] at h; subst h
        intro t ht
        rcases List.mem_cons.1 ht with rfl | ht
        · trivial
        · exact ih hm t ht
      | keyError => simp [hm] at h
      | exc => simp [hm] at h
      | base => simp [hm] at h
    | field nm spec conv =>
      simp only [mkTokens] at h
      cases hf : mkField c defaulter quoter ⟨nm, spec, conv⟩ with
      | keyError => simp [hf] at h
      | exc => simp [hf] at h
      | base => simp [hf] at h
      | ok t0 =>
        simp only [hf] at h
        cases hm : mkTokens c defaulter quoter ps with
        | keyError => simp [hm] at h
        | exc => simp [hm] at h
        | base => simp [hm] at h
        | ok us =>
          simp only [hm, Res.ok.injEq] at h; subst h
          intro t ht
          rcases List.mem_cons.1 ht with rfl | ht
          · unfold mkField at hf
            split at hf
            · rename_i he; exact absurd he (hd _)
            · cases hf
            · cases hf
            · split at hf
              · cases hf; exact ⟨rfl, by simp⟩
              · cases hf
              · cases hf
              · rename_i q hq
                have : ∀ q', some q = some q' → ∃ t, quoter t = .ok q' := by rintro _ ⟨⟩; exact ⟨_, hq⟩
                split at hf
                · split at hf <;> cases hf <;> exact ⟨rfl, this⟩
                · cases hf; exact ⟨rfl, this⟩
          · exact ih hm t ht

theorem look_ne_base {V : Type} {c : Conf V} (hc : c.Calm) (kwargs dataMap : String → Option V) (k : String) :
    look c kwargs dataMap k ≠ .base := by
  cases hk : kwargs k with
  | some v => simp [look, lookup, hk]
  | none =>
    have h := named_ne_base hc dataMap k
    rw [← look_eq] at h
    simpa [look, lookup, hk] using h

theorem value_ne_base' {V : Type} {c : Conf V} (hc : c.Calm) (kwargs dataMap : String → Option V) (args : List V)
    (t : TField) : value c kwargs dataMap args t ≠ .base := by
  simp only [value]
  split
  · split
    · exact hc.fmt _ _ _ _ _
    · simp
  · have := look_ne_base hc kwargs dataMap (String.ofList t.base)
    cases hn : look c kwargs dataMap (String.ofList t.base) <;> simp_all
    exact hc.fmt _ _ _ _ _

/-- **C87.**  A formatter that could be made never raises when it is used, with any arguments, keyword arguments and data
map, as long as the function that gives fields their default text does not raise KeyError.  (Getters, quoters and the
formatting of values may raise any Exception.) -/
theorem C87_never_raises_partial {V : Type} {c : Conf V} (hc : c.Calm) {defaulter : TField → Res String}
    {quoter : TField → Res Quoter} (hd : ∀ t, defaulter t ≠ .keyError) (hq : CalmQuoter quoter)
    {template : List Char} {ts : List Token} (h : construct c defaulter quoter template = .ok ts)
    (kwargs dataMap : String → Option V) (args : List V) :
    ∃ s, formatTokens c kwargs dataMap args ts "" = .ok s := by
  have hr : ∀ t ∈ ts, t.Ready c quoter := by
    simp only [construct] at h
    split at h
    · cases h
    · exact mkTokens_ready c hd h
  clear h
  generalize "" = acc
  induction ts generalizing acc with
  | nil => exact ⟨acc, rfl⟩
  | cons t ts ih =>
    have ih' := fun acc => ih (fun t ht => hr t (by simp [ht])) acc
    have ht := hr t (by simp)
    cases t with
    | lit s => exact ih' _
    | field t d q =>
      simp only [Token.Ready] at ht
      obtain ⟨d', rfl⟩ := Option.isSome_iff_exists.1 ht.1
      simp only [formatTokens]
      have hb : attempt c kwargs dataMap args t q ≠ .base := by
        simp only [attempt]
        have hv := value_ne_base' hc kwargs dataMap args t
        cases hval : value c kwargs dataMap args t with
        | ok s =>
          simp only
          cases q with
          | none => simp
          | some q =>
            cases q with
            | none => simp
            | some q =>
              obtain ⟨t', ht'⟩ := ht.2 _ rfl
              exact hq t' q ht' s
        | keyError => simp
        | exc => simp
        | base => exact absurd hval hv
      cases ha : attempt c kwargs dataMap args t q with
      | ok s => exact ih' _
      | keyError => exact ih' _
      | exc => exact ih' _
      | base => exact absurd ha hb

/-- C87: with the default defaulter and any quoter function that returns, a formatter can be made from exactly the
templates that are valid. -/
theorem C87_valid {V : Type} (c : Conf V) {defaulter : TField → Res String} {quoter : TField → Res Quoter}
    (hd : ∀ t, ∃ d, defaulter t = .ok d) (hq : ∀ t, ∃ q, quoter t = .ok q) (template : List Char) :
    (∃ ts, construct c defaulter quoter template = .ok ts) ↔ tokenize dec template ≠ none := by
  have hm : ∀ ps, ∃ ts, mkTokens c defaulter quoter ps = .ok ts := by
    intro ps
    induction ps with
    | nil => exact ⟨_, rfl⟩
    | cons p ps ih =>
      obtain ⟨ts, h⟩ := ih
      cases p with
      | lit s => exact ⟨.lit s :: ts, by simp only [mkTokens, h]⟩
      | field nm spec conv =>
        obtain ⟨d, hd⟩ := hd ⟨nm, spec, conv⟩
        obtain ⟨q, hq⟩ := hq ⟨nm, spec, conv⟩
        have : ∃ t, mkField c defaulter quoter ⟨nm, spec, conv⟩ = .ok t := by
          simp only [mkField, hd, hq]
          split
          · split <;> exact ⟨_, rfl⟩
          · exact ⟨_, rfl⟩
        obtain ⟨t, ht⟩ := this
        exact ⟨t :: ts, by simp only [mkTokens, ht, h]⟩
  simp only [construct]
  cases tokenize dec template with
  | none => simp
  | some ps => simpa using hm ps

/-- The functions given for fields raise an exception other than KeyError for this one; `base` if it is not an Exception. -/
def Fails (defaulter : TField → Res String) (quoter : TField → Res Quoter) (t : TField) (base : Bool) : Prop :=
  if base then defaulter t = .base ∨ (∃ x, defaulter t = .ok x) ∧ quoter t = .base
  else defaulter t = .exc ∨ (∃ x, defaulter t = .ok x) ∧ quoter t = .exc

/-- The first field for which they do. -/
def FirstFails (defaulter : TField → Res String) (quoter : TField → Res Quoter) (ps : List Piece) (base : Bool) : Prop :=
  ∃ pre nm spec conv post, ps = pre ++ .field nm spec conv :: post ∧ Fails defaulter quoter ⟨nm, spec, conv⟩ base ∧
    ∀ nm spec conv, .field nm spec conv ∈ pre → ∀ b, ¬ Fails defaulter quoter ⟨nm, spec, conv⟩ b

theorem mkField_fails {V : Type} (c : Conf V) (defaulter : TField → Res String) (quoter : TField → Res Quoter) (t : TField) :
    (mkField c defaulter quoter t = .exc ∧ Fails defaulter quoter t false ∧ ¬ Fails defaulter quoter t true) ∨
    (mkField c defaulter quoter t = .base ∧ Fails defaulter quoter t true ∧ ¬ Fails defaulter quoter t false) ∨
    ((∃ k, mkField c defaulter quoter t = .ok k) ∧ ∀ b, ¬ Fails defaulter quoter t b) := by
  simp only [mkField, Fails]
  cases hd : defaulter t with
  | ok d =>
    cases hq : quoter t with
    | ok q =>
      right; right
      refine ⟨?_, by simp⟩
      dsimp only
      split
      · split <;> exact ⟨_, rfl⟩
      · exact ⟨_, rfl⟩
    | _ => simp
  | _ => simp

theorem firstFails_cons {defaulter : TField → Res String} {quoter : TField → Res Quoter} {p : Piece} {ps : List Piece} {b : Bool}
    (h : ∀ nm spec conv, p = .field nm spec conv → ∀ b, ¬ Fails defaulter quoter ⟨nm, spec, conv⟩ b) :
    FirstFails defaulter quoter (p :: ps) b ↔ FirstFails defaulter quoter ps b := by
  constructor
  · rintro ⟨pre, nm, spec, conv, post, he, hf, hpre⟩
    cases pre with
    | nil =>
      simp only [List.nil_append, List.cons.injEq] at he
      exact absurd hf (h nm spec conv he.1 b)
    | cons a pre =>
      simp only [List.cons_append, List.cons.injEq] at he
      exact ⟨pre, nm, spec, conv, post, he.2, hf, fun nm spec conv hm => hpre nm spec conv (by simp [hm])⟩
  · rintro ⟨pre, nm, spec, conv, post, he, hf, hpre⟩
    refine ⟨p :: pre, nm, spec, conv, post, by rw [he]; rfl, hf, fun nm spec conv hm => ?_⟩
    rcases List.mem_cons.1 hm with hm | hm
    · exact h nm spec conv hm.symm
    · exact hpre nm spec conv hm

theorem firstFails_head {defaulter : TField → Res String} {quoter : TField → Res Quoter} {nm spec : List Char} {conv : Option Char}
    {ps : List Piece} {b : Bool} (h : Fails defaulter quoter ⟨nm, spec, conv⟩ b) (h' : ¬ Fails defaulter quoter ⟨nm, spec, conv⟩ !b) :
    FirstFails defaulter quoter (.field nm spec conv :: ps) b ∧ ¬ FirstFails defaulter quoter (.field nm spec conv :: ps) !b := by
  refine ⟨⟨[], nm, spec, conv, ps, rfl, h, by simp⟩, ?_⟩
  rintro ⟨pre, nm', spec', conv', post, he, hf, hpre⟩
  cases pre with
  | nil =>
    simp only [List.nil_append, List.cons.injEq, Piece.field.injEq] at he
    obtain ⟨⟨rfl, rfl, rfl⟩, -⟩ := he
    exact h' hf
  | cons a pre =>
    simp only [List.cons_append, List.cons.injEq] at he
    exact hpre nm spec conv (by simp [he.1]) b h

/-- C87: what comes out of making a formatter from a valid template.  It raises what the functions given for its fields raise for
the first field for which they raise anything but KeyError, which is never passed on; and is made if there is none. -/
theorem C87_raises {V : Type} (c : Conf V) (defaulter : TField → Res String) (quoter : TField → Res Quoter) {template : List Char}
    {ps : List Piece} (hps : tokenize dec template = some ps) :
    (construct c defaulter quoter template = .exc ↔ FirstFails defaulter quoter ps false) ∧
    (construct c defaulter quoter template = .base ↔ FirstFails defaulter quoter ps true) ∧
    construct c defaulter quoter template ≠ .keyError := by
  simp only [construct, hps]
  clear hps
  induction ps with
  | nil => simp [mkTokens, FirstFails]
  | cons p ps ih =>
    have good : ∀ (p : Piece) (t : Token), (∀ nm spec conv, p = .field nm spec conv → ∀ b, ¬ Fails defaulter quoter ⟨nm, spec, conv⟩ b) →
        mkTokens c defaulter quoter (p :: ps) = (match mkTokens c defaulter quoter ps with | .ok ts => .ok (t :: ts) | r => r) →
        (mkTokens c defaulter quoter (p :: ps) = .exc ↔ FirstFails defaulter quoter (p :: ps) false) ∧
        (mkTokens c defaulter quoter (p :: ps) = .base ↔ FirstFails defaulter quoter (p :: ps) true) ∧
        mkTokens c defaulter quoter (p :: ps) ≠ .keyError := by
      intro p t h e
      rw [firstFails_cons h, firstFails_cons h, ← ih.1, ← ih.2.1, e]
      have ihk := ih.2.2
      clear ih e
      cases hm : mkTokens c defaulter quoter ps with
      | keyError => exact absurd hm ihk
      | _ => simp
    cases p with
    | lit s => exact good _ (.lit s) (by simp) (by simp only [mkTokens]; rfl)
    | field nm spec conv =>
      rcases mkField_fails c defaulter quoter ⟨nm, spec, conv⟩ with ⟨e, h1, h2⟩ | ⟨e, h1, h2⟩ | ⟨⟨t, e⟩, h⟩
      · have := firstFails_head (ps := ps) h1 h2
        simp only [mkTokens, e]
        simpa using this
      · have := firstFails_head (ps := ps) h1 h2
        simp only [mkTokens, e]
        simpa using this.symm
      · refine good _ t ?_ (by simp only [mkTokens, e]; rfl)
        rintro _ _ _ ⟨⟩
        exact h

/-- A quoter that refuses one field. -/
example : construct sampleConf defaultDefaulter (fun t => if t.name = ['x'] then .base else .ok none) "a {n} {x}".toList = .base :=
  (C87_raises sampleConf _ _ (ps := [.lit "a ".toList, .field ['n'] [] none, .lit [' '], .field ['x'] [] none]) (by decide +kernel)).2.1.2
    ⟨[.lit "a ".toList, .field ['n'] [] none, .lit [' ']], ['x'], [], none, [], rfl, .inr ⟨⟨_, rfl⟩, rfl⟩, by
      simp [Fails, defaultDefaulter]; rintro nm _ _ rfl - -; simp⟩

theorem formatTokens_exc {V : Type} (c : Conf V) (kwargs dataMap : String → Option V) (args : List V) (ts : List Token) (acc : String) :
    formatTokens c kwargs dataMap args ts acc ≠ .exc := by
  induction ts generalizing acc with
  | nil => simp [formatTokens]
  | cons t ts ih =>
    cases t with
    | lit s => simpa only [formatTokens] using ih _
    | field t d q =>
      simp only [formatTokens]
      split
      · exact ih _
      · simp
      · cases d <;> simp [ih]
      · cases d <;> simp [ih]

/-- C87: a formatter made and used at once raises an exception other than KeyError only if the template is not valid or a function
given for the fields raises it, whatever is formatted; and what is not an Exception is passed on as it is. -/
theorem C87_at_once {V : Type} (c : Conf V) (defaulter : TField → Res String) (quoter : TField → Res Quoter) (template : List Char)
    (kwargs dataMap : String → Option V) (args : List V) :
    (formatAll c defaulter quoter template kwargs dataMap args = .exc ↔
      ∀ ps, tokenize dec template = some ps → FirstFails defaulter quoter ps false) ∧
    ∀ ps, tokenize dec template = some ps → FirstFails defaulter quoter ps true →
      formatAll c defaulter quoter template kwargs dataMap args = .base := by
  cases h : tokenize dec template with
  | none => exact ⟨by simp [formatAll, construct, h], by simp⟩
  | some ps =>
    obtain ⟨h1, h2, h3⟩ := C87_raises c defaulter quoter h
    simp only [Option.some.injEq, forall_eq']
    rw [← h1, ← h2]
    simp only [formatAll]
    refine ⟨?_, fun e => by rw [e]⟩
    cases hc : construct c defaulter quoter template with
    | ok ts => simp [formatTokens_exc]
    | _ => simp

/-- A quoter that is interrupted. -/
example : formatAll sampleConf defaultDefaulter (fun t => if t.name = ['x'] then .base else .ok none) "a {n} {x}".toList
    (fun _ => none) (fun _ => none) [] = .base :=
  (C87_at_once sampleConf _ _ _ _ _ _).2 [.lit "a ".toList, .field ['n'] [] none, .lit [' '], .field ['x'] [] none] (by decide +kernel)
    ⟨[.lit "a ".toList, .field ['n'] [] none, .lit [' ']], ['x'], [], none, [], rfl, .inr ⟨⟨_, rfl⟩, rfl⟩, by
      simp [Fails, defaultDefaulter]; rintro nm _ _ rfl - -; simp⟩

/-- C87 fails in general: a defaulter that raises KeyError for a field does not keep the formatter from being made, but
using it raises KeyError; a quoter that does so hides a value that could be shown. -/
theorem C87_violated :
    (match construct sampleConf (fun _ => .keyError) noQuoter "{n:d}".toList with
      | .ok ts => formatTokens sampleConf (fun _ => none) (fun _ => none) [] ts ""
      | _ => .ok "") = .keyError ∧
    formatAll sampleConf defaultDefaulter (fun _ => .keyError) "{n}".toList (fun _ => none) (fun _ => some "7") [] =
      .ok "{n}" := by decide +kernel

example : ∃ ts, construct sampleConf defaultDefaulter (defaultQuoter sampleConf fun _ => .exc) "a {n:d} {{}}".toList = .ok ts :=
  (C87_valid sampleConf (fun t => ⟨_, rfl⟩) (fun t => by simp only [defaultQuoter]; split <;> [skip; split] <;> exact ⟨_, rfl⟩) _).2
    (by decide +kernel)
example : construct sampleConf defaultDefaulter noQuoter "a {n".toList = .exc := by
  simp only [construct]; rw [show tokenize dec "a {n".toList = none by decide +kernel]

/-! ## C88: entries stay on their line -/

/-- A property of all characters of a piece. -/
def Piece.All (P : Char → Prop) : Piece → Prop
  | .lit s => ∀ c ∈ s, P c
  | .field nm spec conv => (∀ c ∈ nm, P c) ∧ (∀ c ∈ spec, P c) ∧ ∀ c, conv = some c → P c

def PState.All (P : Char → Prop) : PState → Prop
  | .lit a | .opened a | .closed a | .name a | .bracket a => ∀ c ∈ a, P c
  | .conv0 nm => ∀ c ∈ nm, P c
  | .conv1 nm c => (∀ c ∈ nm, P c) ∧ P c
  | .spec nm a conv _ => (∀ c ∈ nm, P c) ∧ (∀ c ∈ a, P c) ∧ ∀ c, conv = some c → P c

theorem emitLit_all {P : Char → Prop} {s : List Char} (h : ∀ c ∈ s, P c) : ∀ p ∈ emitLit s, Piece.All P p := by
  unfold emitLit; split
  · simp
  · intro p hp; simp only [List.mem_singleton] at hp; subst hp; exact h

theorem all_snoc {P : Char → Prop} {a : List Char} {c : Char} (h : ∀ c ∈ a, P c) (hc : P c) : ∀ d ∈ a ++ [c], P d := by
  intro d hd
  rcases List.mem_append.1 hd with hd | hd
  · exact h d hd
  · simp only [List.mem_singleton] at hd; subst hd; exact hc

theorem nameChar_all {P : Char → Prop} {a : List Char} {c : Char} (ha : ∀ c ∈ a, P c) (hc : P c) {out : List Piece}
    {st : PState} (h : nameChar a c = some (out, st)) : (∀ p ∈ out, Piece.All P p) ∧ PState.All P st := by
  unfold nameChar at h
  split at h
  · cases h
  · split at h
    · cases h; exact ⟨by simp, all_snoc ha hc⟩
    · split at h
      · cases h; exact ⟨by simp [Piece.All]; exact ha, by simp [PState.All]⟩
      · split at h
        · cases h; exact ⟨by simp, ha, by simp, by simp⟩
        · split at h
          · cases h; exact ⟨by simp, ha⟩
          · cases h; exact ⟨by simp, all_snoc ha hc⟩

theorem pstep_all {P : Char → Prop} {st st' : PState} {c : Char} {out : List Piece} (hs : PState.All P st) (hc : P c)
    (h : pstep st c = some (out, st')) : (∀ p ∈ out, Piece.All P p) ∧ PState.All P st' := by
  cases st with
  | lit a =>
    simp only [pstep] at h
    split at h
    · cases h; exact ⟨by simp, hs⟩
    · split at h <;> cases h
      · exact ⟨by simp, hs⟩
      · exact ⟨by simp, all_snoc hs hc⟩
  | closed a =>
    simp only [pstep] at h
    split at h
    · rename_i hcc; cases h; exact ⟨emitLit_all (all_snoc hs (hcc ▸ hc)), by simp [PState.All]⟩
    · cases h
  | opened a =>
    simp only [pstep] at h
    split at h
    · rename_i hcc; cases h; exact ⟨emitLit_all (all_snoc hs (hcc ▸ hc)), by simp [PState.All]⟩
    · simp only [Option.map_eq_some_iff, Prod.mk.injEq] at h
      obtain ⟨⟨o, s⟩, h1, rfl, rfl⟩ := h
      obtain ⟨h2, h3⟩ := nameChar_all (P := P) (by simp) hc h1
      refine ⟨fun p hp => ?_, h3⟩
      rcases List.mem_append.1 hp with hp | hp
      · exact emitLit_all hs p hp
      · exact h2 p hp
  | name a => exact nameChar_all hs hc h
  | bracket a =>
    simp only [pstep, Option.some.injEq, Prod.mk.injEq] at h
    obtain ⟨rfl, rfl⟩ := h
    refine ⟨by simp, ?_⟩
    split <;> exact all_snoc hs hc
  | conv0 nm => simp only [pstep, Option.some.injEq, Prod.mk.injEq] at h; obtain ⟨rfl, rfl⟩ := h; exact ⟨by simp, hs, hc⟩
  | conv1 nm cv =>
    simp only [PState.All] at hs
    simp only [pstep] at h
    split at h
    · cases h; exact ⟨by simp only [List.mem_singleton, forall_eq, Piece.All]; exact ⟨hs.1, by simp, by rintro _ ⟨⟩; exact hs.2⟩, by simp [PState.All]⟩
    · split at h <;> cases h
      exact ⟨by simp, hs.1, by simp, by rintro _ ⟨⟩; exact hs.2⟩
  | spec nm a cv d =>
    simp only [PState.All] at hs
    simp only [pstep] at h
    split at h
    · cases h; exact ⟨by simp, hs.1, all_snoc hs.2.1 hc, hs.2.2⟩
    · split at h
      · split at h <;> cases h
        · exact ⟨by simp only [List.mem_singleton, forall_eq, Piece.All]; exact hs, by simp [PState.All]⟩
        · exact ⟨by simp, hs.1, all_snoc hs.2.1 hc, hs.2.2⟩
      · cases h; exact ⟨by simp, hs.1, all_snoc hs.2.1 hc, hs.2.2⟩

theorem parse_all {P : Char → Prop} : ∀ (s : List Char) (st : PState) (out : List Piece), (∀ c ∈ s, P c) →
    PState.All P st → parse st s = some out → ∀ p ∈ out, Piece.All P p := by
  intro s
  induction s with
  | nil =>
    intro st out _ hs h
    cases st <;> simp only [parse, Option.some.injEq, reduceCtorEq] at h
    subst h; exact emitLit_all hs
  | cons c s ih =>
    intro st out hc hs h
    rw [parse] at h
    split at h
    · cases h
    · rename_i o st' hp
      simp only [Option.map_eq_some_iff] at h
      obtain ⟨r, hr, rfl⟩ := h
      obtain ⟨h1, h2⟩ := pstep_all hs (hc c (by simp)) hp
      intro p hp
      rcases List.mem_append.1 hp with hp | hp
      · exact h1 p hp
      · exact ih st' r (fun c hc' => hc c (by simp [hc'])) h2 hr p hp

theorem infer_all {P : Char → Prop} (hd : ∀ c : Char, c.isDigit = true → P c) : ∀ (k : Nat) (s : List Char) (n : Nat),
    s.length ≤ k → (∀ c ∈ s, P c) → ∀ c ∈ infer dec n s, P c := by
  intro k
  induction k with
  | zero =>
    intro s n hk _
    have : s = [] := List.length_eq_zero_iff.1 (by omega)
    subst this; simp [infer]
  | succ k ih =>
    intro s n hk h
    match s with
    | [] => simp [infer]
    | [c] => simpa [infer] using h
    | c :: d :: r =>
      have h1 := h c (by simp)
      have h2 := h d (by simp)
      have h3 : ∀ x ∈ r, P x := fun x hx => h x (by simp [hx])
      simp only [List.length_cons] at hk
      rw [infer]
      split
      · rename_i hcd; obtain ⟨rfl, rfl⟩ := hcd
        intro x hx
        simp only [List.mem_cons] at hx
        rcases hx with rfl | rfl | hx
        · exact h1
        · exact h1
        · exact ih r n (by omega) h3 x hx
      · split
        · rename_i hcd; obtain ⟨rfl, rfl⟩ := hcd
          intro x hx
          simp only [List.mem_cons] at hx
          rcases hx with rfl | rfl | hx
          · exact h1
          · exact h1
          · exact ih r n (by omega) h3 x hx
        · split
          · rename_i hcd; obtain ⟨rfl, -⟩ := hcd
            intro x hx
            simp only [List.mem_cons, List.mem_append] at hx
            rcases hx with rfl | hx | rfl | hx
            · exact h1
            · exact hd x (dec_digits n x hx)
            · exact h2
            · exact ih r (n + 1) (by omega) h3 x hx
          · intro x hx
            simp only [List.mem_cons] at hx
            rcases hx with rfl | hx
            · exact h1
            · exact ih (d :: r) n (by simp only [List.length_cons]; omega)
                (fun y hy => h y (by simp only [List.mem_cons] at hy ⊢; exact .inr hy)) x hx

theorem text_all {P : Char → Prop} (hf : ∀ c ∈ ['{', '}', ':', '!'], P c) {nm spec : List Char} {conv : Option Char}
    (h : Piece.All P (.field nm spec conv)) : ∀ c ∈ TField.text ⟨nm, spec, conv⟩, P c := by
  obtain ⟨h1, h2, h3⟩ := h
  intro c hc
  simp only [TField.text, List.mem_append, List.mem_cons, List.not_mem_nil, or_false] at hc
  rcases hc with (((rfl | hc) | hc) | hc) | rfl
  · exact hf _ (by simp)
  · exact h1 c hc
  · cases conv with
    | none => simp at hc
    | some d =>
      simp only [List.mem_cons, List.not_mem_nil, or_false] at hc
      rcases hc with rfl | rfl
      · exact hf _ (by simp)
      · exact h3 _ rfl
  · split at hc
    · simp at hc
    · simp only [List.mem_cons] at hc
      rcases hc with rfl | hc
      · exact hf _ (by simp)
      · exact h2 c hc
  · exact hf _ (by simp)

/-- The formatting loop adds no character of its own to the template's, what quoting gives and what unquoted fields show. -/
theorem clean_of_values {V : Type} {c : Conf V} {q : String → Res String} {bad : Char → Prop}
    (hplain : ∀ ch : Char, ch.isDigit = true ∨ ch ∈ ['{', '}', ':', '!'] → ¬ bad ch)
    (hq : ∀ s s', q s = .ok s' → ∀ ch ∈ s'.toList, ¬ bad ch) {template : List Char} (ht : ∀ ch ∈ template, ¬ bad ch)
    {kwargs dataMap : String → Option V} {args : List V}
    (hsp : ∀ k f, c.defs k = some f → ∀ ch ∈ f.spec, ¬ bad ch)
    (hu : ∀ (t : TField) f, (∀ ch ∈ t.spec, ¬ bad ch) → c.defs (String.ofList t.name) = some f → f.quote = false →
      ∀ s, value c kwargs dataMap args t = .ok s → ∀ ch ∈ s.toList, ¬ bad ch) {s : String}
    (h : formatAll c defaultDefaulter (defaultQuoter c q) template kwargs dataMap args = .ok s) :
    ∀ ch ∈ s.toList, ¬ bad ch := by
  simp only [formatAll, construct] at h
  split at h
  case h_2 => cases h
  case h_3 => cases h
  case h_4 => cases h
  rename_i ts hts
  split at hts
  · cases hts
  rename_i ps hps
  have hall : ∀ p ∈ ps, Piece.All (fun ch => ¬ bad ch) p :=
    parse_all _ (.lit []) ps (infer_all (fun c hc => hplain c (.inl hc)) _ template 0 (le_refl _) ht)
      (by simp [PState.All]) hps
  clear hps
  have main : ∀ (ps : List Piece) (ts : List Token) (acc : String), (∀ p ∈ ps, Piece.All (fun ch => ¬ bad ch) p) →
      mkTokens c defaultDefaulter (defaultQuoter c q) ps = .ok ts → (∀ ch ∈ acc.toList, ¬ bad ch) →
      ∀ s, formatTokens c kwargs dataMap args ts acc = .ok s → ∀ ch ∈ s.toList, ¬ bad ch := by
    intro ps
    induction ps with
    | nil =>
      intro ts acc _ hm ha s h
      simp only [mkTokens, Res.ok.injEq] at hm; subst hm
      simp only [formatTokens, Res.ok.injEq] at h; subst h; exact ha
    | cons p ps ih =>
      intro ts acc hall hm ha s h
      have ih' := fun ts acc => ih ts acc (fun p hp => hall p (by simp [hp]))
      have hp := hall p (by simp)
      have happ : ∀ t : String, (∀ ch ∈ t.toList, ¬ bad ch) → ∀ ch ∈ (acc ++ t).toList, ¬ bad ch := by
        intro t ht ch hch
        rw [String.toList_append, List.mem_append] at hch
        exact hch.elim (ha ch) (ht ch)
      cases p with
      | lit l =>
        simp only [mkTokens] at hm
        cases hm' : mkTokens c defaultDefaulter (defaultQuoter c q) ps with
        | ok us =>
          simp only [hm', Res.ok.injEq] at hm; subst hm
          exact ih' us _ hm' (happ _ (by simpa [Piece.All] using hp)) s h
        | keyError => simp [hm'] at hm
        | exc => simp [hm'] at hm
        | base => simp [hm'] at hm
      | field nm spec conv =>
        have hdef : ∀ ch ∈ (String.ofList (TField.text ⟨nm, spec, conv⟩)).toList, ¬ bad ch := by
          rw [String.toList_ofList]
          exact text_all (fun c hc => hplain c (.inr hc)) hp
        have hmk : ∃ (sp : List Char) (qq : Quoter), mkField c defaultDefaulter (defaultQuoter c q) ⟨nm, spec, conv⟩ =
            .ok (.field ⟨nm, sp, conv⟩ (some (String.ofList (TField.text ⟨nm, spec, conv⟩))) (some qq)) ∧
            (qq = some q ∨ qq = none ∧ ∃ f, (∀ ch ∈ sp, ¬ bad ch) ∧ c.defs (String.ofList nm) = some f ∧ f.quote = false) := by
          simp only [mkField, defaultDefaulter, defaultQuoter]
          cases hdf : c.defs (String.ofList nm) with
          | none =>
            simp only
            by_cases hse : spec = []
            · subst hse; exact ⟨[], some q, by simp, .inl rfl⟩
            · exact ⟨spec, some q, by simp [hse], .inl rfl⟩
          | some f =>
            by_cases hse : spec = []
            · subst hse
              cases hfq : f.quote
              · exact ⟨f.spec, none, by simp [hfq], .inr ⟨rfl, f, hsp _ _ hdf, rfl, hfq⟩⟩
              · exact ⟨f.spec, some q, by simp [hfq], .inl rfl⟩
            · cases hfq : f.quote
              · exact ⟨spec, none, by simp [hfq, hse], .inr ⟨rfl, f, hp.2.1, rfl, hfq⟩⟩
              · exact ⟨spec, some q, by simp [hfq, hse], .inl rfl⟩
        obtain ⟨sp, qq, hmk, hqq⟩ := hmk
        simp only [mkTokens, hmk] at hm
        cases hm' : mkTokens c defaultDefaulter (defaultQuoter c q) ps with
        | keyError => simp [hm'] at hm
        | exc => simp [hm'] at hm
        | base => simp [hm'] at hm
        | ok us =>
          simp only [hm', Res.ok.injEq] at hm; subst hm
          simp only [formatTokens] at h
          cases hat : attempt c kwargs dataMap args ⟨nm, sp, conv⟩ (some qq) with
          | base => simp [hat] at h
          | keyError => simp only [hat] at h; exact ih' us _ hm' (happ _ hdef) s h
          | exc => simp only [hat] at h; exact ih' us _ hm' (happ _ hdef) s h
          | ok seg =>
            simp only [hat] at h
            refine ih' us _ hm' (happ seg ?_) s h
            simp only [attempt] at hat
            cases hv : value c kwargs dataMap args ⟨nm, sp, conv⟩ with
            | ok x =>
              simp only [hv] at hat
              rcases hqq with rfl | ⟨rfl, f, hf0, hf1, hf2⟩
              · exact hq x seg hat
              · simp only [Res.ok.injEq] at hat; subst hat
                exact hu ⟨nm, sp, conv⟩ f hf0 hf1 hf2 x hv
            | keyError => simp [hv] at hat
            | exc => simp [hv] at hat
            | base => simp [hv] at hat
  exact main ps ts "" hall hts (by simp) s h

theorem takeWhile_all {α : Type} {p : α → Bool} : ∀ {l : List α}, (∀ x ∈ l, p x = true) →
    l.takeWhile p = l ∧ l.dropWhile p = []
  | [], _ => by simp
  | x :: l, h => by
    have h1 := h x (by simp)
    have h2 := takeWhile_all (l := l) fun y hy => h y (by simp [hy])
    simp [h1, h2]

/-- **C88.**  Take any kind of unwanted character (line breaks, say) that is not in the template or the specs of the known
fields and not one that fields are written with.  If quoting never gives such a character, and known fields that are shown
unquoted never get one, then no entry contains one: whatever the arguments, keyword arguments and data maps contain, and
whatever fails.  What is missing: keyword arguments or data under the name of an unquoted known field. -/
theorem C88_clean_partial {V : Type} (c : Conf V) (q : String → Res String) (bad : Char → Prop) (template : List Char)
    (kwargs dataMap : String → Option V) (args : List V) (s : String) (hn : c.Names) (hsafe : c.Safe bad)
    (hplain : ∀ ch : Char, ch.isDigit = true ∨ ch ∈ ['{', '}', ':', '!'] → ¬ bad ch)
    (hsp : ∀ k f, c.defs k = some f → ∀ ch ∈ f.spec, ¬ bad ch) (hq : ∀ x y, q x = .ok y → ∀ ch ∈ y.toList, ¬ bad ch)
    (ht : ∀ ch ∈ template, ¬ bad ch)
    (hshadow : ∀ k f, c.defs k = some f → f.quote = false → kwargs k = none ∧ dataMap k = none)
    (h : formatAll c defaultDefaulter (defaultQuoter c q) template kwargs dataMap args = .ok s) :
    ∀ ch ∈ s.toList, ¬ bad ch := by
  refine clean_of_values hplain hq ht hsp ?_ h
  intro t f hts hf hfq x hx
  obtain ⟨h1, h2⟩ := hn _ f hf
  rw [String.toList_ofList] at h1 h2
  obtain ⟨hb, hp⟩ := takeWhile_all (l := t.name) (p := fun c => decide (c ≠ '.' ∧ c ≠ '[')) fun ch hch => by
    simpa using h2 ch hch
  obtain ⟨hk, hm⟩ := hshadow _ f hf hfq
  have hpos : t.positional = false := by rw [TField.positional, TField.base, hb]; exact h1
  have hpath : t.path = [] := hp
  have hbase : t.base = t.name := hb
  have hval : ∃ v, (f.getter = some (.ok v) ∨ v = c.nothing) ∧ c.fmt [] t.conv t.spec [] v = .ok x := by
    simp only [value, hpos, Bool.false_eq_true, if_false, hpath, hbase, look, lookup, hk, hm, hf, Option.map_some] at hx
    cases hg : f.getter with
    | none => simp [hg] at hx
    | some r =>
      cases r with
      | ok v => exact ⟨v, .inl rfl, by simpa [hg] using hx⟩
      | keyError => exact ⟨c.nothing, .inr rfl, by simpa [hg] using hx⟩
      | exc => simp [hg] at hx
      | base => simp [hg] at hx
  obtain ⟨v, hv1, hv2⟩ := hval
  exact hsafe _ f hf hfq v hv1 _ _ x hts hv2

theorem sampleConf_names : sampleConf.Names := by
  intro k f h
  simp only [sampleConf] at h
  split at h
  · rename_i hk; subst hk; decide +kernel
  · cases h

theorem sampleConf_safe : sampleConf.Safe (fun ch => ¬ (32 ≤ ch.toNat ∧ ch.toNat ≤ 126)) := by
  intro k f h _ v hv cv sp s _ hs
  have : v = "success" ∨ v = "None" := by
    simp only [sampleConf] at h hv
    split at h
    · cases h; simp only [Option.some.injEq, Res.ok.injEq] at hv; exact hv.imp Eq.symm id
    · cases h
  simp only [sampleConf] at hs
  rcases this with rfl | rfl <;>
  · split at hs
    · cases hs
    · split at hs <;> cases hs <;> decide +kernel

theorem sampleConf_specs : ∀ k f, sampleConf.defs k = some f → ∀ ch ∈ f.spec, 32 ≤ ch.toNat ∧ ch.toNat ≤ 126 := by
  intro k f h
  simp only [sampleConf] at h
  split at h
  · cases h; decide
  · cases h

theorem plain_ascii (ch : Char) (h : ch.isDigit = true ∨ ch ∈ ['{', '}', ':', '!']) : 32 ≤ ch.toNat ∧ ch.toNat ≤ 126 := by
  rcases h with h | h
  · simp only [Char.isDigit, Bool.and_eq_true, decide_eq_true_eq] at h
    have h1 : 48 ≤ ch.toNat := h.1
    have h2 : ch.toNat ≤ 57 := h.2
    omega
  · simp only [List.mem_cons, List.not_mem_nil, or_false] at h
    rcases h with rfl | rfl | rfl | rfl <;> decide

theorem jsonQuoter_ascii (x y : String) (h : jsonQuoter x = .ok y) : ∀ ch ∈ y.toList, 32 ≤ ch.toNat ∧ ch.toNat ≤ 126 := by
  intro ch hch
  simp only [jsonQuoter, Res.ok.injEq] at h; subst h
  rw [String.toList_ofList, List.mem_map] at hch
  obtain ⟨n, hn, rfl⟩ := hch
  have hp := Json.C39_printable _ n hn
  have hv : n.isValidChar := by left; omega
  have : (Char.ofNat n).toNat = n := by simp [Char.ofNat, hv, Char.toNat, Char.ofNatAux]
  rw [this]; exact hp

/-- C88 for the default quoter: a template of printable ASCII characters gives entries of printable ASCII characters only,
so an entry is one line.  The same is missing. -/
theorem C88_printable_partial {V : Type} (c : Conf V) (template : List Char) (kwargs dataMap : String → Option V)
    (args : List V) (s : String) (hn : c.Names) (hsafe : c.Safe fun ch => ¬ (32 ≤ ch.toNat ∧ ch.toNat ≤ 126))
    (hsp : ∀ k f, c.defs k = some f → ∀ ch ∈ f.spec, 32 ≤ ch.toNat ∧ ch.toNat ≤ 126)
    (ht : ∀ ch ∈ template, 32 ≤ ch.toNat ∧ ch.toNat ≤ 126)
    (hshadow : ∀ k f, c.defs k = some f → f.quote = false → kwargs k = none ∧ dataMap k = none)
    (h : formatAll c defaultDefaulter (defaultQuoter c jsonQuoter) template kwargs dataMap args = .ok s) :
    ∀ ch ∈ s.toList, 32 ≤ ch.toNat ∧ ch.toNat ≤ 126 :=
  fun ch hch => not_not.1 (C88_clean_partial c jsonQuoter _ template kwargs dataMap args s hn hsafe
    (fun ch h => not_not.2 (plain_ascii ch h)) (fun k f h ch hch => not_not.2 (hsp k f h ch hch))
    (fun x y h ch hch => not_not.2 (jsonQuoter_ascii x y h ch hch)) (fun ch hch => not_not.2 (ht ch hch)) hshadow h ch hch)

/-- C88 fails in general: data under the name of an unquoted built-in field takes the field's place and is shown
unquoted. -/
theorem C88_violated : ¬ C88_full := by
  intro h
  have h1 := h sampleConf jsonQuoter (fun ch => ¬ (32 ≤ ch.toNat ∧ ch.toNat ≤ 126)) "{status_str}".toList (fun _ => none)
    (fun k => if k = "status_str" then some "\n" else none) [] "\n" sampleConf_names sampleConf_safe
    (fun ch h => not_not.2 (plain_ascii ch h)) (fun k f h ch hch => not_not.2 (sampleConf_specs k f h ch hch))
    (fun x y h ch hch => not_not.2 (jsonQuoter_ascii x y h ch hch)) (by decide +kernel) (by decide +kernel)
  revert h1; decide +kernel

/-- C88: the fields that show text of the application's are quoted: names, messages, exception texts.  So is every field
that is not built in, and every positional one. -/
theorem C88_quoted {V : Type} (g : String → Res V) (q : String → Res String) (c : Conf V)
    (hd : c.defs = builtinMap g) (t : TField)
    (h : String.ofList t.name ∈ ["logger_name", "action_name", "begin_message", "begin_message_raw", "end_message",
      "end_message_raw", "event_message", "event_message_raw", "module_name", "module_path", "exc_message", "exc_tb_str",
      "exc_tb_list"] ∨ String.ofList t.name ∉ builtins.map (·.1)) :
    defaultQuoter c q t = .ok (some q) := by
  simp only [defaultQuoter, hd]
  rcases h with h | h
  · simp only [List.mem_cons, List.not_mem_nil, or_false] at h
    rcases h with h | h | h | h | h | h | h | h | h | h | h | h | h <;> rw [h] <;>
      simp [builtinMap, builtins, mkDef]
  · have : builtins.find? (fun b => b.1 = String.ofList t.name) = none := by
      rw [List.find?_eq_none]
      intro b hb he
      exact h (List.mem_map.2 ⟨b, hb, by simpa using he⟩)
    simp [builtinMap, this]

/-- The built-in table meets the hypotheses on names and specs. -/
theorem builtin_names {V : Type} (g : String → Res V) (nothing : V) (fmt : List Char → Option Char → List Char → List V → V → Res String) :
    Conf.Names ⟨builtinMap g, nothing, fmt⟩ := by
  intro k f h
  simp only [builtinMap] at h
  have : k ∈ builtins.map (·.1) := by
    rw [Option.map_eq_some_iff] at h
    obtain ⟨b, hb, -⟩ := h
    have h2 := List.find?_some hb
    exact List.mem_map.2 ⟨b, List.mem_of_find?_eq_some hb, by simpa using h2⟩
  revert this
  have hall : ∀ k ∈ builtins.map (·.1), k.toList.all Char.isDigit = false ∧ ∀ ch ∈ k.toList, ch ≠ '.' ∧ ch ≠ '[' := by
    decide +kernel
  exact hall k

/-- The hypotheses of C88 hold for arguments and a data map with line breaks in them. -/
example (s : String) (h : formatAll sampleConf defaultDefaulter (defaultQuoter sampleConf jsonQuoter)
      "{status_str} {who} {0}".toList (fun _ => none) (fun k => if k = "who" then some "x\n1 success" else none) ["\r\n"] =
      .ok s) :
    ∀ ch ∈ s.toList, 32 ≤ ch.toNat ∧ ch.toNat ≤ 126 :=
  C88_printable_partial sampleConf _ _ _ _ s sampleConf_names sampleConf_safe sampleConf_specs (by decide +kernel)
    (by intro k f hf _
        simp only [sampleConf] at hf
        split at hf
        · rename_i hk; subst hk; decide +kernel
        · cases hf) h
example : formatAll sampleConf defaultDefaulter (defaultQuoter sampleConf jsonQuoter) "{status_str} {who} {0}".toList
    (fun _ => none) (fun k => if k = "who" then some "x\n1 success" else none) ["\r\n"] =
    .ok "success \"x\\n1 success\" \"\\r\\n\"" := by decide +kernel

example : ∃ ts, construct sampleConf defaultDefaulter noQuoter "a {n:d} {{}}".toList = .ok ts ∧
    ∃ s, formatTokens sampleConf (fun _ => none) (fun _ => none) [] ts "" = .ok s := by
  obtain ⟨ts, h⟩ := (C87_valid sampleConf (defaulter := defaultDefaulter) (quoter := noQuoter) (fun t => ⟨_, rfl⟩)
    (fun t => ⟨_, rfl⟩) "a {n:d} {{}}".toList).2 (by decide +kernel)
  exact ⟨ts, h, C87_never_raises_partial sampleConf_calm (fun t => by simp [defaultDefaulter])
    (by intro t; simp [noQuoter]) h _ _ _⟩

/-- No line feeds in an entry. -/
example (s : String) (h : formatAll sampleConf defaultDefaulter (defaultQuoter sampleConf jsonQuoter)
      "{status_str} {who} {0}".toList (fun _ => none) (fun k => if k = "who" then some "x\n1 success" else none) ["\r\n"] =
      .ok s) : '\n' ∉ s.toList := by
  intro hm
  have := C88_printable_partial sampleConf _ _ _ _ s sampleConf_names sampleConf_safe sampleConf_specs (by decide +kernel)
    (by intro k f hf _
        simp only [sampleConf] at hf
        split at hf
        · rename_i hk; subst hk; decide +kernel
        · cases hf) h '\n' hm
  revert this; decide

end Verif.Tmpl
