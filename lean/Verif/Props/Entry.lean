import Verif.Spec.Entry
import Verif.Props.Template
/-!
# Entries can be read back (C89)
-/
namespace Verif.Tmpl

open Verif.Sens Verif.Msg

/-- The token of a piece, with the default quoter. -/
def tokQ {V : Type} (c : Conf V) (q : String → Res String) : Piece → Token
  | .lit s => .lit s
  | .field nm spec conv =>
    .field ⟨nm, if spec = [] then ((c.defs (String.ofList nm)).map (·.spec)).getD [] else spec, conv⟩
      (some (String.ofList (TField.text ⟨nm, spec, conv⟩)))
      (some (if ((c.defs (String.ofList nm)).map (·.quote)).getD true then some q else none))

theorem mkField_q {V : Type} (c : Conf V) (q : String → Res String) (nm spec : List Char) (conv : Option Char) :
    mkField c defaultDefaulter (defaultQuoter c q) ⟨nm, spec, conv⟩ = .ok (tokQ c q (.field nm spec conv)) := by
  simp only [mkField, defaultDefaulter, defaultQuoter, tokQ]
  by_cases h : spec = []
  · subst h; simp only [if_true]
    cases hd : c.defs (String.ofList nm) with
    | none => simp
    | some f => cases hf : f.quote <;> simp [hf]
  · cases hd : c.defs (String.ofList nm) with
    | none => simp [h]
    | some f => cases hf : f.quote <;> simp [hf, h]

theorem mkTokens_q {V : Type} (c : Conf V) (q : String → Res String) :
    ∀ ps, mkTokens c defaultDefaulter (defaultQuoter c q) ps = .ok (ps.map (tokQ c q)) := by
  intro ps
  induction ps with
  | nil => rfl
  | cons p ps ih =>
    cases p with
    | lit s => simp only [mkTokens, ih, List.map_cons, tokQ]
    | field nm spec conv => simp only [mkTokens, mkField_q, ih, List.map_cons]

/-- What one atom of a template shows in an entry. -/
def atomQ {V : Type} (c : Conf V) (q : String → Res String) (kwargs dataMap : String → Option V) (args : List V) :
    Char ⊕ TField → String
  | .inl ch => String.ofList [ch]
  | .inr t =>
    match value c kwargs dataMap args
      ⟨t.name, if t.spec = [] then ((c.defs (String.ofList t.name)).map (·.spec)).getD [] else t.spec, t.conv⟩ with
    | .ok s => if ((c.defs (String.ofList t.name)).map (·.quote)).getD true then orWritten t.text (q s) else s
    | _ => String.ofList t.text

theorem format_q {V : Type} {c : Conf V} (hc : c.Calm) {q : String → Res String} (hq : ∀ s, q s ≠ .base)
    (kwargs dataMap : String → Option V) (args : List V) :
    ∀ (ps : List Piece) (acc : String), formatTokens c kwargs dataMap args (ps.map (tokQ c q)) acc =
      .ok (acc ++ String.join ((flat ps).map (atomQ c q kwargs dataMap args))) := by
  intro ps
  induction ps with
  | nil => intro acc; simp [formatTokens, flat]
  | cons p ps ih =>
    intro acc
    simp only [flat, List.flatMap_cons, List.map_append, join_append] at ih ⊢
    cases p with
    | lit s =>
      simp only [List.map_cons, tokQ, formatTokens, ih, Piece.flat]
      rw [join_chars _ _ (fun _ => rfl), String.append_assoc]
    | field nm spec conv =>
      simp only [List.map_cons, tokQ, formatTokens, attempt, Piece.flat, List.map_nil, String.join_cons,
        String.join_nil, String.append_empty, atomQ]
      have hb := value_ne_base' hc kwargs dataMap args
        ⟨nm, if spec = [] then ((c.defs (String.ofList nm)).map (·.spec)).getD [] else spec, conv⟩
      cases hv : value c kwargs dataMap args
        ⟨nm, if spec = [] then ((c.defs (String.ofList nm)).map (·.spec)).getD [] else spec, conv⟩ with
      | base => exact absurd hv hb
      | ok s =>
        cases hqq : ((c.defs (String.ofList nm)).map (·.quote)).getD true with
        | false => simp [ih, String.append_assoc]
        | true =>
          simp only [if_true]
          cases hs : q s with
          | base => exact absurd hs (hq s)
          | ok s' => simp only [ih, orWritten, String.append_assoc]
          | keyError => simp only [ih, orWritten, String.append_assoc]
          | exc => simp only [ih, orWritten, String.append_assoc]
      | keyError => simp only [ih, String.append_assoc]
      | exc => simp only [ih, String.append_assoc]

theorem look_kw {V : Type} (c : Conf V) (kwargs dataMap : String → Option V) (k : String) :
    look c kwargs dataMap k = (match kwargs k with | some v => .ok v | none => named c dataMap k) := by
  cases hk : kwargs k with
  | some v => simp [look, lookup, hk]
  | none => rw [← look_eq]; simp [look, lookup, hk]

theorem atomQ_part {V : Type} {c : Conf V} (hc : c.Calm) (q : String → Res String) (kwargs dataMap : String → Option V)
    (args : List V) (p : Part) (hp : p.Ok) (ha : ∀ cv s, p ≠ .auto cv s) :
    String.join (p.flat.map (atomQ c q kwargs dataMap args)) = p.entry c q kwargs dataMap args := by
  cases p with
  | auto cv s => exact absurd rfl (ha cv s)
  | lit s => rw [show Part.flat (.lit s) = s.map .inl from rfl, join_chars s _ (fun _ => rfl)]; rfl
  | num i conv spec =>
    have ho : ∀ c ∈ dec i, Ordinary c := fun c hc => digit_ordinary (dec_digits i c hc)
    have ht := takeWhile_ordinary ho
    simp only [Part.flat, List.map_cons, List.map_nil, String.join_cons, String.join_nil, String.append_empty, atomQ,
      text_eq, Part.entry, Part.text, Part.quoted, Part.write, hc.numbers i, Option.map_none, Option.getD_none, if_true]
    have hs : (if spec = [] then [] else spec) = spec := by split <;> simp_all
    simp only [value, TField.positional, TField.base, TField.path, ht.1, ht.2, hs, readDec_dec]
    rw [if_pos (List.all_eq_true.2 (dec_digits i))]
    cases args[i]? with
    | none => rfl
    | some v => rfl
  | name k conv spec =>
    simp only [Part.Ok] at hp
    have ht := takeWhile_ordinary hp.1
    simp only [Part.flat, List.map_cons, List.map_nil, String.join_cons, String.join_nil, String.append_empty, atomQ,
      text_eq, Part.entry, Part.text, Part.write]
    have hqt : Part.quoted c (.name k conv spec) = ((c.defs (String.ofList k)).map (·.quote)).getD true := by
      simp only [Part.quoted]; cases c.defs (String.ofList k) <;> rfl
    rw [hqt]
    simp only [value, TField.positional, TField.base, TField.path, ht.1, ht.2, look_kw]
    obtain ⟨d, hd, hd'⟩ := hp.2.1
    rw [if_neg (by intro h; rw [List.all_eq_true] at h; rw [h d hd] at hd'; cases hd')]
    cases kwargs (String.ofList k) with
    | some v => rfl
    | none => cases named c dataMap (String.ofList k) <;> rfl

/-- **C89.**  An entry is what the parts of its template show, one after the other: each its own text, quoted or not as the
field is declared, or the field as written if the text cannot be had or quoted. -/
theorem C89_entry {V : Type} {c : Conf V} (hc : c.Calm) {q : String → Res String} (hq : ∀ s, q s ≠ .base)
    (ps : List Part) (hok : ∀ p ∈ ps, p.Ok) (kwargs dataMap : String → Option V) (args : List V) :
    formatAll c defaultDefaulter (defaultQuoter c q) (write ps) kwargs dataMap args =
      .ok (String.join ((numbered 0 ps).map (Part.entry c q kwargs dataMap args))) := by
  obtain ⟨h1, h2⟩ := numbered_ok ps 0 hok
  obtain ⟨out, h3, h4⟩ := parse_write (numbered 0 ps) [] h1 h2
  simp only [formatAll, construct, tokenize, infer_write ps 0 hok, h3, mkTokens_q, format_q hc hq, h4]
  congr 1
  simp only [List.map_nil, List.nil_append, String.empty_append]
  clear h3 h4 out
  generalize numbered 0 ps = qs at h1 h2
  induction qs with
  | nil => rfl
  | cons p qs ih =>
    simp only [List.flatMap_cons, List.map_append, join_append, List.map_cons, String.join_cons]
    rw [atomQ_part hc q kwargs dataMap args p (h1 p (by simp)) (fun cv s h => h2 cv s (by simp [h])),
      ih (fun p hp => h1 p (by simp [hp])) (fun cv s hm => h2 cv s (by simp [hm]))]

/-! ## Reading -/

theorem points_append (a b : String) : points (a ++ b) = points a ++ points b := by simp [points]

theorem points_text (s : String) : Json.Text (points s) := by
  have hv : ∀ n ∈ points s, n < 0x110000 ∧ ¬ (0xd800 ≤ n ∧ n < 0xe000) := by
    intro n hn
    simp only [points, List.mem_map] at hn
    obtain ⟨ch, -, rfl⟩ := hn
    have := ch.valid
    simp only [UInt32.isValidChar, Nat.isValidChar] at this
    have h2 : ch.toNat = ch.val.toNat := rfl
    omega
  refine ⟨fun n hn => (hv n hn).1, ?_⟩
  have hnh : ∀ n ∈ points s, Json.isHigh n = false := by
    intro n hn
    have := (hv n hn).2
    simp only [Json.isHigh, Bool.and_eq_false_imp, decide_eq_true_eq, decide_eq_false_iff_not]
    omega
  generalize points s = l at hnh
  induction l with
  | nil => exact .nil
  | cons a l ih =>
    cases l with
    | nil => exact .singleton a
    | cons b l =>
      refine .cons_cons ?_ (ih fun n hn => hnh n (by simp only [List.mem_cons] at hn ⊢; exact .inr hn))
      rw [hnh a (by simp)]; simp

theorem points_jsonQuoter (s : String) : ∃ y, jsonQuoter s = .ok y ∧ points y = Json.dumps (points s) := by
  refine ⟨_, rfl, ?_⟩
  simp only [points, String.toList_ofList, List.map_map]
  have : ∀ n ∈ Json.dumps (points s), (Char.toNat ∘ Char.ofNat) n = n := by
    intro n hn
    have hp := Json.C39_printable _ n hn
    have hv : n.isValidChar := by left; omega
    simp [Char.ofNat, hv, Char.toNat, Char.ofNatAux]
  exact (List.map_congr_left this).trans (List.map_id _)

theorem jsonQuoter_ne_base (s : String) : jsonQuoter s ≠ .base := by simp [jsonQuoter]

theorem take_to_space {a b : List Nat} (h : 32 ∉ a) (hb : b = [] ∨ ∃ r, b = 32 :: r) :
    (a ++ b).takeWhile (· ≠ 32) = a ∧ ((a ++ b).dropWhile (· ≠ 32)) = b := by
  induction a with
  | nil =>
    rcases hb with rfl | ⟨r, rfl⟩ <;> simp
  | cons x a ih =>
    simp only [List.mem_cons, not_or] at h
    have hx : (decide (x ≠ 32)) = true := by simpa using fun h' => h.1 h'.symm
    have := ih h.2
    rw [List.cons_append, List.takeWhile_cons, List.dropWhile_cons, hx, if_pos rfl, if_pos rfl, this.1, this.2]
    exact ⟨rfl, rfl⟩

theorem write_head {p : Part} (h : ∀ s, p ≠ .lit s) : ∃ r, p.write = '{' :: r := by
  cases p with
  | lit s => exact absurd rfl (h s)
  | auto _ _ => exact ⟨_, by simp only [Part.write, field_eq]; rfl⟩
  | num _ _ _ => exact ⟨_, by simp only [Part.write, field_eq]; rfl⟩
  | name _ _ _ => exact ⟨_, by simp only [Part.write, field_eq]; rfl⟩

theorem loads_written {p : Part} (h : ∀ s, p ≠ .lit s) (rest : List Nat) :
    Json.loads (points (String.ofList p.write) ++ rest) = none := by
  obtain ⟨r, hr⟩ := write_head h
  rw [hr]; simp only [points, String.toList_ofList, List.map_cons, List.cons_append]
  rfl

theorem space_point {s : List Char} (h : ' ' ∉ s) : 32 ∉ points (String.ofList s) := by
  simp only [points, String.toList_ofList, List.mem_map, not_exists, not_and]
  intro ch hch he
  apply h
  have : ch = ' ' := by
    apply Char.ext; apply UInt32.toNat_inj.1; exact he
  exact this ▸ hch

theorem space_point' {s : String} (h : ' ' ∉ s.toList) : 32 ∉ points s := by
  have := space_point h; rwa [String.ofList_toList] at this

/-- One field is read off the front of an entry. -/
theorem read_one {V : Type} {c : Conf V} {kwargs dataMap : String → Option V} {args : List V} {p : Part} (hs : p.Solid)
    (hu : p.quoted c = false → ∀ s, p.text c kwargs dataMap args = .ok s → ' ' ∉ s.toList) (qs : List Bool)
    {rest : List Nat} (hr : rest = [] ∨ ∃ r, rest = 32 :: r) :
    readEntry (p.quoted c :: qs) (points (p.entry c jsonQuoter kwargs dataMap args) ++ rest) =
      p.reading c kwargs dataMap args :: readEntry qs (rest.drop 1) := by
  have plain : ∀ (b : Bool) (a : List Nat), 32 ∉ a → (b = true → Json.loads (a ++ rest) = none) →
      readEntry (b :: qs) (a ++ rest) = .plain a :: readEntry qs (rest.drop 1) := by
    intro b a ha hl
    obtain ⟨h1, h2⟩ := take_to_space ha hr
    have : (if b then Json.loads (a ++ rest) else none) = none := by cases b <;> simp_all
    simp only [readEntry, this, h1, h2]
  have hw := plain (p.quoted c) _ (space_point hs.2) (fun _ => loads_written hs.1 rest)
  cases ht : p.text c kwargs dataMap args with
  | ok s =>
    cases hq : p.quoted c with
    | true =>
      obtain ⟨y, hy1, hy2⟩ := points_jsonQuoter s
      simp only [Part.entry, Part.reading, ht, hq, if_true, hy1, orWritten, hy2, readEntry,
        Json.C39_read_back_partial _ (points_text s)]
    | false =>
      have := plain false (points s) (space_point' (hu hq s ht)) (by simp)
      simpa [Part.entry, Part.reading, ht, hq] using this
  | keyError => simpa [Part.entry, Part.reading, ht] using hw
  | exc => simpa [Part.entry, Part.reading, ht] using hw
  | base => simpa [Part.entry, Part.reading, ht] using hw

theorem dec_no_space (n : Nat) : ' ' ∉ dec n := by
  intro h
  have := dec_digits n _ h
  revert this; decide

theorem numbered_spaced : ∀ (ps : List Part) (n : Nat), (∀ p ∈ ps, ∀ s, p ≠ .lit s) →
    numbered n (spaced ps) = spaced (numbered n ps) := by
  intro ps
  induction ps with
  | nil => intro n _; rfl
  | cons p ps ih =>
    intro n h
    have ih' := fun n => ih n fun p hp => h p (by simp [hp])
    cases ps with
    | nil => cases p <;> rfl
    | cons p' ps =>
      have hne : ∀ m, ∃ a b, numbered m (p' :: ps) = a :: b := by
        intro m; cases p' <;> exact ⟨_, _, rfl⟩
      cases p with
      | lit s => exact absurd rfl (h _ (by simp) s)
      | auto cv s =>
        obtain ⟨a, b, hab⟩ := hne (n + 1)
        simp only [spaced, numbered, ih', hab]
      | num i cv s =>
        obtain ⟨a, b, hab⟩ := hne n
        simp only [spaced, numbered, ih', hab]
      | name k cv s =>
        obtain ⟨a, b, hab⟩ := hne n
        simp only [spaced, numbered, ih', hab]

theorem numbered_solid {V : Type} (c : Conf V) : ∀ (ps : List Part) (n : Nat), (∀ p ∈ ps, p.Solid) →
    (∀ p ∈ numbered n ps, p.Solid) ∧ (numbered n ps).map (Part.quoted c) = ps.map (Part.quoted c) := by
  intro ps
  induction ps with
  | nil => intro n _; simp [numbered]
  | cons p ps ih =>
    intro n h
    have ih' := fun n => ih n fun p hp => h p (by simp [hp])
    have hp := h p (by simp)
    cases p with
    | auto cv s =>
      simp only [numbered, List.mem_cons, forall_eq_or_imp, List.map_cons, (ih' (n + 1)).2]
      refine ⟨⟨⟨by simp, ?_⟩, (ih' (n + 1)).1⟩, rfl⟩
      have h2 := hp.2
      simp only [Part.write, field, List.append_nil, List.mem_append, not_or] at h2 ⊢
      exact ⟨⟨⟨⟨h2.1.1.1, dec_no_space n⟩, h2.1.1.2⟩, h2.1.2⟩, h2.2⟩
    | lit s => exact absurd rfl (hp.1 s)
    | num i cv s =>
      simp only [numbered, List.mem_cons, forall_eq_or_imp, List.map_cons, (ih' n).2]
      exact ⟨⟨hp, (ih' n).1⟩, trivial⟩
    | name k cv s =>
      simp only [numbered, List.mem_cons, forall_eq_or_imp, List.map_cons, (ih' n).2]
      exact ⟨⟨hp, (ih' n).1⟩, trivial⟩

theorem spaced_ok : ∀ (ps : List Part), (∀ p ∈ ps, p.Ok) → ∀ p ∈ spaced ps, p.Ok := by
  intro ps
  induction ps with
  | nil => intro h; simp [spaced]
  | cons p ps ih =>
    intro h
    cases ps with
    | nil => simpa [spaced] using h
    | cons p' ps =>
      have := ih fun p hp => h p (by simp only [List.mem_cons] at hp ⊢; exact .inr hp)
      simp only [spaced, List.mem_cons, forall_eq_or_imp]
      exact ⟨h p (by simp), trivial, this⟩

/-- **C89.**  From the entry alone, knowing only which fields of the template are quoted, every field can be read back:
quoted fields give exactly the text of the value, whatever it contains, and can be told from fields that could not be shown;
unquoted fields give what they show.  For templates of fields separated by spaces, as long as fields shown unquoted show no
space. -/
theorem C89_read_back {V : Type} {c : Conf V} (hc : c.Calm) (ps : List Part) (hok : ∀ p ∈ ps, p.Ok)
    (hsolid : ∀ p ∈ ps, p.Solid) (kwargs dataMap : String → Option V) (args : List V)
    (hu : ∀ p ∈ ps, p.quoted c = false → ∀ s, p.text c kwargs dataMap args = .ok s → ' ' ∉ s.toList) (line : String)
    (h : formatAll c defaultDefaulter (defaultQuoter c jsonQuoter) (write (spaced ps)) kwargs dataMap args = .ok line) :
    readEntry (ps.map (Part.quoted c)) (points line) = (numbered 0 ps).map (Part.reading c kwargs dataMap args) := by
  rw [C89_entry hc jsonQuoter_ne_base _ (spaced_ok ps hok), Res.ok.injEq,
    numbered_spaced ps 0 fun p hp => (hsolid p hp).1] at h
  subst h
  obtain ⟨h1, h2⟩ := numbered_solid c ps 0 hsolid
  rw [← h2]
  have hu' : ∀ p ∈ numbered 0 ps, p.quoted c = false → ∀ s, p.text c kwargs dataMap args = .ok s → ' ' ∉ s.toList := by
    generalize 0 = n
    clear h1 h2 hok hsolid
    induction ps generalizing n with
    | nil => simp [numbered]
    | cons p ps ih =>
      have ih' := fun n => ih (fun p hp => hu p (by simp [hp])) n
      have hp := hu p (by simp)
      cases p with
      | auto cv s =>
        simp only [numbered, List.mem_cons, forall_eq_or_imp]
        exact ⟨by simp [Part.quoted], ih' (n + 1)⟩
      | _ => simp only [numbered, List.mem_cons, forall_eq_or_imp]; exact ⟨hp, ih' n⟩
  clear hu h2 hok hsolid
  generalize numbered 0 ps = qs at h1 hu'
  induction qs with
  | nil => rfl
  | cons p qs ih =>
    have ih' := ih (fun p hp => h1 p (by simp [hp])) (fun p hp => hu' p (by simp [hp]))
    have hr := fun rest hr => read_one (c := c) (kwargs := kwargs) (dataMap := dataMap) (args := args) (h1 p (by simp))
      (hu' p (by simp)) (qs.map (Part.quoted c)) (rest := rest) hr
    cases qs with
    | nil =>
      have := hr [] (.inl rfl)
      simpa [spaced, readEntry] using this
    | cons p' qs =>
      simp only [spaced, List.map_cons, String.join_cons, points_append]
      have hsp : points (Part.entry c jsonQuoter kwargs dataMap args (.lit [' '])) = [32] := by
        simp [Part.entry, Part.text, Part.quoted, points]
      rw [hsp]
      have := hr (32 :: points (String.join ((spaced (p' :: qs)).map (Part.entry c jsonQuoter kwargs dataMap args))))
        (.inr ⟨_, rfl⟩)
      simp only [List.map_cons, List.drop_succ_cons, List.drop_zero] at this ih'
      rw [List.singleton_append, this, ih']

/-- Three fields, one of them unquoted, with a quote, a space and a brace in the data. -/
def entryPs : List Part := [.name "status_str".toList none [], .name "who".toList none [], .auto none ['d'], .auto (some 'r') []]

example : String.ofList (write (spaced entryPs)) = "{status_str} {who} {:d} {!r}" := by decide +kernel

theorem entryPs_ok : ∀ p ∈ entryPs, p.Ok := by
  intro p hp
  simp only [entryPs, List.mem_cons, List.not_mem_nil, or_false] at hp
  rcases hp with rfl | rfl | rfl | rfl <;> simp [Part.Ok, Ordinary, Tmpl.Balanced]

theorem entryPs_solid : ∀ p ∈ entryPs, p.Solid := by
  intro p hp
  simp only [entryPs, List.mem_cons, List.not_mem_nil, or_false] at hp
  rcases hp with rfl | rfl | rfl | rfl <;> exact ⟨by simp, by decide +kernel⟩

theorem entryPs_text (who : String) (args : List String) : ∀ p ∈ entryPs, p.quoted sampleConf = false →
    ∀ s, p.text sampleConf (fun _ => none) (fun k => if k = "who" then some who else none) args = .ok s → s = "success" := by
  intro p hp
  simp only [entryPs, List.mem_cons, List.not_mem_nil, or_false] at hp
  rcases hp with rfl | rfl | rfl | rfl
  · intro _ s hs
    have h1 : ("status_str" = "who") = False := by simp
    have h2 : ('s' = 'd') = False := by simp
    have h3 : named sampleConf (fun k => if k = "who" then some who else none) "status_str" = .ok "success" := by
      simp [named, sampleConf]
    have h4 : sampleConf.fmt [] none ['s'] [] "success" = .ok "success" := by decide +kernel
    have h5 : ((sampleConf.defs "status_str").map (·.spec)).getD [] = ['s'] := by decide +kernel
    simp only [Part.text, String.ofList_toList, h3, if_true, h5, h4, Res.ok.injEq] at hs
    exact hs.symm
  · intro hq; exact absurd hq (by decide +kernel)
  · intro hq; exact absurd hq (by decide +kernel)
  · intro hq; exact absurd hq (by decide +kernel)

example (line : String) (h : formatAll sampleConf defaultDefaulter (defaultQuoter sampleConf jsonQuoter)
      (write (spaced entryPs)) (fun _ => none) (fun k => if k = "who" then some "a \"b\" {0}" else none) ["x"] = .ok line) :
    readEntry [false, true, true, true] (points line) =
      [.plain (points "success"), .text (points "a \"b\" {0}"), .plain (points "{0:d}"), .plain (points "{1!r}")] := by
  have := C89_read_back sampleConf_calm entryPs entryPs_ok entryPs_solid
    (fun _ => none) (fun k => if k = "who" then some "a \"b\" {0}" else none) ["x"]
    (fun p hp hq s hs => by rw [entryPs_text _ _ p hp hq s hs]; decide) line h
  rw [show entryPs.map (Part.quoted sampleConf) = [false, true, true, true] by decide +kernel] at this
  rw [this]; decide +kernel

example := C89_entry sampleConf_calm (q := jsonQuoter) (fun s => by simp [jsonQuoter]) (spaced entryPs)
  (spaced_ok _ entryPs_ok) (fun _ => none) (fun k => if k = "who" then some "a \"b\" {0}" else none) ["x"]

end Verif.Tmpl
