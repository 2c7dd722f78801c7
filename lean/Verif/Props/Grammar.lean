import Verif.Spec.Grammar
import Verif.Props.Formatter
/-!
# C67, C68, C87: the templates that are valid are those of the grammar
-/
namespace Verif.Grammar
open Verif.Msg Verif.Tmpl
open Verif.Sens (Res)

/-- Where the parser is, without what it has gathered; `spec d`: in the format spec, `d` pairs of braces open. -/
inductive At | lit | opened | closed | name | index | conv | conved | spec (d : Nat)
deriving DecidableEq

/-- Within the name. -/
def At.inName (c : Char) : Option At :=
  if c = '{' then none
  else if c = '[' then some .index
  else if c = '}' then some .lit
  else if c = ':' then some (.spec 0)
  else if c = '!' then some .conv
  else some .name

/-- The next place; `none`: an error. -/
def At.next : At → Char → Option At
  | .lit, c => if c = '{' then some .opened else if c = '}' then some .closed else some .lit
  | .closed, c => if c = '}' then some .lit else none
  | .opened, c => if c = '{' then some .lit else At.inName c
  | .name, c => At.inName c
  | .index, c => some (if c = ']' then .name else .index)
  | .conv, _ => some .conved
  | .conved, c => if c = '}' then some .lit else if c = ':' then some (.spec 0) else none
  | .spec d, c =>
    if c = '{' then some (.spec (d + 1))
    else if c = '}' then (match d with | 0 => some .lit | d + 1 => some (.spec d))
    else some (.spec d)

/-- Acceptance; `strict`: no `{` as a conversion. -/
def accepts (strict : Bool) : At → List Char → Bool
  | p, [] => p = .lit
  | p, c :: s =>
    if strict && p = .conv && c = '{' then false
    else match p.next c with
      | none => false
      | some q => accepts strict q s

/-- The place of the parser's state. -/
def place : PState → At
  | .lit _ => .lit
  | .opened _ => .opened
  | .closed _ => .closed
  | .name _ => .name
  | .bracket _ => .index
  | .conv0 _ => .conv
  | .conv1 _ _ => .conved
  | .spec _ _ _ d => .spec (d - 1)

/-- In a format spec the depth is at least one. -/
def Fine : PState → Prop
  | .spec _ _ _ d => 1 ≤ d
  | _ => True

theorem nameChar_place (acc : List Char) (c : Char) :
    (nameChar acc c).map (fun r => place r.2) = At.inName c ∧ ∀ r, nameChar acc c = some r → Fine r.2 := by
  simp only [nameChar, At.inName]
  repeat' split
  all_goals simp [place, Fine]

theorem pstep_place (st : PState) (h : Fine st) (c : Char) :
    (pstep st c).map (fun r => place r.2) = (place st).next c ∧ ∀ r, pstep st c = some r → Fine r.2 := by
  cases st with
  | lit acc => simp only [pstep, place, At.next]; repeat' split
               all_goals simp [place, Fine]
  | closed acc => simp only [pstep, place, At.next]; repeat' split
                  all_goals simp [place, Fine]
  | opened acc =>
    simp only [pstep, place, At.next]
    split
    · simp [place, Fine]
    · obtain ⟨h1, h2⟩ := nameChar_place [] c
      refine ⟨by rw [← h1, Option.map_map]; rfl, fun r hr => ?_⟩
      obtain ⟨r', h3, rfl⟩ := Option.map_eq_some_iff.1 hr
      exact h2 r' h3
  | name acc => exact nameChar_place acc c
  | bracket acc => simp only [pstep, place, At.next]; split <;> simp [place, Fine]
  | conv0 nm => simp [pstep, place, At.next, Fine]
  | conv1 nm cv => simp only [pstep, place, At.next]; repeat' split
                   all_goals simp [place, Fine]
  | spec nm acc cv d =>
    have hd : 1 ≤ d := h
    obtain ⟨k, rfl⟩ := Nat.exists_eq_add_of_le' hd
    simp only [pstep, place, At.next, Nat.add_sub_cancel]
    split
    · simp [place, Fine]
    · split
      · cases k with
        | zero => simp [place, Fine]
        | succ k => simp [place, Fine]
      · simp [place, Fine]

theorem parse_place : ∀ (s : List Char) (st : PState), Fine st → (parse st s).isSome = accepts false (place st) s
  | [], st, _ => by cases st <;> simp [parse, accepts, place]
  | c :: s, st, h => by
    obtain ⟨h1, h2⟩ := pstep_place st h c
    have e : parse st (c :: s) = (match pstep st c with | none => none | some (out, st') => (parse st' s).map (out ++ ·)) := by
      cases st <;> rfl
    rw [e]
    simp only [accepts, Bool.false_and, Bool.false_eq_true, if_false, ← h1]
    cases hp : pstep st c with
    | none => rfl
    | some r =>
      have := parse_place s r.2 (h2 r hp)
      simp only [Option.isSome_map, Option.map_some, this]

/-! ## The numbering -/

/-- A text that is read as part of what it is in. -/
def Plain (t : List Char) : Prop := t ≠ [] ∧ ∀ c ∈ t, c.isDigit = true

theorem digit_ne {c : Char} (h : c.isDigit = true) : c ≠ '{' ∧ c ≠ '}' ∧ c ≠ '[' ∧ c ≠ ']' ∧ c ≠ ':' ∧ c ≠ '!' := by
  refine ⟨?_, ?_, ?_, ?_, ?_, ?_⟩ <;> (rintro rfl; revert h; decide)

theorem infer_head (num : Nat → List Char) (n : Nat) (d : Char) (s : List Char) : ∃ r, infer num n (d :: s) = d :: r := by
  cases s with
  | nil => exact ⟨_, rfl⟩
  | cons e s =>
    simp only [infer]
    split
    · rename_i h; exact ⟨_, by rw [h.1]⟩
    · split
      · rename_i h; exact ⟨_, by rw [h.1]⟩
      · split
        · rename_i h; exact ⟨_, by rw [h.1]⟩
        · exact ⟨_, rfl⟩

theorem accepts_stay {p : At} (hp : ∀ c, c.isDigit = true → p.next c = some p) : ∀ (t r : List Char), (∀ c ∈ t, c.isDigit = true) →
    accepts false p (t ++ r) = accepts false p r
  | [], _, _ => rfl
  | c :: t, r, h => by
    rw [List.cons_append, accepts, hp c (h c List.mem_cons_self)]
    simp only [Bool.false_and, Bool.false_eq_true, if_false]
    exact accepts_stay hp t r fun x hx => h x (List.mem_cons_of_mem _ hx)

theorem stay_lit (c : Char) (h : c.isDigit = true) : At.lit.next c = some .lit := by
  obtain ⟨h1, h2, -⟩ := digit_ne h
  simp [At.next, h1, h2]
theorem stay_name (c : Char) (h : c.isDigit = true) : At.name.next c = some .name := by
  obtain ⟨h1, h2, h3, h4, h5, h6⟩ := digit_ne h
  simp [At.next, At.inName, h1, h2, h3, h5, h6]
theorem stay_index (c : Char) (h : c.isDigit = true) : At.index.next c = some .index := by
  obtain ⟨h1, h2, h3, h4, h5, h6⟩ := digit_ne h
  simp [At.next, h4]
theorem stay_spec (d : Nat) (c : Char) (h : c.isDigit = true) : (At.spec d).next c = some (.spec d) := by
  obtain ⟨h1, h2, -⟩ := digit_ne h
  simp [At.next, h1, h2]

theorem opened_digits {t : List Char} (h : Plain t) (r : List Char) : accepts false .opened (t ++ r) = accepts false .name r := by
  cases t with
  | nil => exact absurd rfl h.1
  | cons c t =>
    have hc := h.2 c List.mem_cons_self
    obtain ⟨h1, h2, h3, h4, h5, h6⟩ := digit_ne hc
    rw [List.cons_append, accepts]
    have : At.opened.next c = some .name := by simp [At.next, At.inName, h1, h2, h3, h5, h6]
    simp only [Bool.false_and, Bool.false_eq_true, if_false, this]
    exact accepts_stay stay_name t r fun x hx => h.2 x (List.mem_cons_of_mem _ hx)

theorem conved_digits {t : List Char} (h : Plain t) (r : List Char) : accepts false .conved (t ++ r) = false := by
  cases t with
  | nil => exact absurd rfl h.1
  | cons c t =>
    obtain ⟨h1, h2, h3, h4, h5, h6⟩ := digit_ne (h.2 c List.mem_cons_self)
    rw [List.cons_append, accepts]
    simp [At.next, h2, h5]

/-- Numbering the fields changes nothing but that `{` cannot be a conversion. -/
theorem accepts_infer {num : Nat → List Char} (hnum : ∀ n, Plain (num n)) : ∀ (s : List Char) (n : Nat) (p : At),
    accepts false p (infer num n s) = accepts true p s
  | [], _, p => rfl
  | [c], _, p => by
    by_cases h : p = .conv ∧ c = '{'
    · obtain ⟨rfl, rfl⟩ := h
      simp [infer, accepts, At.next]
    · have : (true && decide (p = .conv) && decide (c = '{')) = false := by simpa using h
      simp only [infer, accepts, this, Bool.false_and, Bool.false_eq_true, if_false]
  | c :: d :: s, n, p => by
    have two : ∀ t, accepts false p (c :: d :: infer num t s) = accepts true p (c :: d :: s) ∨ (p = .conv ∧ c = '{') ∨ (c = '!' ∧ d = '{') := by
      intro t
      by_cases h : p = .conv ∧ c = '{'
      · exact .inr (.inl h)
      by_cases h2 : c = '!' ∧ d = '{'
      · exact .inr (.inr h2)
      left
      have e1 : (true && decide (p = .conv) && decide (c = '{')) = false := by simpa using h
      simp only [accepts, e1, Bool.false_and, Bool.false_eq_true, if_false]
      cases hq : p.next c with
      | none => rfl
      | some q =>
        have e2 : (true && decide (q = .conv) && decide (d = '{')) = false := by
          by_cases hd : d = '{'
          · subst hd
            have : q ≠ .conv := by
              rintro rfl
              have hc : c ≠ '!' := fun e => h2 ⟨e, rfl⟩
              cases p <;> simp only [At.next, At.inName] at hq <;> (repeat' split at hq) <;> simp_all
            simp [this]
          · simp [hd]
        simp only [e2, Bool.false_eq_true, if_false]
        cases q.next d with
        | none => rfl
        | some q' => exact accepts_infer hnum s t q'
    simp only [infer]
    split
    · rename_i h
      obtain ⟨rfl, rfl⟩ := h
      rcases two n with h | ⟨rfl, -⟩ | ⟨h, -⟩
      · exact h
      · simp [accepts, At.next]
      · cases h
    · split
      · rename_i h
        obtain ⟨rfl, rfl⟩ := h
        rcases two n with h | ⟨-, h⟩ | ⟨h, -⟩
        · exact h
        · cases h
        · cases h
      · split
        · rename_i h
          obtain ⟨rfl, hd⟩ := h
          have hdo : d ≠ '{' := by rcases hd with rfl | rfl | rfl | rfl | rfl <;> decide
          have ih := fun q => accepts_infer hnum s (n + 1) q
          have dstep : ∀ q : At, accepts false q (d :: infer num (n + 1) s) = accepts true q (d :: s) := by
            intro q
            have e : (true && decide (q = .conv) && decide (d = '{')) = false := by simp [hdo]
            simp only [accepts, e, Bool.false_and, Bool.false_eq_true, if_false]
            cases q.next d with
            | none => rfl
            | some q' => exact ih q'
          have hpl := hnum n
          cases p with
          | lit =>
            simp only [accepts, At.next, Bool.false_and, Bool.false_eq_true, if_false, if_true, decide_false, Bool.and_false, reduceCtorEq]
            rw [opened_digits hpl, dstep]
            simp only [accepts, At.next, hdo, if_false, decide_false, Bool.and_false, Bool.false_eq_true]
          | opened =>
            simp only [accepts, At.next, Bool.false_and, Bool.false_eq_true, if_false, if_true, decide_false, Bool.and_false, reduceCtorEq]
            rw [accepts_stay stay_lit _ _ hpl.2, dstep]
            simp only [accepts, At.next, hdo, decide_false, Bool.and_false, Bool.false_eq_true, if_false]
          | closed => simp [accepts, At.next]
          | name => simp [accepts, At.next, At.inName]
          | index =>
            have : At.index.next '{' = some .index := by decide
            simp only [accepts, this, Bool.false_and, Bool.false_eq_true, if_false, decide_false, Bool.and_false, reduceCtorEq]
            rw [accepts_stay stay_index _ _ hpl.2, dstep]
            simp only [accepts, hdo, decide_false, Bool.and_false, Bool.false_eq_true, if_false]
          | conv =>
            simp only [accepts, At.next, Bool.false_and, Bool.false_eq_true, if_false, decide_true, Bool.and_true, if_true]
            exact conved_digits hpl _
          | conved => simp [accepts, At.next]
          | spec k =>
            simp only [accepts, At.next, Bool.false_and, Bool.false_eq_true, if_false, if_true, decide_false, Bool.and_false, reduceCtorEq]
            rw [accepts_stay (stay_spec _) _ _ hpl.2, dstep]
            simp only [accepts, At.next, hdo, decide_false, Bool.and_false, Bool.false_eq_true, if_false]
        · rename_i h1 h2 h3
          by_cases h : p = .conv ∧ c = '{'
          · obtain ⟨rfl, rfl⟩ := h
            obtain ⟨r, hr⟩ := infer_head num n d s
            have hb : d ≠ '}' := fun e => h3 ⟨rfl, by simp [e]⟩
            have hc : d ≠ ':' := fun e => h3 ⟨rfl, by simp [e]⟩
            rw [hr]
            simp [accepts, At.next, hb, hc]
          · have e1 : (true && decide (p = .conv) && decide (c = '{')) = false := by simpa using h
            rw [accepts, accepts]
            simp only [e1, Bool.false_and, Bool.false_eq_true, if_false]
            cases p.next c with
            | none => rfl
            | some q => exact accepts_infer hnum (d :: s) n q

/-! ## The grammar -/

theorem spec_reads {s : List Char} (h : Spec s) : ∀ (d : Nat) (r : List Char), accepts true (.spec d) (s ++ r) = accepts true (.spec d) r := by
  induction h with
  | nil => intro d r; rfl
  | char h1 h2 _ ih =>
    intro d r
    rw [List.cons_append, accepts]
    simp [At.next, h1, h2, ih]
  | pair _ _ ih1 ih2 =>
    intro d r
    simp only [List.cons_append, List.append_assoc]
    rw [accepts]
    simp only [At.next, if_true, reduceCtorEq, decide_false, Bool.and_false, Bool.false_and, Bool.false_eq_true, if_false]
    rw [ih1, accepts]
    simp only [At.next, reduceCtorEq, decide_false, Bool.and_false, Bool.false_and, Bool.false_eq_true, if_false, if_true,
      show ('}' : Char) = '{' ↔ False by decide]
    exact ih2 d r

theorem index_reads {i : List Char} (h : ']' ∉ i) (r : List Char) : accepts true .index (i ++ ']' :: r) = accepts true .name r := by
  induction i with
  | nil => simp [accepts, At.next]
  | cons c i ih =>
    have hc : c ≠ ']' := fun e => h (by simp [e])
    rw [List.cons_append, accepts]
    simp only [At.next, hc, if_false, reduceCtorEq, decide_false, Bool.and_false, Bool.false_and, Bool.false_eq_true]
    exact ih fun hm => h (List.mem_cons_of_mem _ hm)

theorem name_reads {n : List Char} (h : Name n) (r : List Char) : accepts true .name (n ++ r) = accepts true .name r := by
  induction h with
  | nil => rfl
  | char h1 h2 h3 h4 h5 _ ih =>
    rw [List.cons_append, accepts]
    simp [At.next, At.inName, h1, h2, h3, h4, h5, ih]
  | index hi _ ih =>
    simp only [List.cons_append, List.append_assoc]
    rw [accepts]
    have : At.name.next '[' = some .index := by decide
    simp only [this, reduceCtorEq, decide_false, Bool.and_false, Bool.false_and, Bool.false_eq_true, if_false]
    rw [index_reads hi, ih]

theorem opts_reads {o : List Char} (h : Opts o) (r : List Char) : accepts true .name (o ++ '}' :: r) = accepts true .lit r := by
  cases h with
  | nothing => simp [accepts, At.next, At.inName]
  | conv hc => simp [accepts, At.next, At.inName, hc]
  | spec hs =>
    rw [List.cons_append, accepts]
    have : At.name.next ':' = some (.spec 0) := by decide
    simp only [this, reduceCtorEq, decide_false, Bool.and_false, Bool.false_and, Bool.false_eq_true, if_false]
    rw [spec_reads hs]
    simp [accepts, At.next]
  | both hc hs =>
    simp only [List.cons_append]
    rw [accepts]
    have : At.name.next '!' = some .conv := by decide
    simp only [this, reduceCtorEq, decide_false, Bool.and_false, Bool.false_and, Bool.false_eq_true, if_false]
    rw [accepts]
    simp only [hc, decide_false, Bool.and_false, Bool.false_eq_true, if_false, At.next]
    rw [accepts]
    have : At.conved.next ':' = some (.spec 0) := by decide
    simp only [this, reduceCtorEq, decide_false, Bool.and_false, Bool.false_and, Bool.false_eq_true, if_false]
    rw [spec_reads hs]
    simp [accepts, At.next]

theorem opened_name {s : List Char} (h : ∀ r, s ≠ '{' :: r) : accepts true .opened s = accepts true .name s := by
  cases s with
  | nil => rfl
  | cons c s =>
    have hc : c ≠ '{' := fun e => h s (by rw [e])
    rw [accepts, accepts]
    simp [At.next, hc]

theorem template_accepted {s : List Char} (h : Template s) : accepts true .lit s = true := by
  induction h with
  | nil => rfl
  | char h1 h2 _ ih => rw [accepts]; simpa [At.next, h1, h2] using ih
  | open_ _ ih => simpa [accepts, At.next] using ih
  | close _ ih => simpa [accepts, At.next] using ih
  | @field n o s hn ho _ ih =>
    simp only [List.cons_append, List.append_assoc]
    rw [accepts]
    simp only [At.next, if_true, reduceCtorEq, decide_false, Bool.and_false, Bool.false_and, Bool.false_eq_true, if_false]
    rw [opened_name, name_reads hn, opts_reads ho, ih]
    intro r e
    cases hn with
    | nil =>
      cases ho with
      | nothing => simp at e
      | conv hc => simp at e
      | spec hs => simp at e
      | both hc hs => simp at e
    | char h1 => simp only [List.cons_append, List.cons.injEq] at e; exact h1 e.1
    | index hi => simp at e

/-- The place after the brace that closes. -/
def At.below : Nat → At
  | 0 => .lit
  | d + 1 => .spec d

theorem spec_split (k : Nat) : ∀ (s : List Char) (d : Nat), s.length ≤ k → accepts true (.spec d) s = true →
    ∃ i r, s = i ++ '}' :: r ∧ Spec i ∧ accepts true (At.below d) r = true := by
  induction k with
  | zero =>
    intro s d hk h
    have : s = [] := List.length_eq_zero_iff.1 (Nat.le_zero.1 hk)
    subst this
    simp [accepts] at h
  | succ k ih =>
    intro s d hk h
    cases s with
    | nil => simp [accepts] at h
    | cons c s =>
      rw [accepts] at h
      simp only [reduceCtorEq, decide_false, Bool.and_false, Bool.false_and, Bool.false_eq_true, if_false, At.next] at h
      have hk' : s.length ≤ k := by simpa using hk
      by_cases h1 : c = '{'
      · subst h1
        simp only [if_true] at h
        obtain ⟨i, r, rfl, hi, hr⟩ := ih s (d + 1) hk' h
        obtain ⟨j, r', rfl, hj, hr'⟩ := ih r d (by simp at hk'; omega) hr
        exact ⟨'{' :: i ++ '}' :: j, r', by simp, .pair hi hj, hr'⟩
      · by_cases h2 : c = '}'
        · subst h2
          refine ⟨[], s, rfl, .nil, ?_⟩
          simp only [h1, if_false, if_true] at h
          cases d <;> simpa [At.below] using h
        · simp only [h1, h2, if_false] at h
          obtain ⟨i, r, rfl, hi, hr⟩ := ih s d hk' h
          exact ⟨c :: i, r, rfl, .char h1 h2 hi, hr⟩

theorem index_split : ∀ (s : List Char), accepts true .index s = true → ∃ i r, s = i ++ ']' :: r ∧ ']' ∉ i ∧ accepts true .name r = true
  | [], h => by simp [accepts] at h
  | c :: s, h => by
    rw [accepts] at h
    simp only [reduceCtorEq, decide_false, Bool.and_false, Bool.false_and, Bool.false_eq_true, if_false, At.next] at h
    by_cases hc : c = ']'
    · subst hc
      exact ⟨[], s, rfl, by simp, by simpa using h⟩
    · simp only [hc, if_false] at h
      obtain ⟨i, r, rfl, hi, hr⟩ := index_split s h
      exact ⟨c :: i, r, rfl, by simp [Ne.symm hc, hi], hr⟩

theorem name_split (k : Nat) : ∀ (s : List Char), s.length ≤ k → accepts true .name s = true →
    ∃ n o r, s = n ++ o ++ '}' :: r ∧ Name n ∧ Opts o ∧ accepts true .lit r = true := by
  induction k with
  | zero =>
    intro s hk h
    have : s = [] := List.length_eq_zero_iff.1 (Nat.le_zero.1 hk)
    subst this
    simp [accepts] at h
  | succ k ih =>
    intro s hk h
    cases s with
    | nil => simp [accepts] at h
    | cons c s =>
      have hk' : s.length ≤ k := by simpa using hk
      rw [accepts] at h
      simp only [reduceCtorEq, decide_false, Bool.and_false, Bool.false_and, Bool.false_eq_true, if_false, At.next, At.inName] at h
      by_cases h1 : c = '{'
      · simp [h1] at h
      by_cases h2 : c = '['
      · subst h2
        simp only [h1, if_false, if_true] at h
        obtain ⟨i, r, rfl, hi, hr⟩ := index_split s h
        obtain ⟨n, o, r', rfl, hn, ho, hr'⟩ := ih r (by simp at hk'; omega) hr
        exact ⟨'[' :: i ++ ']' :: n, o, r', by simp, .index hi hn, ho, hr'⟩
      by_cases h3 : c = '}'
      · subst h3
        simp only [h1, h2, if_false, if_true] at h
        exact ⟨[], [], s, rfl, .nil, .nothing, h⟩
      by_cases h4 : c = ':'
      · subst h4
        simp only [h1, h2, h3, if_false, if_true] at h
        obtain ⟨i, r, rfl, hi, hr⟩ := spec_split s.length s 0 (Nat.le_refl _) h
        exact ⟨[], ':' :: i, r, by simp, .nil, .spec hi, hr⟩
      by_cases h5 : c = '!'
      · subst h5
        simp only [h1, h2, h3, h4, if_false, if_true] at h
        cases s with
        | nil => simp [accepts] at h
        | cons e s =>
          rw [accepts] at h
          by_cases he : e = '{'
          · simp [he] at h
          simp only [he, decide_false, Bool.and_false, Bool.false_eq_true, if_false, At.next] at h
          cases s with
          | nil => simp [accepts] at h
          | cons g s =>
            rw [accepts] at h
            simp only [reduceCtorEq, decide_false, Bool.and_false, Bool.false_and, Bool.false_eq_true, if_false, At.next] at h
            by_cases h6 : g = '}'
            · subst h6
              simp only [if_true] at h
              exact ⟨[], ['!', e], s, rfl, .nil, .conv he, h⟩
            by_cases h7 : g = ':'
            · subst h7
              simp only [h6, if_false, if_true] at h
              obtain ⟨i, r, rfl, hi, hr⟩ := spec_split s.length s 0 (Nat.le_refl _) h
              exact ⟨[], '!' :: e :: ':' :: i, r, by simp, .nil, .both he hi, hr⟩
            · simp [h6, h7] at h
      · simp only [h1, h2, h3, h4, h5, if_false] at h
        obtain ⟨n, o, r, rfl, hn, ho, hr⟩ := ih s hk' h
        exact ⟨c :: n, o, r, rfl, .char h1 h3 h2 h4 h5 hn, ho, hr⟩

theorem accepted_template (k : Nat) : ∀ (s : List Char), s.length ≤ k → accepts true .lit s = true → Template s := by
  induction k with
  | zero =>
    intro s hk _
    have : s = [] := List.length_eq_zero_iff.1 (Nat.le_zero.1 hk)
    subst this
    exact .nil
  | succ k ih =>
    intro s hk h
    cases s with
    | nil => exact .nil
    | cons c s =>
      have hk' : s.length ≤ k := by simpa using hk
      rw [accepts] at h
      simp only [reduceCtorEq, decide_false, Bool.and_false, Bool.false_and, Bool.false_eq_true, if_false, At.next] at h
      by_cases h1 : c = '{'
      · subst h1
        simp only [if_true] at h
        by_cases h2 : ∃ r, s = '{' :: r
        · obtain ⟨r, rfl⟩ := h2
          refine .open_ (ih r (by simp at hk'; omega) ?_)
          simpa [accepts, At.next] using h
        · rw [opened_name (fun r e => h2 ⟨r, e⟩)] at h
          obtain ⟨n, o, r, rfl, hn, ho, hr⟩ := name_split s.length s (Nat.le_refl _) h
          have := Template.field hn ho (ih r (by simp at hk'; omega) hr)
          simpa using this
      · by_cases h2 : c = '}'
        · subst h2
          simp only [h1, if_false, if_true] at h
          cases s with
          | nil => simp [accepts] at h
          | cons d s =>
            rw [accepts] at h
            simp only [reduceCtorEq, decide_false, Bool.and_false, Bool.false_and, Bool.false_eq_true, if_false, At.next] at h
            by_cases h3 : d = '}'
            · subst h3
              simp only [if_true] at h
              exact .close (ih s (by simp at hk'; omega) h)
            · simp [h3] at h
        · simp only [h1, h2, if_false] at h
          exact .char h1 h2 (ih s hk' h)

/-- The texts the code's parser takes are those of the grammar, however fields are numbered. -/
theorem tokenize_grammar {num : Nat → List Char} (hnum : ∀ n, Plain (num n)) (s : List Char) :
    tokenize num s ≠ none ↔ Template s := by
  have h : (tokenize num s).isSome = accepts true .lit s := by
    rw [tokenize, parse_place _ _ (by trivial)]
    exact accepts_infer hnum s 0 .lit
  rw [← Option.isSome_iff_ne_none, h]
  exact ⟨accepted_template s.length s (Nat.le_refl _), template_accepted⟩

theorem dec_digits (n : Nat) : Plain (dec n) := by
  induction n using Nat.strong_induction_on with
  | _ n ih =>
    rw [dec]
    have hd : ∀ k, k < 10 → (digit k).isDigit = true := by decide
    split
    · rename_i h
      exact ⟨by simp, fun c hc => by rw [List.mem_singleton.1 hc]; exact hd n h⟩
    · rename_i h
      refine ⟨by simp, fun c hc => ?_⟩
      rcases List.mem_append.1 hc with hc | hc
      · exact (ih (n / 10) (by omega)).2 c hc
      · rw [List.mem_singleton.1 hc]; exact hd _ (by omega)

/-- **C87.**  With a defaulter and quoter that return, a formatter can be made from exactly the texts of the grammar. -/
theorem C87_grammar {V : Type} (c : Conf V) {defaulter : TField → Res String} {quoter : TField → Res Quoter}
    (hd : ∀ t, ∃ d, defaulter t = .ok d) (hq : ∀ t, ∃ q, quoter t = .ok q) (template : List Char) :
    (∃ ts, construct c defaulter quoter template = .ok ts) ↔ Template template := by
  rw [C87_valid c hd hq, tokenize_grammar dec_digits]

/-- **C67.**  `SensibleFormatter(base, **templates)` can be made exactly if each of the templates given is a text of the grammar. -/
theorem C67_grammar {V : Type} (c : Conf V) (a : FormatterArgs) :
    (∃ fs, mkFormatter c a = .ok fs) ↔
      ∀ ev ∈ ["begin", "warn", "end", "exception", "comment"],
        (∀ t, a.kw ev = .text t → Template t.toList) ∧ (a.kw ev = .absent → ∀ b, a.base = some b → Template b.toList) := by
  rw [C67_made]
  refine forall_congr' fun ev => forall_congr' fun _ => ?_
  cases a.kw ev with
  | text t => simp [tokenize_grammar dec_digits]
  | none' => simp
  | absent => cases a.base <;> simp [tokenize_grammar dec_digits]

/-- **C68.**  If nothing the application supplies raises a BaseException that is no Exception, reading an event's message raises
exactly for a message that has a `{` and is not a text of the grammar, as long as it is not cached. -/
theorem C68_grammar_partial {V : Type} (f : Fmt V) (hnum : f.num = dec) (raw : String) (fargs : List V) (now : Now V)
    (hg : ∀ k, now.getters k ≠ some .base)
    (hf : ∀ nm spec conv, ∃ n pos fmt fmtPos d q, f.mkField nm spec conv = .field n pos fmt fmtPos d q ∧
      (∀ v, fmt v ≠ .base) ∧ (∀ vs, fmtPos vs ≠ .base) ∧ ∀ q', q = some q' → ∀ s, q' s ≠ .base) :
    (message f ⟨some raw, fargs, none⟩ now).1 = none ↔ '{' ∈ raw.toList ∧ ¬ Template raw.toList := by
  rw [← tokenize_grammar dec_digits, ← hnum, not_not]
  constructor
  · intro h
    obtain ⟨raw', h1, h2, h3⟩ := C68_no_raise_partial f _ now hg hf h
    cases h1
    exact ⟨h2, h3⟩
  · rintro ⟨h1, h2⟩
    have := C68_raises f raw fargs h1 h2 [now]
    simpa [reads] using this

/-- A template with an index, a conversion and a nested spec; and three texts that are none. -/
example : Template "{a[:]!r:{w}.{}} {{x}} {}".toList :=
  .field (n := "a[:]".toList) (o := "!r:{w}.{}".toList) (s := " {{x}} {}".toList)
    (.char (by decide) (by decide) (by decide) (by decide) (by decide) (.index (i := [':']) (by decide) .nil))
    (.both (by decide) (.pair (i := ['w']) (s := ['.', '{', '}']) (.char (by decide) (by decide) .nil)
      (.char (by decide) (by decide) (.pair (i := []) (s := []) .nil .nil))))
    (.char (by decide) (by decide) (.open_ (.char (by decide) (by decide) (.close (.char (by decide) (by decide)
      (.field (n := []) (o := []) (s := []) .nil .nothing .nil))))))

example : ¬ Template "a { b".toList ∧ ¬ Template "{a} }".toList ∧ ¬ Template "{a!{}".toList := by
  simp only [← tokenize_grammar dec_digits, not_not]
  decide +kernel

end Verif.Grammar
