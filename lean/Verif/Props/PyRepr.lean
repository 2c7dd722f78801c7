import Verif.Model.PyRepr
import Verif.Spec.PyLiteral
import Verif.Props.Json
import Verif.Props.Decimal
import Verif.Props.Action
import Verif.Spec.Fields
/-!
# C154: what `repr` tells of actions, events and levels
-/
namespace Verif.PyRepr

open Guid (hexc)
open Reprs (txt)
open Dec (dec dec_digits digits_dec IsDigit)
open Verif.Spec.Dec (digits)
open Fields (statusWord statusText)
open PyLit

theorem hexDigits_hexN (k : Nat) : ∀ (n m v : Nat) (t : List Nat),
    hexDigits (k + m) v (hexN k n ++ t) = hexDigits m (v * 16 ^ k + n % 16 ^ k) t := by
  induction k with
  | zero => intro n m v t; simp [hexN, Nat.mod_one]
  | succ k ih =>
    intro n m v t
    rw [hexN, List.append_assoc, show k + 1 + m = k + (m + 1) by omega, ih]
    simp only [List.cons_append, List.nil_append, hexDigits, Json.hexVal_hexc (Nat.mod_lt _ (show 0 < 16 by decide)),
      Option.bind_some]
    congr 1
    rw [pow_succ, Nat.mul_comm (16 ^ k) 16, Nat.mod_mul]
    ring

theorem hex_back {k n : Nat} (h : n < 16 ^ k) (t : List Nat) : hexDigits k 0 (hexN k n ++ t) = some (n, t) := by
  have := hexDigits_hexN k n 0 0 t
  rw [Nat.add_zero] at this
  rw [this, hexDigits, Nat.mod_eq_of_lt h]
  simp

theorem char_plain {c : Nat} (h : c ≠ 92) (t : List Nat) : char (c :: t) = some (c, t) := by
  cases t <;> simp [char, h]

theorem char_back (printable : Nat → Bool) {q : Nat} (hq : q = 39 ∨ q = 34) {c : Nat} (h : c < 0x110000) (t : List Nat) :
    char (reprChar printable q c ++ t) = some (c, t) ∧ (reprChar printable q c ++ t).head? ≠ some q := by
  have hq2 : q ≠ 92 := by omega
  unfold reprChar
  split
  · rename_i hc
    refine ⟨?_, by simpa using hq2.symm⟩
    have : c = 92 ∨ c = 39 ∨ c = 34 := by omega
    simp only [List.cons_append, List.nil_append, char, if_true, escape]
    rw [if_neg (by omega), if_neg (by omega), if_neg (by omega), if_neg (by omega), if_neg (by omega), if_neg (by omega), if_pos this]
  rename_i hc
  push Not at hc
  split
  · rename_i e; subst e; exact ⟨by simp [char, escape], by simpa using hq2.symm⟩
  split
  · rename_i e; subst e; exact ⟨by simp [char, escape], by simpa using hq2.symm⟩
  split
  · rename_i e; subst e; exact ⟨by simp [char, escape], by simpa using hq2.symm⟩
  split
  · rename_i e
    refine ⟨?_, by simpa using hq2.symm⟩
    simp only [List.cons_append, char, if_true, escape]
    exact hex_back (by omega) t
  split
  · exact ⟨char_plain hc.1 t, by simpa using hc.2⟩
  split
  · exact ⟨char_plain hc.1 t, by simpa using hc.2⟩
  split
  · rename_i e
    refine ⟨?_, by simpa using hq2.symm⟩
    simp only [List.cons_append, char, if_true, escape]
    exact hex_back (by omega) t
  split
  · rename_i e
    refine ⟨?_, by simpa using hq2.symm⟩
    simp only [List.cons_append, char, if_true, escape]
    exact hex_back (by omega) t
  · refine ⟨?_, by simpa using hq2.symm⟩
    simp only [List.cons_append, char, if_true, escape]
    exact hex_back (by norm_num; omega) t

theorem body_back (printable : Nat → Bool) {q : Nat} (hq : q = 39 ∨ q = 34) (s : List Nat) (hs : ∀ c ∈ s, c < 0x110000)
    (t : List Nat) (n : Nat) (hn : s.length < n) :
    body q n (s.flatMap (reprChar printable q) ++ q :: t) = some (s, t) := by
  induction s generalizing n with
  | nil =>
    obtain ⟨m, rfl⟩ : ∃ m, n = m + 1 := ⟨n - 1, by simp at hn; omega⟩
    simp [body]
  | cons c s ih =>
    obtain ⟨m, rfl⟩ : ∃ m, n = m + 1 := ⟨n - 1, by simp at hn; omega⟩
    have hc := char_back printable hq (hs c List.mem_cons_self) (s.flatMap (reprChar printable q) ++ q :: t)
    rw [List.flatMap_cons, List.append_assoc, body, if_neg hc.2, hc.1]
    simp only [Option.bind_some]
    rw [ih (fun x hx => hs x (List.mem_cons_of_mem _ hx)) m (by simpa using hn)]
    rfl

theorem le_flatMap (printable : Nat → Bool) (q : Nat) (s : List Nat) : s.length ≤ (s.flatMap (reprChar printable q)).length := by
  induction s with
  | nil => simp
  | cons c s ih =>
    rw [List.flatMap_cons, List.length_append, List.length_cons]
    have : 1 ≤ (reprChar printable q c).length := by
      unfold reprChar
      split_ifs <;> simp
    omega

theorem quote_or (s : List Nat) : quote s = 39 ∨ quote s = 34 := by unfold quote; split <;> simp

/-- **C154, text.**  The `repr` of a text is a literal for that text: read back it gives the text, and ends where the literal
ends. -/
theorem C154_text (printable : Nat → Bool) (s : List Nat) (hs : ∀ c ∈ s, c < 0x110000) (t : List Nat) :
    literal (reprText printable s ++ t) = some (s, t) := by
  rw [reprText, List.cons_append, List.cons_append, List.append_assoc, literal, if_pos (quote_or s)]
  refine body_back printable (quote_or s) s hs t _ ?_
  have := le_flatMap printable (quote s) s
  simp only [List.length_append, List.length_cons]
  omega

theorem txt_bound (s : String) : ∀ c ∈ txt s, c < 0x110000 := by
  intro c hc
  obtain ⟨x, _, rfl⟩ := List.mem_map.1 hc
  have := x.valid
  simp only [UInt32.isValidChar, Nat.isValidChar] at this
  show x.val.toNat < _
  omega

theorem txt_inj {s t : String} (h : txt s = txt t) : s = t := by
  unfold txt at h
  have hi : Function.Injective Char.toNat := by
    intro a b hab
    exact Char.ext (UInt32.toNat_inj.1 hab)
  exact String.toList_inj.1 (List.map_injective_iff.2 hi h)

theorem text_inj (printable : Nat → Bool) {s t : String} {u v : List Nat}
    (h : reprText printable (txt s) ++ u = reprText printable (txt t) ++ v) : s = t ∧ u = v := by
  have h1 := C154_text printable (txt s) (txt_bound s) u
  rw [h, C154_text printable (txt t) (txt_bound t) v] at h1
  simp only [Option.some.injEq, Prod.mk.injEq] at h1
  exact ⟨(txt_inj h1.1).symm, h1.2.symm⟩

/-- C154: ASCII text without backslashes is shown as it is, in single quotes, or in double quotes if it has single ones and
no double ones. -/
theorem C154_plain (printable : Nat → Bool) (s : List Nat) (hs : ∀ c ∈ s, 32 ≤ c ∧ c < 127 ∧ c ≠ 92) :
    (39 ∉ s → reprText printable s = 39 :: s ++ [39]) ∧ (39 ∈ s → 34 ∉ s → reprText printable s = 34 :: s ++ [34]) := by
  have key : ∀ (q : Nat) (s : List Nat), (∀ c ∈ s, 32 ≤ c ∧ c < 127 ∧ c ≠ 92) → q ∉ s → s.flatMap (reprChar printable q) = s := by
    intro q s hs hq
    induction s with
    | nil => rfl
    | cons c s ih =>
      have := hs c List.mem_cons_self
      have hcq : c ≠ q := fun h => hq (h ▸ List.mem_cons_self)
      have hc : reprChar printable q c = [c] := by
        unfold reprChar
        rw [if_neg (by omega), if_neg (by omega), if_neg (by omega), if_neg (by omega), if_neg (by omega), if_pos (by omega)]
      rw [List.flatMap_cons, hc, ih (fun x hx => hs x (List.mem_cons_of_mem _ hx)) (fun h => hq (List.mem_cons_of_mem _ h))]
      rfl
  constructor
  · intro h
    have hq : quote s = 39 := by unfold quote; rw [if_neg]; exact fun h' => h h'.1
    rw [reprText, hq, key 39 s hs h]
  · intro h h'
    have hq : quote s = 34 := by unfold quote; rw [if_pos ⟨h, h'⟩]
    rw [reprText, hq, key 34 s hs h']

theorem text_plain (printable : Nat → Bool) (s : List Nat) (hs : ∀ c ∈ s, 32 ≤ c ∧ c < 127 ∧ c ≠ 39 ∧ c ≠ 92) :
    reprText printable s = 39 :: s ++ [39] :=
  (C154_plain printable s fun c hc => ⟨(hs c hc).1, (hs c hc).2.1, (hs c hc).2.2.2⟩).1 fun h => (hs 39 h).2.2.1 rfl

theorem status_plain (printable : Nat → Bool) (s : Status) :
    reprText printable (txt (statusWord s)) = 39 :: txt (statusWord s) ++ [39] := by
  refine text_plain printable _ ?_
  cases s <;> decide

/-- **C154, actions.**  At any moment of any history the `repr` of an action is made of its name, as a literal, the name of its
level and its status, as a literal.  The status is `begin` as long as the action has not ended, afterwards how it ended last. -/
theorem C154_action {env : Env} {w : World} (hr : Reachable env w) {a : ActId} {x : Act} (hx : w.acts a = some x)
    (printable : Nat → Bool) (level : Int → String) (upper : String → String) (cn : List Nat) :
    ∃ nm st s, action printable level upper cn x =
        txt "<" ++ cn ++ txt " " ++ nm ++ txt " " ++ txt (upper (level x.level)) ++ txt " " ++ st ++ txt ">" ∧
      (∀ t, literal (nm ++ t) = some (txt x.name, t)) ∧ literal st = some (txt (statusWord s), []) ∧
      w.statusOf a = some s ∧ (x.endEv = none → s = .begin) ∧
      ∀ e, x.endEv = some e → s = e.status ∧ (s = .success ∨ s = .failure ∨ s = .exception) := by
  refine ⟨_, _, x.status, rfl, C154_text printable _ (txt_bound _), ?_, by simp [World.statusOf, hx], ?_, ?_⟩
  · have := C154_text printable _ (txt_bound (statusText x.status)) []
    rwa [List.append_nil, Fields.statusText_eq] at this
  · intro h; simp [Act.status, h]
  · intro e he
    have h1 : x.status = e.status := by simp [Act.status, he]
    rw [h1]
    exact ⟨rfl, (hr.evInv.endKind a x e hx he).2.1⟩

/-- C154: actions (of one class) shown alike have the same name, level name and status. -/
theorem C154_actions_alike (printable : Nat → Bool) (level : Int → String) (upper : String → String) (cn : List Nat) (x y : Act)
    (h : action printable level upper cn x = action printable level upper cn y) :
    x.name = y.name ∧ upper (level x.level) = upper (level y.level) ∧ x.status = y.status := by
  unfold action at h
  simp only [List.append_assoc] at h
  have h1 := List.append_cancel_left (List.append_cancel_left (List.append_cancel_left h))
  obtain ⟨hn, h2⟩ := text_inj printable h1
  have h3 := List.append_cancel_left h2
  rw [Fields.statusText_eq, Fields.statusText_eq, status_plain, status_plain] at h3
  have key : ∀ (s t : Status) (u v : List Nat),
      u ++ (txt " " ++ (39 :: txt (statusWord s) ++ [39] ++ txt ">")) = v ++ (txt " " ++ (39 :: txt (statusWord t) ++ [39] ++ txt ">")) →
        u = v ∧ s = t := by
    intro s t u v huv
    have hrev := congrArg List.reverse huv
    cases s <;> cases t <;> simp [txt, statusWord] at hrev <;> exact ⟨hrev, rfl⟩
  obtain ⟨hl, hs⟩ := key _ _ _ _ h3
  exact ⟨hn, txt_inj hl, hs⟩

theorem dec_split {m n : Nat} {u v : List Nat} {c : Nat} (hc : ¬ IsDigit c) (h : dec m ++ c :: u = dec n ++ c :: v) : m = n ∧ u = v := by
  have key : ∀ (d e : List Nat), (∀ x ∈ d, IsDigit x) → (∀ x ∈ e, IsDigit x) → d ++ c :: u = e ++ c :: v → d = e ∧ u = v := by
    intro d
    induction d with
    | nil =>
      intro e _ he h
      cases e with
      | nil => simpa using h
      | cons y e =>
        simp only [List.nil_append, List.cons_append, List.cons.injEq] at h
        exact absurd (he y List.mem_cons_self) (h.1 ▸ hc)
    | cons x d ih =>
      intro e hd he h
      cases e with
      | nil =>
        simp only [List.nil_append, List.cons_append, List.cons.injEq] at h
        exact absurd (hd x List.mem_cons_self) (h.1 ▸ hc)
      | cons y e =>
        simp only [List.cons_append, List.cons.injEq] at h
        obtain ⟨h1, h2⟩ := ih e (fun z hz => hd z (List.mem_cons_of_mem _ hz)) (fun z hz => he z (List.mem_cons_of_mem _ hz)) h.2
        exact ⟨by rw [h.1, h1], h2⟩
  obtain ⟨h1, h2⟩ := key _ _ (dec_digits m) (dec_digits n) h
  exact ⟨by rw [← digits_dec m, h1, digits_dec], h2⟩

/-- **C154, events.**  The `repr` of an event is made of the number of its action and its message as a literal; that number
belongs to an action of the history, which is the same for all events of that action. -/
theorem C154_event {env : Env} {w : World} (hr : Reachable env w) {a : ActId} {x : Act} (hx : w.acts a = some x) {e : Event}
    (he : x.Has e) (printable : Nat → Bool) (cn : List Nat) :
    ∃ n m, event printable cn e = txt "<" ++ cn ++ txt " " ++ n ++ txt " " ++ m ++ txt ">" ∧
      digits n = a ∧ (∀ c ∈ n, 48 ≤ c ∧ c ≤ 57) ∧ ∀ t, literal (m ++ t) = some (txt e.msg, t) := by
  refine ⟨_, _, rfl, ?_, dec_digits _, C154_text printable _ (txt_bound _)⟩
  rw [digits_dec, (hr.evInv.act a x e hx he).1]

/-- C154: events (of one class) shown alike are of the same action and have the same message. -/
theorem C154_events_alike (printable : Nat → Bool) (cn : List Nat) (e f : Event)
    (h : event printable cn e = event printable cn f) : e.act = f.act ∧ e.msg = f.msg := by
  unfold event at h
  simp only [List.append_assoc] at h
  have h1 := List.append_cancel_left (List.append_cancel_left (List.append_cancel_left h))
  obtain ⟨ha, h2⟩ := dec_split (c := 32) (by unfold IsDigit; omega) h1
  exact ⟨ha, (text_inj printable h2).1⟩

theorem int_split {m n : Int} {u v : List Nat} {c : Nat} (hc : ¬ IsDigit c) (h : int m ++ c :: u = int n ++ c :: v) : m = n ∧ u = v := by
  have hd : ∀ (k : Nat) (t : List Nat), (dec k ++ t).head? ≠ some 45 := by
    intro k t ht
    obtain ⟨y, s, hy⟩ := Dec.dec_ne_nil k
    have := dec_digits k y (by rw [hy]; simp)
    rw [hy] at ht
    simp only [List.cons_append, List.head?_cons, Option.some.injEq] at ht
    unfold IsDigit at this
    omega
  unfold int at h
  split at h <;> split at h
  · simp only [List.cons_append, List.cons.injEq, true_and] at h
    obtain ⟨h1, h2⟩ := dec_split hc h
    exact ⟨by omega, h2⟩
  · exact absurd (by rw [← h]; rfl) (hd n.natAbs (c :: v))
  · exact absurd (by rw [h]; rfl) (hd m.natAbs (c :: u))
  · obtain ⟨h1, h2⟩ := dec_split hc h
    exact ⟨by omega, h2⟩

/-- **C154, levels.**  Levels shown alike have the same name and value; so they are equal, hash alike and neither is below the
other. -/
theorem C154_levels_alike (printable : Nat → Bool) (cn : List Nat) (l m : Lvl.Level)
    (h : level printable cn l = level printable cn m) :
    l.name = m.name ∧ l.value = m.value ∧ Lvl.eq l m = true ∧ (∀ f, Lvl.hash f l = Lvl.hash f m) ∧ Lvl.lt l m = false := by
  unfold level at h
  simp only [List.append_assoc] at h
  have h1 := List.append_cancel_left (List.append_cancel_left h)
  obtain ⟨hn, h2⟩ := text_inj printable h1
  have h3 := List.append_cancel_left h2
  obtain ⟨hv, _⟩ := int_split (c := 41) (by unfold IsDigit; omega) h3
  refine ⟨hn, hv, ?_, fun f => by simp [Lvl.hash, hn], ?_⟩
  · unfold Lvl.eq; simp [hv]
  · unfold Lvl.lt; simp [hv]

/-! ### Cases -/

/-- A name with a quote in it. -/
example : reprText (fun _ => true) (txt "don't") = txt "\"don't\"" ∧ reprText (fun _ => false) (txt "a\n'\"\\é") = txt "'a\\n\\'\"\\\\\\xe9'" := by
  decide +kernel

example := (C154_plain (fun _ => false) (txt "don't") (by decide)).2 (by decide) (by decide)

/-- The level `DEBUG`. -/
example : level (fun _ => true) (txt "Level") Lvl.DEBUG = txt "Level('debug', 20)" := by decide +kernel

open Verif.Sample in
/-- An action that failed and then ended with an exception, and one that is being worked on. -/
example :
    (((run quiet fresh life).acts 0).map (action (fun _ => true) (fun _ => "debug") (fun _ => "DEBUG") (txt "Action"))) =
      some (txt "<Action 'a' DEBUG 'exception'>") ∧
    (((run quiet fresh (life.take 2)).acts 0).map (action (fun _ => true) (fun _ => "debug") (fun _ => "DEBUG") (txt "Action"))) =
      some (txt "<Action 'a' DEBUG 'begin'>") := by decide +kernel

open Verif.Sample in
example := C154_action (env := quiet) (w := run quiet fresh life) ((start_reachable.step _).run life) (a := 0) (x := ((run quiet fresh life).acts 0).get (by decide +kernel))
  (by simp) (fun _ => true) (fun _ => "debug") (fun _ => "DEBUG") (txt "Action")

open Verif.Sample in
/-- The warning of that action. -/
example : ∃ x e, (run quiet fresh life).acts 0 = some x ∧ x.Has e ∧ e.msg = "w" ∧
    event (fun _ => true) (txt "WarningEvent") e = txt "<WarningEvent 0 'w'>" := by
  refine ⟨((run quiet fresh life).acts 0).get (by decide +kernel), (((run quiet fresh life).acts 0).get (by decide +kernel)).warnEvs.head (by decide +kernel), by simp, ?_, ?_, ?_⟩
  · exact Or.inr (Or.inr (Or.inl (List.head_mem _)))
  · decide +kernel
  · decide +kernel

end Verif.PyRepr
