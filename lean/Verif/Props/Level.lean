import Verif.Lemmas.Level
/-!
# C32, C33, C34: levels
-/
namespace Verif.Lvl

/-! ## C32 -/

/-- C32 fails: `==` is not transitive. -/
theorem C32_eq_trans_violated :
    ∃ a b c : Level, eq a b = true ∧ eq b c = true ∧ eq a c = false :=
  ⟨⟨10, "audit", 30⟩, ⟨11, "audit", 40⟩, ⟨12, "trace", 40⟩, by decide, by decide, by decide⟩

/-- C32 fails: a level can be both equal to and less than another, while `>=` denies what `<=` and `==` say. -/
theorem C32_consistent_violated :
    ∃ a b : Level, eq a b = true ∧ lt a b = true ∧ le a b = true ∧ ge a b = false :=
  ⟨⟨10, "audit", 30⟩, ⟨11, "audit", 40⟩, by decide, by decide, by decide, by decide⟩

/-- C32 fails: equal levels have different hashes whenever the two names hash differently. -/
theorem C32_hash_violated (h : String → Nat) (hh : h "audit" ≠ h "trace") :
    ∃ a b : Level, eq a b = true ∧ hash h a ≠ hash h b :=
  ⟨⟨10, "audit", 40⟩, ⟨11, "trace", 40⟩, by decide, hh⟩

/-- C32, the part that holds for every level: `<` is a strict order, `>=` is its negation, `==` is
reflexive and symmetric, and one of `<`, `==`, `>` always holds. -/
theorem C32_order_partial (a b c : Level) :
    lt a a = false ∧ (lt a b = true → lt b c = true → lt a c = true) ∧
    (lt a b = true → lt b a = false) ∧ ge a b = !lt a b ∧ ne a b = !eq a b ∧
    eq a a = true ∧ eq a b = eq b a ∧
    (lt a b = true ∨ eq a b = true ∨ lt b a = true) := by
  simp only [lt_iff, lt_eq_false]
  refine ⟨Int.le_refl _, fun h g => by omega, fun h => by omega, rfl, rfl, by simp [eq], ?_, ?_⟩
  · by_cases h1 : a = b
    · rw [h1]
    · simp only [eq, h1, Ne.symm h1, @eq_comm _ b.value, @eq_comm _ b.name]
  · by_cases h2 : a.value = b.value
    · right; left; simp only [eq]; split <;> simp [h2]
    · omega

/-- C32 on every collection of levels in which same name means same value and the other way round (the
built-in levels, or any levels registered under distinct names and values): `==` is an equivalence and
equal levels have equal hashes; exactly one of `<`, `==`, `>` holds; `<=` and `>=` are the total preorder
of the values. -/
theorem C32_consistent_partial {S : Set Level} (hS : Consistent S) (h : String → Nat) {a b c : Level}
    (ha : a ∈ S) (hb : b ∈ S) (hc : c ∈ S) :
    (eq a b = true → eq b c = true → eq a c = true) ∧ (eq a b = true → hash h a = hash h b) ∧
    (eq a b = true ↔ a.value = b.value) ∧
    (lt a b = true ↔ a.value < b.value) ∧ (le a b = true ↔ a.value ≤ b.value) ∧
    (gt a b = true ↔ a.value > b.value) ∧ (ge a b = true ↔ a.value ≥ b.value) := by
  have key : ∀ x ∈ S, ∀ y ∈ S, (eq x y = true ↔ x.value = y.value) := by
    intro x hx y hy
    have := hS x hx y hy
    simp only [eq]
    by_cases h1 : x = y
    · simp [h1]
    · by_cases h2 : x.value = y.value
      · simp [h2]
      · simp [h1, h2, mt this.1 h2]
  have klt := lt_iff
  refine ⟨?_, ?_, key a ha b hb, klt a b, ?_, ?_, ?_⟩
  · rw [key a ha b hb, key b hb c hc, key a ha c hc]; intros; omega
  · rw [key a ha b hb, ← hS a ha b hb]; intro hn; simp only [hash, hn]
  · simp only [le, Bool.or_eq_true, klt, key a ha b hb]; omega
  · simp only [gt, ne, Bool.and_eq_true, Bool.not_eq_true', ← Bool.not_eq_true, klt, key a ha b hb]; omega
  · simp only [ge, Bool.not_eq_true', ← Bool.not_eq_true, klt]; omega

/-- The built-in levels are such a collection. -/
theorem builtins_consistent : Consistent {l | l ∈ builtins} := by
  unfold Consistent builtins
  simp only [Set.mem_setOf_eq, List.mem_cons, List.not_mem_nil, or_false]
  rintro a (rfl | rfl | rfl | rfl | rfl) b (rfl | rfl | rfl | rfl | rfl) <;> decide

example : (gt CRITICAL INFO = true ↔ CRITICAL.value > INFO.value) :=
  (C32_consistent_partial builtins_consistent (fun _ => 0) (a := CRITICAL) (b := INFO) (c := DEBUG)
    (by decide) (by decide) (by decide)).2.2.2.2.2.1

/-! ## C33 -/

/-- C33: after any registrations that clash in no alias, `get_level` returns the registered level for
each of its names and the default for a key that names none. -/
theorem C33_get_level {lower upper : String → String} {regs : List Level}
    (h : regs.Pairwise (NoClash lower upper)) (k : Key) (default : Level) :
    (∀ l ∈ regs, Names lower upper l k → getLevel (table lower upper regs) k default = l) ∧
    ((∀ l ∈ regs, ¬ Names lower upper l k) → getLevel (table lower upper regs) k default = default) := by
  constructor
  · intro l hl hk
    simp [getLevel, get?_of_names h hl hk]
  · intro hk
    simp [getLevel, get?_of_not_names hk]

/-- C33 without the no-clash assumption: the last registration naming the key wins. -/
theorem C33_last_wins {lower upper : String → String} (regs later : List Level) (l : Level) (k : Key)
    (default : Level) (hk : Names lower upper l k) (hlater : ∀ m ∈ later, ¬ Names lower upper m k) :
    getLevel (table lower upper (regs ++ l :: later)) k default = l := by
  classical
  simp only [getLevel, get?_table, List.reverse_append, List.reverse_cons, List.append_assoc]
  rw [List.find?_append, (List.find?_eq_none.2 (by simpa using hlater)), Option.none_or,
    List.singleton_append, List.find?_cons_of_pos (by simpa using hk)]
  rfl

/-- Stand-ins for `str.lower` and `str.upper`, enough for names already in lower case. -/
def lowerS : String → String := id
def upperS : String → String := fun s => "^" ++ s

theorem builtins_noClash : builtins.Pairwise (NoClash lowerS upperS) := by
  unfold builtins NoClash lowerS upperS; decide

example : getLevel (table lowerS upperS builtins) (.str "^info") = INFO ∧
    getLevel (table lowerS upperS builtins) (.num 90) = CRITICAL ∧
    getLevel (table lowerS upperS builtins) (.str "nope") INFO = INFO :=
  ⟨(C33_get_level builtins_noClash _ _).1 _ (by decide) (.inr rfl),
   (C33_get_level builtins_noClash _ _).1 _ (by decide) rfl,
   (C33_get_level builtins_noClash _ _).2 (by unfold Names builtins lowerS upperS; decide)⟩

/-- C33: out of the box there are five levels, found by their names in small and in capital letters and by their values.
(`hu`: what `str.upper` makes of the five names; small letters are left alone by `str.lower`.) -/
theorem C33_builtins {lower upper : String → String} (p : String × String × Int) (default : Level)
    (hp : p ∈ [("_min", "_MIN", 0), ("debug", "DEBUG", 20), ("info", "INFO", 70), ("critical", "CRITICAL", 90), ("_max", "_MAX", 100)])
    (hl : ∀ s ∈ ["_min", "debug", "info", "critical", "_max"], lower s = s)
    (hu : upper "_min" = "_MIN" ∧ upper "debug" = "DEBUG" ∧ upper "info" = "INFO" ∧ upper "critical" = "CRITICAL" ∧
      upper "_max" = "_MAX") :
    ∃ l, l.name = p.1 ∧ l.value = p.2.2 ∧ getLevel (table lower upper builtins) (.str p.1) default = l ∧
      getLevel (table lower upper builtins) (.str p.2.1) default = l ∧
      getLevel (table lower upper builtins) (.num p.2.2) default = l := by
  obtain ⟨u1, u2, u3, u4, u5⟩ := hu
  have l1 := hl "_min" (by decide)
  have l2 := hl "debug" (by decide)
  have l3 := hl "info" (by decide)
  have l4 := hl "critical" (by decide)
  have l5 := hl "_max" (by decide)
  have h : builtins.Pairwise (NoClash lower upper) := by
    simp [builtins, NoClash, MIN_LEVEL, MAX_LEVEL, DEBUG, INFO, CRITICAL, l1, l2, l3, l4, l5, u1, u2, u3, u4, u5]
  have key : ∀ l ∈ builtins, p.1 = l.name → p.2.1 = upper l.name → p.2.2 = l.value → lower l.name = l.name → _ :=
    fun l hm e1 e2 e3 e4 => (⟨l, e1.symm, e3.symm, (C33_get_level h (.str p.1) default).1 l hm (.inl (by rw [e1, e4])),
      (C33_get_level h (.str p.2.1) default).1 l hm (.inr e2),
      (C33_get_level h (.num p.2.2) default).1 l hm e3⟩ : ∃ l, l.name = p.1 ∧ l.value = p.2.2 ∧
        getLevel (table lower upper builtins) (.str p.1) default = l ∧
        getLevel (table lower upper builtins) (.str p.2.1) default = l ∧
        getLevel (table lower upper builtins) (.num p.2.2) default = l)
  simp only [List.mem_cons, List.not_mem_nil, or_false] at hp
  rcases hp with rfl | rfl | rfl | rfl | rfl
  · exact key MIN_LEVEL (by decide) rfl u1.symm rfl l1
  · exact key DEBUG (by decide) rfl u2.symm rfl l2
  · exact key INFO (by decide) rfl u3.symm rfl l3
  · exact key CRITICAL (by decide) rfl u4.symm rfl l4
  · exact key MAX_LEVEL (by decide) rfl u5.symm rfl l5

example := C33_builtins (lower := String.toLower) (upper := String.toUpper) ("info", "INFO", 70) DEBUG (by decide)
  (by decide +kernel) (by decide +kernel)

/-! ## C34 -/

/-- C34, up: `get_next_level` of a non-negative delta is a registered level, no lower than the one asked
about, and exactly `delta` places above it, or as many as there are. -/
theorem C34_next {lower upper : String → String} {regs : List Level}
    (h : regs.Pairwise (NoClash lower upper)) (hD : DEBUG ∈ regs) (k : Key) (d : Nat) :
    ∃ r ∈ regs, nextLevel (table lower upper regs) k d = some r ∧
      (getLevel (table lower upper regs) k).value ≤ r.value ∧
      countAbove regs (getLevel (table lower upper regs) k).value r.value =
        min d (regs.filter fun l => (getLevel (table lower upper regs) k).value < l.value).length := by
  obtain ⟨i, hi, hl⟩ := index_spec h (getLevel_mem (lower := lower) (upper := upper) hD k)
  generalize hLk : getLevel (table lower upper regs) k = l at *
  generalize hLL : levelList (table lower upper regs) = LL at *
  have hp := levelList_perm h
  have hs := levelList_sorted h
  rw [hLL] at hp hs
  obtain ⟨hil, -⟩ := List.getElem?_eq_some_iff.1 hl
  have hj : min (i + d) (LL.length - 1) < LL.length := by omega
  have hr : LL[min (i + d) (LL.length - 1)]? = some LL[min (i + d) (LL.length - 1)] :=
    List.getElem?_eq_getElem hj
  have hlast : LL[LL.length - 1]? = some LL[LL.length - 1] := List.getElem?_eq_getElem (by omega)
  generalize LL[min (i + d) (LL.length - 1)] = r at hr
  generalize LL[LL.length - 1] = top at hlast
  have hij : i ≤ min (i + d) (LL.length - 1) := by omega
  refine ⟨r, hp.mem_iff.1 (List.mem_of_getElem? hr), ?_, (value_mono hs hl hr).2 hij, ?_⟩
  · simp only [nextLevel, hLk, hLL, hi, pyGet]
    rw [if_pos (by omega), ← hr]
    congr 1; omega
  · have e1 := countAbove_eq hs hl hr hij
    have e2 := countAbove_eq hs hl hlast (by omega)
    have e3 : countAbove LL l.value top.value = (LL.filter fun x => l.value < x.value).length := by
      simp only [countAbove]
      congr 1
      refine List.filter_congr fun x hx => ?_
      obtain ⟨n, hn, hnx⟩ := List.mem_iff_getElem.1 hx
      have : x.value ≤ top.value :=
        (value_mono hs (i := n) (by rw [List.getElem?_eq_getElem hn, hnx]) hlast).2 (by omega)
      simp [this]
    rw [← countAbove_perm hp, ← (hp.filter _).length_eq, e1, ← e3, e2]
    omega

/-- C34, down: `get_prev_level` of any delta is a registered level, no higher than the one asked about,
and exactly `|delta|` places below it, or as many as there are. -/
theorem C34_prev {lower upper : String → String} {regs : List Level}
    (h : regs.Pairwise (NoClash lower upper)) (hD : DEBUG ∈ regs) (k : Key) (d : Int) :
    ∃ r ∈ regs, prevLevel (table lower upper regs) k d = some r ∧
      r.value ≤ (getLevel (table lower upper regs) k).value ∧
      countAbove regs r.value (getLevel (table lower upper regs) k).value =
        min d.natAbs (regs.filter fun l => l.value < (getLevel (table lower upper regs) k).value).length := by
  obtain ⟨i, hi, hl⟩ := index_spec h (getLevel_mem (lower := lower) (upper := upper) hD k)
  generalize hLk : getLevel (table lower upper regs) k = l at *
  generalize hLL : levelList (table lower upper regs) = LL at *
  have hp := levelList_perm h
  have hs := levelList_sorted h
  rw [hLL] at hp hs
  obtain ⟨hil, -⟩ := List.getElem?_eq_some_iff.1 hl
  have hj : i - d.natAbs < LL.length := by omega
  have hr : LL[i - d.natAbs]? = some LL[i - d.natAbs] := List.getElem?_eq_getElem hj
  generalize LL[i - d.natAbs] = r at hr
  have hij : i - d.natAbs ≤ i := by omega
  refine ⟨r, hp.mem_iff.1 (List.mem_of_getElem? hr), ?_, (value_mono hs hr hl).2 hij, ?_⟩
  · simp only [prevLevel, hLk, hLL, hi, pyGet]
    rw [if_pos (by omega), ← hr]
    congr 1; omega
  · have e1 := countAbove_eq hs hr hl hij
    have e2 := countP_lt hs hl
    rw [List.countP_eq_length_filter] at e2
    rw [← countAbove_perm hp, ← (hp.filter _).length_eq, e1, e2]
    omega

/-- C34: both are monotone in the level asked about. -/
theorem C34_monotone {lower upper : String → String} {regs : List Level}
    (h : regs.Pairwise (NoClash lower upper)) (hD : DEBUG ∈ regs) (k k' : Key) (d : Nat) (r r' : Level)
    (hk : (getLevel (table lower upper regs) k).value ≤ (getLevel (table lower upper regs) k').value) :
    (nextLevel (table lower upper regs) k d = some r → nextLevel (table lower upper regs) k' d = some r' →
      r.value ≤ r'.value) ∧
    (prevLevel (table lower upper regs) k d = some r → prevLevel (table lower upper regs) k' d = some r' →
      r.value ≤ r'.value) := by
  obtain ⟨i, hi, hl⟩ := index_spec h (getLevel_mem (lower := lower) (upper := upper) hD k)
  obtain ⟨i', hi', hl'⟩ := index_spec h (getLevel_mem (lower := lower) (upper := upper) hD k')
  have hs := levelList_sorted h
  have hii := (value_mono hs hl hl').1 hk
  obtain ⟨hil, -⟩ := List.getElem?_eq_some_iff.1 hl
  constructor
  · intro e e'
    simp only [nextLevel, hi, pyGet] at e
    simp only [nextLevel, hi', pyGet] at e'
    rw [if_pos (by omega)] at e e'
    exact (value_mono hs e e').2 (by omega)
  · intro e e'
    simp only [prevLevel, hi, pyGet] at e
    simp only [prevLevel, hi', pyGet] at e'
    rw [if_pos (by omega)] at e e'
    exact (value_mono hs e e').2 (by omega)

/-- C34: a larger delta goes no less far. -/
theorem C34_monotone_delta {lower upper : String → String} {regs : List Level}
    (h : regs.Pairwise (NoClash lower upper)) (hD : DEBUG ∈ regs) (k : Key) (d d' : Nat) (hd : d ≤ d')
    (r r' : Level) :
    (nextLevel (table lower upper regs) k d = some r → nextLevel (table lower upper regs) k d' = some r' →
      r.value ≤ r'.value) ∧
    (prevLevel (table lower upper regs) k d = some r → prevLevel (table lower upper regs) k d' = some r' →
      r'.value ≤ r.value) := by
  obtain ⟨i, hi, hl⟩ := index_spec h (getLevel_mem (lower := lower) (upper := upper) hD k)
  have hs := levelList_sorted h
  obtain ⟨hil, -⟩ := List.getElem?_eq_some_iff.1 hl
  constructor
  · intro e e'
    simp only [nextLevel, hi, pyGet] at e e'
    rw [if_pos (by omega)] at e e'
    exact (value_mono hs e e').2 (by omega)
  · intro e e'
    simp only [prevLevel, hi, pyGet] at e e'
    rw [if_pos (by omega)] at e e'
    exact (value_mono hs e' e).2 (by omega)

/-- The names of the built-in levels. -/
example : [("_min", 0), ("debug", 20), ("info", 70), ("critical", 90), ("_max", 100)].all (fun p =>
    decide ((getLevel (table lowerS upperS builtins) (.str p.1)).value = p.2)) = true := by
  decide

/-- The first two levels above the built-in INFO; beyond the top is the top. -/
example : nextLevel (table lowerS upperS builtins) (.num 70) 1 = some CRITICAL ∧
    nextLevel (table lowerS upperS builtins) (.num 70) 7 = some MAX_LEVEL ∧
    prevLevel (table lowerS upperS builtins) (.num 70) 1 = some DEBUG ∧
    prevLevel (table lowerS upperS builtins) (.num 70) (-7) = some MIN_LEVEL := by
  decide

example : countAbove builtins 70 100 = 2 ∧ (builtins.filter fun l => 70 < l.value).length = 2 := by decide

example := C34_next builtins_noClash (by decide) (.str "info") 2
example := C34_prev builtins_noClash (by decide) (.str "info") 2

/-- Outside C34's range, a negative delta: asking for the level "next" to the lowest with delta -1 gives the
highest, and far enough below raises, while `get_prev_level` reads the same number as its absolute value. -/
theorem C34_negative_delta_wraps :
    nextLevel (table lowerS upperS builtins) (.level MIN_LEVEL) (-1) = some MAX_LEVEL ∧
    nextLevel (table lowerS upperS builtins) (.level MIN_LEVEL) (-6) = none ∧
    prevLevel (table lowerS upperS builtins) (.level MAX_LEVEL) (-1) = some CRITICAL := by
  decide

example := C34_monotone builtins_noClash (by decide) (.str "info") (.num 90) 1 CRITICAL MAX_LEVEL (by decide)

end Verif.Lvl
