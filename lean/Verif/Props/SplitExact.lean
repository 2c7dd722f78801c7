import Verif.Props.Emitter
/-!
# Exactly which entries are read back from a log file (C43)
-/
namespace Verif.Emit

/-- In the entry followed by the separator, the separator is at the end only. -/
def AtEndOnly {B : Type} (sep s : List B) : Prop := ∀ before after, s ++ sep = before ++ sep ++ after → after = []

theorem split_good {B : Type} [DecidableEq B] {sep : List B} (hne : sep ≠ []) (rest : List B) :
    ∀ (s acc : List B), AtEndOnly sep s → split sep acc (s ++ sep ++ rest) = (acc ++ s) :: split sep [] rest := by
  intro s
  induction s with
  | nil =>
    intro acc _
    simp only [List.nil_append, List.append_nil]
    obtain ⟨c, cs, rfl⟩ := List.exists_cons_of_ne_nil hne
    rw [List.cons_append, split]
    rw [if_pos (by rw [List.isPrefixOf_iff_prefix, ← List.cons_append]; exact List.prefix_append ..)]
    congr 2
    simp
  | cons c s ih =>
    intro acc hn
    rw [List.cons_append, List.cons_append, split]
    have hnp : ¬ sep <+: c :: (s ++ sep ++ rest) := by
      intro hp
      have hp2 : c :: s ++ sep <+: c :: (s ++ sep ++ rest) := by
        rw [← List.cons_append, ← List.cons_append]; exact List.prefix_append ..
      obtain ⟨q, hq⟩ : sep <+: c :: s ++ sep := List.prefix_of_prefix_length_le hp hp2 (by simp; omega)
      have hq0 := hn [] q (by rw [List.nil_append]; exact hq.symm)
      have := congrArg List.length hq
      simp only [hq0, List.append_nil, List.length_append, List.length_cons] at this
      omega
    rw [if_neg (by rw [List.isPrefixOf_iff_prefix]; exact hnp), ih (acc ++ [c]) fun b a h => hn (c :: b) a (by simp [h])]
    simp

theorem split_bad {B : Type} [DecidableEq B] {sep : List B} (rest : List B) :
    ∀ (s acc : List B), ¬ AtEndOnly sep s →
      ∃ h tl, split sep acc (s ++ sep ++ rest) = h :: tl ∧ h.length < acc.length + s.length := by
  intro s
  induction s with
  | nil =>
    intro acc hn
    refine absurd (fun b a h => ?_) hn
    have := congrArg List.length h
    simp only [List.length_append, List.length_nil] at this
    exact List.length_eq_zero_iff.1 (by omega)
  | cons c s ih =>
    intro acc hn
    rw [List.cons_append, List.cons_append, split]
    by_cases hp : sep.isPrefixOf (c :: (s ++ sep ++ rest)) = true
    · rw [if_pos hp]
      exact ⟨acc, _, rfl, by simp⟩
    · rw [if_neg hp]
      obtain ⟨h, tl, h1, h2⟩ := ih (acc ++ [c]) (by
        intro hs
        refine hn fun b a h => ?_
        cases b with
        | nil =>
          refine absurd ?_ hp
          rw [List.isPrefixOf_iff_prefix]
          refine ⟨a ++ rest, ?_⟩
          have : c :: s ++ sep ++ rest = sep ++ a ++ rest := by rw [h]; simp
          simpa using this.symm
        | cons x b =>
          rw [List.cons_append, List.cons_append, List.cons_append] at h
          exact hs b a (List.cons.inj h).2)
      refine ⟨h, tl, h1, ?_⟩
      simp only [List.length_append, List.length_cons, List.length_nil] at h2 ⊢
      omega

/-- **C43**, exactly: for every separator and all entries, splitting what was written gives back the entries (and the empty rest
after the last separator) if and only if in no entry, with the separator after it, the separator is found before its end.  It
need not be in the entry itself. -/
theorem C43_exact {B : Type} [DecidableEq B] {sep : List B} (hne : sep ≠ []) (entries : List (List B)) :
    split sep [] (entries.map (· ++ sep)).flatten = entries ++ [[]] ↔ ∀ s ∈ entries, AtEndOnly sep s := by
  induction entries with
  | nil => simp [split]
  | cons s entries ih =>
    simp only [List.map_cons, List.flatten_cons]
    by_cases hs : AtEndOnly sep s
    · rw [split_good hne _ s [] hs, List.nil_append, List.cons_append, List.cons_inj_right, ih]
      constructor
      · intro h x hx
        rcases List.mem_cons.1 hx with rfl | hx
        · exact hs
        · exact h x hx
      · exact fun h x hx => h x (by simp [hx])
    · constructor
      · intro h
        obtain ⟨p, tl, h1, h2⟩ := split_bad (entries.map (· ++ sep)).flatten s [] hs
        rw [h1, List.cons_append] at h
        have := (List.cons.inj h).1
        subst this
        simp at h2
      · exact fun h => absurd (h s (by simp)) hs

/-- **C43**, exactly, end to end: of the file of a fresh emitter, with writes and flushes that succeed. -/
theorem C43_file_exact {B : Type} [DecidableEq B] (e : Em B) (he : e.buf = [] ∧ e.file = [] ∧ e.opened = true)
    (hne : e.sep ≠ []) (entries : List (List B)) (through : List B → Nat) :
    split e.sep [] (run e (entries.map fun s => .emit (some s) { write := .ok (through s) })).file = entries ++ [[]] ↔
      ∀ s ∈ entries, AtEndOnly e.sep s := by
  rw [C42_file_partial e he.1]
  · have : ∀ r, landed r true (entries.map fun s => Op.emit (some s) { write := .ok (through s) }) = entries := by
      intro r
      induction entries with
      | nil => rfl
      | cons s entries ih => simp only [List.map_cons, landed, ih]; simp [Fault.lands]
    rw [he.2.2, this, he.2.1, List.nil_append]
    exact C43_exact hne entries
  · intro op hop
    simp only [List.mem_map] at hop
    obtain ⟨s, _, rfl⟩ := hop
    exact ⟨trivial, trivial⟩
  · intro op hop
    simp only [List.mem_map] at hop
    obtain ⟨s, _, rfl⟩ := hop
    exact ⟨rfl, rfl⟩

/-- A case: with the separator `aa` the entry `ab` is read back, the entry `ba` is not. -/
example : split [1, 1] [] ([[1, 2]].map (· ++ [1, 1])).flatten = [[1, 2]] ++ [[]] ∧
    split [1, 1] [] ([[2, 1]].map (· ++ [1, 1])).flatten ≠ [[2, 1]] ++ [[]] := by
  constructor
  · simp [split, List.isPrefixOf]
  · rw [Ne, C43_exact (by simp)]
    intro h
    have := h [2, 1] (by simp) [2] [1] rfl
    cases this

end Verif.Emit
