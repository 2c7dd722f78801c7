import Verif.Props.Emitter
import Verif.Props.Utf8
/-!
# Exactly when an emitter raises, and exactly which texts a reader gets back (C42, C91)
-/
namespace Verif.Emit

/-- C42: exactly when an operation raises into the application.  Flushing and closing never do.  Writing an entry does if the
entry cannot be encoded, or if the emitter is open, its write meets a stale handle on a stream that may be reopened, and the
reopening or the second write fails. -/
theorem C42_raises_exact {B : Type} (e : Em B) (op : Op B) :
    (step e op).2 = true ↔
      ∃ entry f, op = .emit entry f ∧ (entry = none ∨
        e.opened = true ∧ (∃ k n, f.write = .err k n .stale) ∧ e.reopenStale = true ∧ e.canReopen = true ∧
          (f.openOk = false ∨ ∃ k n x, f.write2 = .err k n x)) := by
  constructor
  · intro h
    obtain ⟨entry, f, rfl, hx⟩ := C42_raises_only_partial e op h
    refine ⟨entry, f, rfl, ?_⟩
    rcases hx with hx | hx
    · exact .inl hx
    · cases entry with
      | none => exact .inl rfl
      | some s =>
        refine .inr ⟨?_, hx⟩
        cases ho : e.opened with
        | true => rfl
        | false => simp [step, emitEntry, write, ho] at h
  · rintro ⟨entry, f, rfl, rfl | ⟨ho, ⟨k, n, hw⟩, hr, hc, hx⟩⟩
    · rfl
    · cases entry with
      | none => rfl
      | some s =>
        simp only [step, emitEntry, write, ho, hw, if_true]
        rw [if_pos ⟨trivial, hr, hc⟩]
        rcases hx with hx | ⟨k', n', x, hx⟩
        · simp [hx]
        · cases hop : f.openOk with
          | false => simp
          | true => simp [reopen, hx]

/-- A stale handle, reopened, and the second write fails: it raises. -/
example : (step sampleEm (.emit (some [4]) ⟨.err 0 0 .stale, .ok, true, .err 0 0 .other, .ok⟩)).2 = true :=
  (C42_raises_exact _ _).2 ⟨_, _, rfl, .inr ⟨rfl, ⟨0, 0, rfl⟩, rfl, rfl, .inr ⟨0, 0, .other, rfl⟩⟩⟩

/-- C42: nothing an emitter is asked to do raises if every entry can be encoded and the operating system never reports a
stale handle, whatever else fails. -/
theorem C42_quiet_partial {B : Type} (e : Em B) (ops : List (Op B))
    (he : ∀ op ∈ ops, ∀ entry f, op = .emit entry f → entry ≠ none ∧ ∀ k n, f.write ≠ .err k n .stale)
    (before : List (Op B)) (op : Op B) (after : List (Op B)) (ho : ops = before ++ op :: after) :
    (step (run e before) op).2 = false := by
  rw [Bool.eq_false_iff]
  intro h
  obtain ⟨entry, f, rfl, hx⟩ := (C42_raises_exact _ _).1 h
  have := he (.emit entry f) (by simp [ho]) entry f rfl
  rcases hx with hx | ⟨_, ⟨k, n, hw⟩, _⟩
  · exact this.1 hx
  · exact this.2 k n hw

/-- Every write and flush fails, after a close too, and nothing raises. -/
example := C42_quiet_partial sampleEm
  [.emit (some [1]) ⟨.err 1 0 .other, .err 0, true, .ok 0, .ok⟩, .flush (.err 0), .close (.err 0) false,
    .emit (some [2]) ⟨.short 0 0, .ok, true, .ok 0, .ok⟩] (by
    intro op h entry f hop
    simp only [List.mem_cons, List.not_mem_nil, or_false] at h
    rcases h with rfl | rfl | rfl | rfl <;> cases hop <;> simp) [.emit (some [1]) ⟨.err 1 0 .other, .err 0, true, .ok 0, .ok⟩,
    .flush (.err 0)] (.close (.err 0) false) _ rfl

end Verif.Emit

namespace Verif.Utf8

theorem seen_cons (c : Nat) (s : List Nat) : seen (c :: s) = (if Scalar c then [c] else Json.u4 c) ++ seen s := rfl

theorem seen_length (s : List Nat) : s.length ≤ (seen s).length := by
  induction s with
  | nil => simp
  | cons c s ih =>
    rw [seen_cons, List.length_append, List.length_cons]
    split
    · rw [List.length_singleton]; omega
    · have : (Json.u4 c).length = 6 := rfl
      omega

/-- C91: a reader of the file gets the text back exactly if it has no lone surrogate. -/
theorem C91_exact (s : List Nat) (h : ∀ c ∈ s, c < 0x110000) :
    decode (encode s) = some s ↔ ∀ c ∈ s, ¬ (0xd800 ≤ c ∧ c ≤ 0xdfff) := by
  rw [C91_valid s h, Option.some_inj]
  induction s with
  | nil => simp [seen]
  | cons c s ih =>
    have ih := ih fun c hc => h c (by simp [hc])
    have hc := h c (by simp)
    rw [List.forall_mem_cons, ← ih]
    by_cases hs : Scalar c
    · have hs' := hs
      unfold Scalar at hs'
      simp only [seen_cons, if_pos hs, List.singleton_append, List.cons.injEq, true_and]
      constructor
      · intro h; exact ⟨by omega, h⟩
      · exact fun h => h.2
    · have hs' := hs
      unfold Scalar at hs'
      constructor
      · intro h
        exfalso
        have h := congrArg List.length h
        have := seen_length s
        rw [seen_cons, if_neg hs, List.length_append, List.length_cons] at h
        have : (Json.u4 c).length = 6 := rfl
        omega
      · intro h; exact absurd (by omega) h.1

example : decode (encode [0x68, 0xdc80]) ≠ some [0x68, 0xdc80] := fun h =>
  (C91_exact _ (by decide)).1 h 0xdc80 (by simp) (by decide)

/-- C91: ASCII text is written as it is. -/
theorem C91_plain (s : List Nat) (h : ∀ c ∈ s, c < 0x80) : encode s = s := by
  induction s with
  | nil => rfl
  | cons c s ih =>
    have h1 : encodeChar c = [c] := by
      unfold encodeChar
      rw [if_pos (h c List.mem_cons_self)]
    have h2 := ih fun d hd => h d (List.mem_cons_of_mem _ hd)
    unfold encode at h2 ⊢
    rw [List.flatMap_cons, h1, h2]; rfl

example : encode [104, 105, 10] = [104, 105, 10] := C91_plain _ (by decide)

end Verif.Utf8
