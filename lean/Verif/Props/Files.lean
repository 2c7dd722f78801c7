import Verif.Spec.Files
/-!
# C90: log files
-/
namespace Verif.Files

variable {B : Type}

/-- What the specification knows of an emitter. -/
def Emitter.known (e : Emitter B) : Option (List B) := if e.opened then some e.sep else none

theorem data_eq (entry sep : List B) [Decidable (sep = [])] : (if sep = [] then entry else entry ++ sep) = entry ++ sep := by
  split
  · rename_i h; simp [h]
  · rfl

theorem append_run (zero : B) : ∀ (ops : List (Op B)) (s : St B), NoOverwrite ops → (∀ e ∈ s.emitters, e.append = true) →
    (s.emitters ≠ [] → s.file.isSome) →
    (run zero s ops).file.getD [] = s.file.getD [] ++ (written (s.emitters.map Emitter.known) ops).flatten := by
  intro ops
  induction ops with
  | nil => intro s _ _ _; simp [run, written]
  | cons op ops ih =>
    intro s hn ha hf
    have hn' : NoOverwrite ops := fun v sep h => hn v sep (by simp [h])
    simp only [run, List.foldl_cons] at ih ⊢
    cases op with
    | make o v sep =>
      have ho : o = false := by
        cases o with
        | false => rfl
        | true => exact absurd (by simp) (hn v sep)
      subst ho
      simp only [step, make, Bool.false_eq_true, if_false]
      cases v with
      | false =>
        simp only [Bool.false_eq_true, if_false]
        rw [ih ⟨some (s.file.getD []), s.emitters⟩ hn' ha (by simp)]
        simp [written, live]
      | true =>
        simp only [if_true]
        rw [ih _ hn' (by simp only [List.mem_append, List.mem_singleton]; rintro e (h | rfl); exacts [ha e h, rfl])
          (by simp)]
        simp [written, live, Emitter.known]
    | emit i entry =>
      simp only [step, emit, written, List.getElem?_map]
      cases hi : s.emitters[i]? with
      | none => simp only [Option.map_none]; exact ih s hn' ha hf
      | some e =>
        have he : e ∈ s.emitters := List.mem_of_getElem? hi
        obtain ⟨file, hfile⟩ := Option.isSome_iff_exists.1 (hf (List.ne_nil_of_mem he))
        simp only [hfile, Option.map_some, Emitter.known]
        cases hop : e.opened with
        | false =>
          simp only [Bool.false_eq_true, if_false]
          have := ih s hn' ha hf
          rw [hfile] at this; exact this
        | true =>
          classical
          simp only [ha e he, if_true, data_eq]
          rw [ih ⟨some (file ++ (entry ++ e.sep)), s.emitters⟩ hn' ha (by simp)]
          simp [List.append_assoc]
    | close i =>
      simp only [step, close]
      cases hi : s.emitters[i]? with
      | none =>
        have hlen : s.emitters.length ≤ i := List.getElem?_eq_none_iff.1 hi
        simp only
        rw [ih s hn' ha hf]
        simp only [written, live]
        rw [List.set_eq_of_length_le (by simpa using hlen)]
      | some e =>
        simp only
        rw [ih _ hn' ?_ ?_]
        · simp only [written, live, List.map_set]
          rfl
        · intro e' he'
          rcases List.mem_or_eq_of_mem_set he' with h | rfl
          · exact ha e' h
          · exact ha e (List.mem_of_getElem? hi)
        · intro _; exact hf (List.ne_nil_of_mem (List.mem_of_getElem? hi))

/-- **C90.**  Any number of emitters appending to one file, made, used and closed in any order: the file is what it was
before, followed by every entry given to an open emitter, whole, once, in the order of the calls. -/
theorem C90_append_partial (zero : B) (file : Option (List B)) (ops : List (Op B)) (h : NoOverwrite ops) :
    (run zero ⟨file, []⟩ ops).file.getD [] = file.getD [] ++ (written [] ops).flatten := by
  have := append_run zero ops ⟨file, []⟩ h (by simp) (by simp)
  simpa using this

theorem writeAt_end (zero : B) (file data : List B) : writeAt zero file file.length data = file ++ data := by
  simp [writeAt]

theorem overwrite_run (zero : B) (i : Nat) : ∀ (ops : List (Op B)) (s : St B) (e : Emitter B) (file : List B),
    OnlyEmits i ops → s.emitters[i]? = some e → e.opened = true → s.file = some file → e.append = false →
    e.pos = file.length →
    (run zero s ops).file = some (file ++ (ops.map fun op => match op with | .emit _ x => x ++ e.sep | _ => []).flatten) := by
  intro ops
  induction ops with
  | nil => intro s e file _ _ _ hf _ _; simp [run, hf]
  | cons op ops ih =>
    intro s e file ho hi hop hf ha hp
    obtain ⟨entry, rfl⟩ := ho op (by simp)
    classical
    simp only [run, List.foldl_cons, step, emit, hi, hf, hop, ha, Bool.false_eq_true, if_false, if_true, data_eq] at ih ⊢
    have hlt : i < s.emitters.length := (List.getElem?_eq_some_iff.1 hi).1
    rw [ih _ { e with pos := e.pos + (entry ++ e.sep).length } (writeAt zero file e.pos (entry ++ e.sep))
      (fun op h => ho op (by simp [h])) (by simp [hlt, hop, ha]) hop rfl ha
      (by rw [hp, writeAt_end]; simp only [List.length_append])]
    rw [hp, writeAt_end]
    simp

/-- C90: an emitter that overwrites, used alone, leaves exactly the entries given to it, whatever was in the file and
whatever was done before. -/
theorem C90_overwrite_partial (zero : B) (s : St B) (sep : List B) (entries : List (List B)) :
    (run zero (make s true true sep).1 (entries.map fun x => .emit s.emitters.length x)).file =
      some ((entries.map (· ++ sep)).flatten) := by
  rw [overwrite_run zero s.emitters.length _ _ ⟨true, false, 0, sep⟩ [] ?_ (by simp [make]) rfl (by simp [make]) rfl rfl]
  · simp [Function.comp_def]
  · intro op hop
    simp only [List.mem_map] at hop
    obtain ⟨x, -, rfl⟩ := hop
    exact ⟨x, rfl⟩

/-- C90: making an emitter that appends changes nothing in the file, even if it fails. -/
theorem C90_make (s : St B) (valid : Bool) (sep : List B) : (make s false valid sep).1.file.getD [] = s.file.getD [] := by
  simp only [make]; split <;> simp

/-- C90 fails: an emitter that overwrites, next to another one, destroys entries of both; the two separators `0` here end
one entry.  (The byte 9 is the zero byte.) -/
theorem C90_overwrite_violated :
    (run 9 (⟨none, []⟩ : St Nat) [.make true true [0], .make false true [0], .emit 1 [1, 1, 1], .emit 0 [2]]).file =
      some [2, 0, 1, 0] ∧
    (run 9 (⟨none, []⟩ : St Nat) [.make true true [0], .emit 0 [1, 1], .make true true [0], .emit 0 [2]]).file =
      some [9, 9, 9, 2, 0] := by decide

/-- C90 fails: an emitter that could not be made, because of its settings, has emptied the file. -/
theorem C90_make_violated : make (⟨some [1, 0], []⟩ : St Nat) true false [0] = (⟨some [], []⟩, true) := by decide

example : (run 9 (⟨some [5, 0], []⟩ : St Nat) [.make false true [0], .make false false [0], .emit 0 [1], .make false true [8],
      .emit 1 [2], .emit 0 [3], .close 0, .emit 0 [4], .emit 1 []]).file =
    some [5, 0, 1, 0, 2, 8, 3, 0, 8] := by decide
example : NoOverwrite [.make false true [0], .make false false [0], .emit 0 [1], .make false true [8], .emit 1 [2],
    .emit 0 [3], .close 0, .emit 0 [4], (.emit 1 [] : Op Nat)] := by
  intro v sep; simp

example := C90_append_partial 9 (some [5, 0]) [.make false true [0], .make false false [0], .emit 0 [1], .make false true [8],
  .emit 1 [2], .emit 0 [3], .close 0, .emit 0 [4], (.emit 1 [] : Op Nat)] (by intro v sep; simp)

end Verif.Files
