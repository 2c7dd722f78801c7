import Verif.Props.Files
/-!
# C90: files that are emptied while emitters append to them
-/
namespace Verif.Files

variable {B : Type}

/-! ### The specification -/

/-- For each emitter made in a history, in order: whether it overwrites. -/
def overwriters (ops : List (Op B)) : List Bool :=
  ops.filterMap fun op => match op with | .make o true _ => some o | _ => none

/-! ### Proof -/

theorem append_run' (zero : B) : ∀ (ops : List (Op B)) (s : St B), NoOverwrite ops →
    (∀ i x, Op.emit i x ∈ ops → ∀ e, s.emitters[i]? = some e → e.append = true) →
    (s.emitters ≠ [] → s.file.isSome) →
    (run zero s ops).file.getD [] = s.file.getD [] ++ (written (s.emitters.map Emitter.known) ops).flatten := by
  intro ops
  induction ops with
  | nil => intro s _ _ _; simp [run, written]
  | cons op ops ih =>
    intro s hn ha hf
    have hn' : NoOverwrite ops := fun v sep h => hn v sep (by simp [h])
    have ha' : ∀ i x, Op.emit i x ∈ ops → ∀ e, s.emitters[i]? = some e → e.append = true :=
      fun i x h => ha i x (List.mem_cons_of_mem _ h)
    simp only [run, List.foldl_cons] at ih ⊢
    cases op with
    | make o v sep =>
      have ho : o = false := by
        cases o with
        | false => rfl
        | true => exact absurd (by simp) (hn v sep)
      subst ho
      simp only [step, make, Bool.false_eq_true, if_false]
      cases v with
      | false =>
        simp only [Bool.false_eq_true, if_false]
        rw [ih ⟨some (s.file.getD []), s.emitters⟩ hn' ha' (by simp)]
        simp [written, live]
      | true =>
        simp only [if_true]
        rw [ih _ hn' ?_ (by simp)]
        · simp [written, live, Emitter.known]
        · intro i x h e he
          dsimp only at he
          rcases Nat.lt_or_ge i s.emitters.length with hl | hl
          · rw [List.getElem?_append_left hl] at he
            exact ha' i x h e he
          · rw [List.getElem?_append_right hl] at he
            rcases Nat.eq_zero_or_pos (i - s.emitters.length) with h0 | h0
            · rw [h0] at he; simp only [List.getElem?_cons_zero, Option.some.injEq] at he; subst he; rfl
            · rw [List.getElem?_eq_none (by simp; omega)] at he; cases he
    | emit i entry =>
      simp only [step, emit, written, List.getElem?_map]
      cases hi : s.emitters[i]? with
      | none => simp only [Option.map_none]; exact ih s hn' ha' hf
      | some e =>
        have he : e ∈ s.emitters := List.mem_of_getElem? hi
        obtain ⟨file, hfile⟩ := Option.isSome_iff_exists.1 (hf (List.ne_nil_of_mem he))
        simp only [hfile, Option.map_some, Emitter.known]
        cases hop : e.opened with
        | false =>
          simp only [Bool.false_eq_true, if_false]
          have := ih s hn' ha' hf
          rw [hfile] at this; exact this
        | true =>
          classical
          simp only [ha i entry List.mem_cons_self e hi, if_true, data_eq]
          rw [ih ⟨some (file ++ (entry ++ e.sep)), s.emitters⟩ hn' ha' (by simp)]
          simp [List.append_assoc]
    | close i =>
      simp only [step, close]
      cases hi : s.emitters[i]? with
      | none =>
        have hlen : s.emitters.length ≤ i := List.getElem?_eq_none_iff.1 hi
        simp only
        rw [ih s hn' ha' hf]
        simp only [written, live]
        rw [List.set_eq_of_length_le (by simpa using hlen)]
      | some e =>
        simp only
        rw [ih _ hn' ?_ ?_]
        · simp only [written, live, List.map_set]
          rfl
        · intro j x h e' he'
          dsimp only at he'
          by_cases hj : i = j
          · subst hj
            rw [List.getElem?_set_self (List.getElem?_eq_some_iff.1 hi).1] at he'
            cases he'
            exact ha' i x h e hi
          · rw [List.getElem?_set_ne hj] at he'
            exact ha' j x h e' he'
        · intro _; exact hf (List.ne_nil_of_mem (List.mem_of_getElem? hi))

/-- The emitters of a history: which overwrite, and what is known of them. -/
theorem emitters_run (zero : B) (file : Option (List B)) (ops : List (Op B)) :
    (run zero ⟨file, []⟩ ops).emitters.map (fun e => !e.append) = overwriters ops ∧
    (run zero ⟨file, []⟩ ops).emitters.map Emitter.known = live [] ops := by
  have gen : ∀ (ops : List (Op B)) (s : St B),
      (run zero s ops).emitters.map (fun e => !e.append) = s.emitters.map (fun e => !e.append) ++ overwriters ops ∧
      (run zero s ops).emitters.map Emitter.known = live (s.emitters.map Emitter.known) ops := by
    intro ops
    induction ops with
    | nil => intro s; simp [run, overwriters, live]
    | cons op ops ih =>
      intro s
      have hr : run zero s (op :: ops) = run zero (step zero s op) ops := rfl
      obtain ⟨h1, h2⟩ := ih (step zero s op)
      rw [hr, h1, h2]
      cases op with
      | make o v sep =>
        cases v <;> simp [step, make, overwriters, live, Emitter.known]
      | emit i x =>
        have e1 : (step zero s (.emit i x)).emitters.map (fun e => !e.append) = s.emitters.map (fun e => !e.append) ∧
            (step zero s (.emit i x)).emitters.map Emitter.known = s.emitters.map Emitter.known := by
          simp only [step, emit]
          split
          · rename_i e f hi hf
            split
            · split
              · exact ⟨rfl, rfl⟩
              · have hs : ∀ {γ : Type} (g : Emitter B → γ) (e' : Emitter B), g e' = g e →
                    (s.emitters.set i e').map g = s.emitters.map g := by
                  intro γ g e' hg
                  rw [List.map_set, hg]
                  apply List.ext_getElem?
                  intro j
                  by_cases hj : i = j
                  · subst hj
                    have hl := (List.getElem?_eq_some_iff.1 hi).1
                    rw [List.getElem?_set_self (by simpa using hl), List.getElem?_map, hi]; rfl
                  · rw [List.getElem?_set_ne hj]
                exact ⟨hs _ _ rfl, hs _ _ rfl⟩
            · exact ⟨rfl, rfl⟩
          · exact ⟨rfl, rfl⟩
        rw [e1.1, e1.2]
        simp [overwriters, live]
      | close i =>
        have e1 : (step zero s (.close i)).emitters.map (fun e => !e.append) = s.emitters.map (fun e => !e.append) ∧
            (step zero s (.close i)).emitters.map Emitter.known = (s.emitters.map Emitter.known).set i none := by
          simp only [step, close]
          split
          · rename_i e hi
            constructor
            · dsimp only
              rw [List.map_set]
              apply List.ext_getElem?
              intro j
              by_cases hj : i = j
              · subst hj
                have hl := (List.getElem?_eq_some_iff.1 hi).1
                rw [List.getElem?_set_self (by simpa using hl), List.getElem?_map, hi]; rfl
              · rw [List.getElem?_set_ne hj]
            · dsimp only
              rw [List.map_set]; rfl
          · rename_i hi
            have hlen : s.emitters.length ≤ i := List.getElem?_eq_none_iff.1 hi
            exact ⟨rfl, by rw [List.set_eq_of_length_le (by simpa using hlen)]⟩
        rw [e1.1, e1.2]
        simp [overwriters, live]
  have := gen ops ⟨file, []⟩
  simpa using this

/-- **C90**, emptying a file that is in use: from the making of an emitter that overwrites on (even if the making fails), the file
is what the appending emitters were given since, whole, in order, as long as those that overwrite are not used. -/
theorem C90_emptied_partial (zero : B) (file : Option (List B)) (before after : List (Op B)) (valid : Bool) (sep : List B)
    (hn : NoOverwrite after)
    (hu : ∀ i x, Op.emit i x ∈ after → (overwriters (before ++ [.make true valid sep]))[i]? ≠ some true) :
    (run zero ⟨file, []⟩ (before ++ .make true valid sep :: after)).file.getD [] =
      (written (live [] (before ++ [.make true valid sep])) after).flatten := by
  have hr : run zero ⟨file, []⟩ (before ++ .make true valid sep :: after) =
      run zero (run zero ⟨file, []⟩ (before ++ [.make true valid sep])) after := by
    simp only [run, List.foldl_append, List.foldl_cons, List.foldl_nil]
  obtain ⟨h1, h2⟩ := emitters_run zero file (before ++ [.make true valid sep])
  have hf : (run zero ⟨file, []⟩ (before ++ [.make true valid sep])).file = some [] := by
    have : run zero ⟨file, []⟩ (before ++ [.make true valid sep]) = (make (run zero ⟨file, []⟩ before) true valid sep).1 := by
      simp only [run, List.foldl_append, List.foldl_cons, List.foldl_nil, step]
    rw [this]
    simp only [make]
    split <;> rfl
  rw [hr, append_run' zero after _ hn ?_ (by rw [hf]; simp), hf, h2]
  · rfl
  · intro i x h e he
    have := hu i x h
    rw [← h1, List.getElem?_map, he] at this
    cases hb : e.append with
    | true => rfl
    | false => simp [hb] at this

example : (run 9 (⟨some [5, 0], []⟩ : St Nat) ([.make false true [0], .emit 0 [1]] ++ .make true true [0] :: [.emit 0 [2],
      .make false true [8], .emit 2 [3], .close 1, .emit 0 [4]])).file.getD [] = [2, 0, 3, 8, 4, 0] := by
  rw [C90_emptied_partial 9 _ _ _ _ _ (by intro v sep; simp) (by
    intro i x h
    simp only [List.mem_cons, Op.emit.injEq, List.not_mem_nil, or_false, reduceCtorEq, false_or] at h
    rcases h with ⟨rfl, -⟩ | ⟨rfl, -⟩ | ⟨rfl, -⟩ <;> decide)]
  decide

end Verif.Files
