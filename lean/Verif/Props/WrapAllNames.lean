import Verif.Props.WrapAll
/-!
# C126: what wrap_all leaves under each name
-/
namespace Verif.Wrapping

/-! ## Specification -/

/-- What is called in the end: the value without the logging wrappers around it. -/
def AVal.core : AVal → AVal
  | .wrapped _ _ v => v.core
  | v => v

/-- `lv` is the level that `level_map` has for the name, and the `level` argument if it has none. -/
def LevelAsked (c : WrapAllArgs) (n : String) (lv : Int) : Prop :=
  c.levelMap n = some lv ∨ c.levelMap n = none ∧ lv = c.level

/-- What is under name `n` of `o` is as before, or a wrapper with a dotted name that ends in `n` and that was returned, and the
level asked for, around a callable that has a name. -/
def Known (L : Layout) (c : WrapAllArgs) (h0 : Heap) (s : WState) : Prop :=
  ∀ o n, s.heap o n = h0 o n ∨ ∃ label lv v, s.heap o n = some (.val (.wrapped (label ++ "." ++ n) lv v)) ∧
    label ++ "." ++ n ∈ s.ret ∧ LevelAsked c n lv ∧ c.skip n = false ∧ L.frozen o = false ∧ v.named = true ∧ n ∈ L.dir o

/-! ## Proofs -/

theorem levelFor_asked (c : WrapAllArgs) (n : String) : LevelAsked c n (c.levelFor n) := by
  unfold LevelAsked WrapAllArgs.levelFor
  cases c.levelMap n with
  | none => exact .inr ⟨rfl, rfl⟩
  | some l => exact .inl rfl

theorem wrapNames_known (L : Layout) (c : WrapAllArgs) (hen : c.enable = true) (h0 : Heap)
    (rec : Option (Oid → String → WState → WState × Bool))
    (hrec : ∀ r, rec = some r → ∀ k lb s, Known L c h0 s → Known L c h0 (r k lb s).1)
    (o : Oid) (lb : String) (ns : List String) (hns : ∀ n ∈ ns, n ∈ L.dir o) (s : WState) (hs : Known L c h0 s) :
    Known L c h0 (wrapNames L c rec o lb ns s).1 := by
  induction ns generalizing s with
  | nil => exact hs
  | cons n ns ih =>
    have ih := fun s hs => ih (fun n hn => hns n (List.mem_cons_of_mem _ hn)) s hs
    unfold wrapNames
    split
    · exact ih s hs
    · rename_i hsk
      have hsk : c.skip n = false := by simpa using hsk
      have wrapCase : ∀ v : AVal, Known L c h0 (if v.named then
            match if L.frozen o then none else c.make (lb ++ "." ++ n) (c.levelFor n) v with
            | none => if c.skipExc then wrapNames L c rec o lb ns s else (s, true)
            | some u =>
              wrapNames L c rec o lb ns { s with heap := s.heap.put o n u, ret := s.ret ++ [lb ++ "." ++ n] }
          else wrapNames L c rec o lb ns s).1 := by
        intro v
        split
        · rename_i hnm
          split
          · split
            · exact ih s hs
            · exact hs
          · rename_i u hc
            obtain ⟨hfz, -, rfl⟩ := make_some hen hc
            refine ih _ fun o' n' => ?_
            dsimp only
            unfold Heap.put
            split
            · rename_i he
              obtain ⟨rfl, rfl⟩ := he
              exact .inr ⟨lb, _, v, rfl, by simp, levelFor_asked c n', hsk, hfz, hnm, hns n' (by simp)⟩
            · rcases hs o' n' with h | ⟨label, lv, v', h1, h2, h3⟩
              · exact .inl h
              · exact .inr ⟨label, lv, v', h1, by simp [h2], h3⟩
        · exact ih s hs
      split
      · exact hs
      · rename_i v _
        cases v with
        | plain i => exact ih s hs
        | cls k =>
          dsimp only
          split
          · exact ih s hs
          · rename_i r _
            split
            · exact ih s hs
            · have hk := hrec r rfl k (lb ++ "." ++ n) { s with seen := k :: s.seen } (fun o n => hs o n)
              split
              · rename_i s' he
                rw [he] at hk; exact hk
              · rename_i s' he
                rw [he] at hk; exact ih s' hk
        | func i => exact wrapCase _
        | nameless i => exact wrapCase _
        | bound f q => exact wrapCase _
        | wrapped a l v => exact wrapCase _

theorem wrapSub_known (L : Layout) (c : WrapAllArgs) (hen : c.enable = true) (h0 : Heap) (d : Nat) (o : Oid) (lb : String) (s : WState)
    (hs : Known L c h0 s) : Known L c h0 (wrapSub L c d o lb s).1 := by
  induction d generalizing o lb s with
  | zero => exact wrapNames_known L c hen h0 none (fun r h => by cases h) o lb _ (fun _ h => h) s hs
  | succ d ih =>
    exact wrapNames_known L c hen h0 _ (fun r h => by cases h; exact fun k lb s hs => ih k lb s hs) o lb _ (fun _ h => h) s hs

/-- C126: whatever the target, `wrap_all`, also if it raises, changes only names that are not skipped, listed by their object and
callable with a name; each of these then has a wrapper whose action name is a dotted name that ends in the attribute's name and
is in the list returned, with the level `level_map` has for the attribute, or else the `level` argument. -/
theorem C126_changes (L : Layout) (c : WrapAllArgs) (hen : c.enable = true) (depth : Int) (label : String) (h : Heap) (t : Oid) :
    Known L c h (wrapAll L c depth label h t).1 :=
  wrapSub_known L c hen h _ t label _ fun _ _ => .inl rfl

theorem Layers.core_eq {k : Nat} {v v0 : AVal} (h : Layers k v v0) : v.core = v0.core := by
  induction h with
  | zero => rfl
  | succ a l _ ih => exact ih

/-- C126: for targets as in C62, every attribute in sight still calls what it called.  What is missing for the full claim:
inherited class methods (see `C126_class_method_violated`). -/
theorem C126_calls_partial {L : Layout} {h0 : Heap} {t : Oid} (c : WrapAllArgs) (hen : c.enable = true) (hnd : ∀ o, (L.dir o).Nodup)
    (hshape : OwnFunctions L c.skip h0 t ∨ NoInheritance L h0 t) (depth : Int) (label : String) (o : Oid) (n : String)
    (ho : Within L h0 t o) (hn : n ∈ L.dir o) :
    (attr L (wrapAll L c depth label h0 t).1.heap o n).map AVal.core = (attr L h0 o n).map AVal.core := by
  have hf : Frame L c.skip h0 t := by
    rcases hshape with h | h
    · exact h.frame
    · exact h.frame
  obtain ⟨K, d⟩ := wrapSub_done hen hf hnd label depth.toNat depth.toNat 0 (by omega) t label ⟨h0, [], []⟩ _ .here
    LInv.init
  rcases d.inv.level o n ho hn with ⟨v, v0, h1, h2, h3, _⟩ | ⟨h1, h2, _⟩
  · rw [wrapAll, h1, h2, Option.map_some, Option.map_some, h3.core_eq]
  · rw [wrapAll, h1, h2]

open Demo

example : (attr plainLayout (wrapAll plainLayout args 1 "m" plainHeap 0).1.heap 2 "g").map AVal.core = some (.func 13) :=
  (C126_calls_partial args rfl plain_nodup (.inr plain_no_inheritance) 1 "m" 2 "g" (.single ⟨"B", by decide, by decide⟩)
    (by decide)).trans (by decide)

/-- Levels by name: `g` at 20, all others at 90. -/
def levelArgs : WrapAllArgs := { args with level := 90, levelMap := fun n => if n = "g" then some 20 else none }

example : (wrapAll plainLayout levelArgs 1 "m" plainHeap 0).1.heap 2 "g" = some (.val (.wrapped "m.B.g" 20 (.func 13))) ∧
    (wrapAll plainLayout levelArgs 1 "m" plainHeap 0).1.heap 0 "f" = some (.val (.wrapped "m.f" 90 (.func 10))) := by
  decide +kernel

/-- A class 1 with a class method `make`, and a class 2 that inherits it, both in module 0. -/
def classmLayout : Layout where
  dir | 0 => ["A", "B"] | 1 => ["make"] | 2 => ["make"] | _ => []
  mro | 2 => [1] | _ => []
  frozen _ := false

/-- The attributes. -/
def classmHeap : Heap
  | 0 => fun | "A" => some (.val (.cls 1)) | "B" => some (.val (.cls 2)) | _ => none
  | 1 => fun | "make" => some (.classm (.func 10)) | _ => none
  | _ => fun _ => none

/-- C126, the full claim, is false: a class method that class `B` inherits from `A` was called with `B`, and after `wrap_all` is
called with `A`, for every depth above 0. -/
theorem C126_class_method_violated :
    attr classmLayout classmHeap 2 "make" = some (.bound (.func 10) 2) ∧
    (attr classmLayout (wrapAll classmLayout args 1 "m" classmHeap 0).1.heap 2 "make").map AVal.core =
      some (.bound (.func 10) 1) := by decide +kernel

end Verif.Wrapping
