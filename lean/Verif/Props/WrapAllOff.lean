import Verif.Props.WrapAllNames
/-!
# C141: `wrap_all` with wrapping disabled changes nothing
-/
namespace Verif.Wrapping

variable {L : Layout} {h0 : Heap} {t : Oid}

/-- The full claim: with wrapping disabled every attribute of every object reads as before, also through instances. -/
def NothingChanges : Prop :=
  ∀ (L : Layout) (c : WrapAllArgs) (_ : c.enable = false) (depth : Int) (label : String) (h : Heap) (t o : Oid) (n : String),
    attr L (wrapAll L c depth label h t).1.heap o n = attr L h o n

/-- What holds of the attributes at first, and still after storing what is read under the name it is read by, holds after
`wrap_all` with wrapping disabled. -/
theorem off_inv {c : WrapAllArgs} (hoff : c.enable = false) {P : Heap → Prop}
    (hread : ∀ h, P h → ∀ o n, Within L h0 t o → n ∈ L.dir o → attr L h o n = attr L h0 o n)
    (hput : ∀ h o n v, P h → Within L h0 t o → n ∈ L.dir o → c.skip n = false → attr L h0 o n = some v → v.named = true →
      P (h.put o n v))
    (d : Nat) : ∀ (o : Oid) (lb : String) (s : WState), Within L h0 t o → P s.heap → P (wrapSub L c d o lb s).1.heap := by
  have names : ∀ (rec : Option (Oid → String → WState → WState × Bool)),
      (∀ r, rec = some r → ∀ k lb s, Within L h0 t k → P s.heap → P (r k lb s).1.heap) →
      ∀ (o : Oid) (lb : String), Within L h0 t o → ∀ (ns : List String), (∀ n ∈ ns, n ∈ L.dir o) → ∀ s : WState, P s.heap →
        P (wrapNames L c rec o lb ns s).1.heap := by
    intro rec hrec o lb ho ns
    induction ns with
    | nil => exact fun _ _ hs => hs
    | cons n ns ih =>
      intro hns s hs
      have ih := fun s hs => ih (fun n hn => hns n (List.mem_cons_of_mem _ hn)) s hs
      have hn := hns n (by simp)
      unfold wrapNames
      split
      · exact ih s hs
      · rename_i hsk
        have hsk : c.skip n = false := by simpa using hsk
        have hr := hread _ hs o n ho hn
        have wrapCase : ∀ v : AVal, attr L s.heap o n = some v → P (if v.named then
              match if L.frozen o then none else c.make (lb ++ "." ++ n) (c.levelFor n) v with
              | none => if c.skipExc then wrapNames L c rec o lb ns s else (s, true)
              | some u =>
                wrapNames L c rec o lb ns { s with heap := s.heap.put o n u, ret := s.ret ++ [lb ++ "." ++ n] }
            else wrapNames L c rec o lb ns s).1.heap := by
          intro v hv
          split
          · rename_i hnm
            split
            · split
              · exact ih s hs
              · exact hs
            · rename_i u hu
              have : u = v := by
                simp only [WrapAllArgs.make, hoff] at hu
                split at hu
                · cases hu
                · simpa using hu.symm
              subst this
              exact ih _ (hput _ o n u hs ho hn hsk (hr.symm.trans hv) hnm)
          · exact ih s hs
        split
        · exact hs
        · rename_i v hv
          cases v with
          | plain i => exact ih s hs
          | cls k =>
            dsimp only
            split
            · exact ih s hs
            · rename_i r _
              split
              · exact ih s hs
              · have hk := hrec r rfl k (lb ++ "." ++ n) { s with seen := k :: s.seen }
                  (ho.tail ⟨n, hn, hr.symm.trans hv⟩) hs
                split
                · rename_i s' he
                  rw [he] at hk; exact hk
                · rename_i s' he
                  rw [he] at hk; exact ih s' hk
          | func i => exact wrapCase _ hv
          | nameless i => exact wrapCase _ hv
          | bound f q => exact wrapCase _ hv
          | wrapped a l v => exact wrapCase _ hv
  induction d with
  | zero => exact fun o lb s ho hs => names none (fun r h => by cases h) o lb ho _ (fun _ h => h) s hs
  | succ d ih => exact fun o lb s ho hs => names _ (fun r h => by cases h; exact ih) o lb ho _ (fun _ h => h) s hs

/-- **C141** (1), for targets in sight of which every function is a plain function of the object that shows it: nothing
changes at all, whatever the depth, the skip rule and the labels, and whether or not `wrap_all` raises. -/
theorem C141_own_partial (c : WrapAllArgs) (hoff : c.enable = false) (hown : OwnFunctions L c.skip h0 t) (depth : Int) (label : String) :
    (wrapAll L c depth label h0 t).1.heap = h0 := by
  refine off_inv (h0 := h0) (t := t) hoff (P := fun h => h = h0) (fun h e => by subst e; intros; rfl) ?_ _ t label _ .refl rfl
  rintro h o n v rfl ho hn hsk hv hnm
  funext o' n'
  unfold Heap.put
  split
  · rename_i he
    obtain ⟨rfl, rfl⟩ := he
    exact (hown _ _ v ho hn hsk hv hnm).symm
  · rfl

/-- **C141** (2), for targets in sight of which no class inherits from another: every attribute in sight reads as before, and
objects out of sight are unchanged. -/
theorem C141_reads_partial (c : WrapAllArgs) (hoff : c.enable = false) (hno : NoInheritance L h0 t) (depth : Int) (label : String) :
    (∀ o n, Within L h0 t o → attr L (wrapAll L c depth label h0 t).1.heap o n = attr L h0 o n) ∧
    ∀ o, ¬ Within L h0 t o → (wrapAll L c depth label h0 t).1.heap o = h0 o := by
  refine off_inv (h0 := h0) (t := t) hoff
    (P := fun h => (∀ o n, Within L h0 t o → attr L h o n = attr L h0 o n) ∧ ∀ o, ¬ Within L h0 t o → h o = h0 o)
    (fun h hh o n ho _ => hh.1 o n ho) ?_ _ t label _ .refl ⟨fun _ _ _ => rfl, fun _ _ => rfl⟩
  rintro h o n v ⟨h1, h2⟩ ho hn hsk hv hnm
  constructor
  · intro o' n' ho'
    by_cases he : o' = o ∧ n' = n
    · obtain ⟨rfl, rfl⟩ := he
      rw [hv]
      simp [attr, Heap.put, Slot.get]
    · rw [← h1 o' n' ho']
      unfold attr
      congr 1
      rw [List.findSome?_cons, List.findSome?_cons, show h.put o n v o' n' = h o' n' by simp [Heap.put, he]]
      congr 1
      have hp : ∀ p ∈ L.mro o', h.put o n v p n' = h p n' := fun p hp => by
        have : p ≠ o := by rintro rfl; exact hno o' p ho' hp ho
        simp [Heap.put, this]
      generalize L.mro o' = l at hp
      induction l with
      | nil => rfl
      | cons p l ih => simp only [List.findSome?_cons, hp p (by simp)]; rw [ih fun q hq => hp q (by simp [hq])]
  · intro o' ho'
    rw [← h2 o' ho']
    funext n'
    have : o' ≠ o := by rintro rfl; exact ho' ho
    simp [Heap.put, this]

open Demo

/-- The module of the examples of C62, with wrapping disabled: two functions are listed and none is wrapped. -/
def offArgs : WrapAllArgs := { args with enable := false }

example : (wrapAll plainLayout offArgs 1 "m" plainHeap 0).1.heap = plainHeap := C141_own_partial offArgs rfl plain_own 1 "m"
example : (attr plainLayout (wrapAll plainLayout offArgs 1 "m" plainHeap 0).1.heap 2 "g") = some (.func 13) :=
  ((C141_reads_partial offArgs rfl plain_no_inheritance 1 "m").1 2 "g" (.single ⟨"B", by decide, by decide⟩)).trans (by decide)
example : (wrapAll plainLayout offArgs 1 "m" plainHeap 0).1.ret ≠ [] := by decide +kernel

/-- Class 1 has a function `f`, class 2 inherits it, class 3 overrides it, and class 4 inherits from 2 and 3, which puts 3 before 1;
all are in module 0. -/
def diamondLayout : Layout where
  dir | 0 => ["A", "B", "C", "D"] | 1 => ["f"] | 2 => ["f"] | 3 => ["f"] | 4 => ["f"] | _ => []
  mro | 2 => [1] | 3 => [1] | 4 => [2, 3, 1] | _ => []
  frozen _ := false

/-- The attributes. -/
def diamondHeap : Heap
  | 0 => fun | "A" => some (.val (.cls 1)) | "B" => some (.val (.cls 2)) | "C" => some (.val (.cls 3)) | "D" => some (.val (.cls 4))
             | _ => none
  | 1 => fun | "f" => some (.val (.func 10)) | _ => none
  | 3 => fun | "f" => some (.val (.func 30)) | _ => none
  | _ => fun _ => none

/-- **C141** is false of the code: what is inherited is copied into the class that shows it.  A class method inherited from `A` by
`B` is then called with `A`; and where `D` inherits from `B` and `C` its `f` was that of `C`, and is then the one of `A`. -/
theorem C141_violated : ¬ NothingChanges := by
  intro h
  have := h diamondLayout offArgs rfl 1 "m" diamondHeap 0 4 "f"
  revert this
  decide +kernel

theorem C141_class_method_violated :
    attr classmLayout classmHeap 2 "make" = some (.bound (.func 10) 2) ∧
    attr classmLayout (wrapAll classmLayout offArgs 1 "m" classmHeap 0).1.heap 2 "make" = some (.bound (.func 10) 1) := by
  decide +kernel

/-- A static method turns into a function that is passed the instance it is called through. -/
theorem C141_static_method_violated :
    (staticHeap 0 "s").map bindsSelf = some false ∧
    ((wrapAll staticLayout offArgs 1 "C" staticHeap 0).1.heap 0 "s").map bindsSelf = some true := by decide +kernel

/-- C126: with wrapping enabled, too, `D` then calls the `f` of another class. -/
theorem C126_diamond_violated :
    (attr diamondLayout diamondHeap 4 "f").map AVal.core = some (.func 30) ∧
    (attr diamondLayout (wrapAll diamondLayout args 1 "m" diamondHeap 0).1.heap 4 "f").map AVal.core = some (.func 10) := by
  decide +kernel

end Verif.Wrapping
