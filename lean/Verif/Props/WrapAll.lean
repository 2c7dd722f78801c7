import Verif.Lemmas.WrapAll
/-!
# C62: wrap_all and unwrap_all
-/
namespace Verif.Wrapping

section
variable {L : Layout} {h0 : Heap} {t : Oid}

theorem findSome_put {h : Heap} {n : String} {o : Oid} {v : AVal} (l : List Oid)
    (hpat : ∀ p, (h p n).isSome = (h0 p n).isSome) (ho : (h0 o n).isSome)
    (hne : (l.findSome? fun p => h0 p n) ≠ h0 o n) :
    (l.findSome? fun p => h.put o n v p n) = l.findSome? fun p => h p n := by
  induction l with
  | nil => rfl
  | cons p l ih =>
    by_cases hp : p = o
    · subst hp
      exfalso
      apply hne
      obtain ⟨x, hx⟩ := Option.isSome_iff_exists.1 ho
      simp [hx]
    · simp only [List.findSome?_cons] at hne ⊢
      rw [show h.put o n v p n = h p n by simp [Heap.put, hp]]
      cases hs : h p n with
      | some x => rfl
      | none =>
        have : h0 p n = none := by
          have := hpat p; rw [hs] at this
          cases hh : h0 p n with
          | none => rfl
          | some y => rw [hh] at this; cases this
        rw [this] at hne
        exact ih hne

/-- If every function in sight is the object's own, setting one does not show elsewhere. -/
theorem OwnFunctions.frame {skip : String → Bool} (hown : OwnFunctions L skip h0 t) : Frame L skip h0 t := by
  intro h ht o n v ha o' n' hw hd hne
  obtain ⟨hwo, ⟨hdo, hsk, u, hu, hun⟩, _⟩ := ha
  have hown_o := hown o n u hwo hdo hsk hu hun
  by_cases hnn : n' = n
  swap
  · simp [attr, Heap.put, hnn]
  subst hnn
  have hoo : o' ≠ o := fun h => hne h rfl
  have hpat : ∀ p, (h p n').isSome = (h0 p n').isSome := by
    intro p
    rcases ht p n' with h1 | ⟨⟨h1, ⟨h2, h3, u', h4, h5⟩, _⟩, v', h6⟩
    · rw [h1]
    · rw [h6, hown p n' u' h1 h2 h3 h4 h5]; rfl
  simp only [attr]
  congr 1
  cases hs : h0 o' n' with
  | some x =>
    obtain ⟨y, hy⟩ : ∃ y, h o' n' = some y := Option.isSome_iff_exists.1 (by rw [hpat, hs]; rfl)
    simp [List.findSome?_cons, Heap.put, hoo, hy]
  | none =>
    refine findSome_put _ hpat (by rw [hown_o]; rfl) fun heq => ?_
    have : attr L h0 o' n' = some u := by simp [attr, heq, hown_o, Slot.get]
    rw [hown o' n' u hw hd hsk this hun] at hs
    cases hs

/-- If no class in sight inherits from another, setting an attribute does not show elsewhere. -/
theorem NoInheritance.frame {skip : String → Bool} (hno : NoInheritance L h0 t) : Frame L skip h0 t := by
  intro h _ o n v ha o' n' hw _ hne
  have hnm : ∀ p ∈ o' :: L.mro o', h.put o n v p n' = h p n' := by
    intro p hp
    have : ¬ (p = o ∧ n' = n) := by
      rintro ⟨rfl, rfl⟩
      rcases List.mem_cons.1 hp with rfl | hp
      · exact hne rfl rfl
      · exact hno o' p hw hp ha.1
    simp [Heap.put, this]
  simp only [attr]
  congr 1
  generalize o' :: L.mro o' = l at hnm
  induction l with
  | nil => rfl
  | cons p l ih =>
    simp only [List.findSome?_cons, hnm p (by simp)]
    rw [ih (fun q hq => hnm q (by simp [hq]))]

/-- **C62, what does hold (1).**  If every function in sight is a plain function of the object that shows it,
and none is wrapped yet, then `unwrap_all` after `wrap_all`, for every depth, skip rule, shared and cyclic
references between classes, and whether or not `wrap_all` raised half way, comes to an end and leaves
everything exactly as it was.  `univ` lists the finitely many classes in sight. -/
theorem unwrap_undoes_wrap_partial (c : WrapAllArgs) (hen : c.enable = true) (hnd : ∀ o, (L.dir o).Nodup)
    (hn : NothingWrapped L h0 t) (hown : OwnFunctions L c.skip h0 t) (univ : List Oid)
    (huniv : ∀ k, Within L h0 t k → k ∈ univ) (depth : Int) (label : String) (fuel : Nat)
    (hfuel : univ.length < fuel) :
    unwrapAll L fuel (wrapAll L c depth label h0 t).1.heap t = some h0 := by
  obtain ⟨h', h1, h2, h3⟩ := wrap_unwrap_level (c := c) hen hown.frame hnd hn univ huniv depth label fuel hfuel
  rw [h1]
  congr 1
  funext o n
  rcases h2 o n with h | ⟨⟨hw, ⟨hd, hsk, u, hu, hun⟩, _⟩, v, hv⟩
  · exact h
  · have h4 := hown o n u hw hd hsk hu hun
    have h5 := h3 o n hw hd
    rw [hu] at h5
    have h6 : attr L h' o n = some v := by simp [attr, hv, Slot.get]
    rw [h5] at h6; cases h6
    rw [hv, h4]

/-- **C62, what does hold (2).**  If no class in sight inherits from another class in sight, every attribute in
sight reads as before, and objects out of sight are unchanged.  (Functions inherited from classes out of sight
are copied into the class; static and class methods turn into plain attributes, see
`static_method_violated`.) -/
theorem unwrap_restores_reads_partial (c : WrapAllArgs) (hen : c.enable = true) (hnd : ∀ o, (L.dir o).Nodup)
    (hn : NothingWrapped L h0 t) (hno : NoInheritance L h0 t) (univ : List Oid)
    (huniv : ∀ k, Within L h0 t k → k ∈ univ) (depth : Int) (label : String) (fuel : Nat)
    (hfuel : univ.length < fuel) :
    ∃ h', unwrapAll L fuel (wrapAll L c depth label h0 t).1.heap t = some h' ∧
      (∀ o n, Within L h0 t o → n ∈ L.dir o → attr L h' o n = attr L h0 o n) ∧
      ∀ o, ¬ Within L h0 t o → h' o = h0 o := by
  obtain ⟨h', h1, h2, h3⟩ := wrap_unwrap_level (c := c) hen hno.frame hnd hn univ huniv depth label fuel hfuel
  refine ⟨h', h1, h3, fun o ho => ?_⟩
  funext n
  rcases h2 o n with h | ⟨⟨hw, _⟩, _⟩
  · exact h
  · exact absurd hw ho

/-- **C62, wrap_all wraps only what it says.**  Whatever `wrap_all` returns or leaves behind: each name in its
list is the dotted name of a function reached within `depth` through names that are not skipped, and that
function is wrapped now; and each attribute in sight that reads differently now is such a function, with its
name in the list. -/
theorem wrap_all_sound (c : WrapAllArgs) (hen : c.enable = true) (hnd : ∀ o, (L.dir o).Nodup)
    (hshape : OwnFunctions L c.skip h0 t ∨ NoInheritance L h0 t) (depth : Int) (label : String) :
    (∀ r ∈ (wrapAll L c depth label h0 t).1.ret, ∃ d lb o n,
      d ≤ depth.toNat ∧ Path L c.skip h0 t label d lb o ∧ IsFunction L c.skip h0 o n ∧ r = lb ++ "." ++ n ∧
      ∃ a l v, attr L (wrapAll L c depth label h0 t).1.heap o n = some (.wrapped a l v)) ∧
    ∀ o n, Within L h0 t o → n ∈ L.dir o → attr L (wrapAll L c depth label h0 t).1.heap o n ≠ attr L h0 o n →
      IsFunction L c.skip h0 o n ∧ ∃ d lb, d ≤ depth.toNat ∧ Path L c.skip h0 t label d lb o ∧
        lb ++ "." ++ n ∈ (wrapAll L c depth label h0 t).1.ret := by
  have hf : Frame L c.skip h0 t := by
    rcases hshape with h | h
    · exact h.frame
    · exact h.frame
  obtain ⟨K, d⟩ := wrapSub_done hen hf hnd label depth.toNat depth.toNat 0 (by omega) t label ⟨h0, [], []⟩ _ .here
    LInv.init
  constructor
  · intro r hr
    rcases d.sound r hr with h | ⟨d', lb, o, n, g1, g2, g3, g4, g5⟩
    · simp at h
    · refine ⟨d', lb, o, n, g1, g2, g3.2.1, g4, ?_⟩
      rcases d.inv.level o n g3.1 g3.2.1.1 with ⟨v, v0, h1, h2, h3, _⟩ | ⟨_, _, h3⟩
      · generalize K o n = k at h3 g5
        cases h3 with
        | zero => exact absurd rfl g5
        | succ a l h => exact ⟨a, l, _, h1⟩
      · exact absurd h3 g5
  · intro o n hw hd hne
    have hk : K o n ≠ 0 := by
      intro hk
      rcases d.inv.level o n hw hd with ⟨v, v0, h1, h2, h3, _⟩ | ⟨h1, h2, h3⟩
      · rw [hk] at h3
        cases h3
        exact hne (h1.trans h2.symm)
      · exact hne (h1.trans h2.symm)
    refine ⟨?_, d.grown o n hk⟩
    rcases d.inv.level o n hw hd with ⟨v, v0, h1, h2, h3, h4⟩ | ⟨_, _, h3⟩
    · exact (h4 hk).2.1
    · exact absurd h3 hk

/-- **C62, what does hold of completeness.**  If `wrap_all` returns, then every function of the target that is
not skipped and can be wrapped is wrapped and in the list, and with a depth of at least 1 the same goes for the
functions of every class that is an attribute of the target under a name not skipped.  Missing: classes
further down, see `wrap_all_depth_violated`. -/
theorem wrap_all_complete_partial (c : WrapAllArgs) (hen : c.enable = true) (hnd : ∀ o, (L.dir o).Nodup)
    (hshape : OwnFunctions L c.skip h0 t ∨ NoInheritance L h0 t) (depth : Int) (label : String)
    (hret : (wrapAll L c depth label h0 t).2 = false) (o : Oid)
    (ho : o = t ∨ 1 ≤ depth ∧ ∃ m ∈ L.dir t, c.skip m = false ∧ attr L h0 t m = some (.cls o))
    (n : String) (hn : IsFunction L c.skip h0 o n) (hfz : L.frozen o = false)
    (hcan : ∀ v, attr L h0 o n = some v → c.cannot v = false) :
    (∃ a l v, attr L (wrapAll L c depth label h0 t).1.heap o n = some (.wrapped a l v)) ∧
    ∃ d lb, d ≤ depth.toNat ∧ Path L c.skip h0 t label d lb o ∧
      lb ++ "." ++ n ∈ (wrapAll L c depth label h0 t).1.ret := by
  have hf : Frame L c.skip h0 t := by
    rcases hshape with h | h
    · exact h.frame
    · exact h.frame
  obtain ⟨K, d⟩ := wrapSub_done hen hf hnd label depth.toNat depth.toNat 0 (by omega) t label ⟨h0, [], []⟩ _ .here
    LInv.init
  have hcw : CanWrap (L := L) (h0 := h0) c o n := ⟨hn, hfz, hcan⟩
  have hk : K o n ≠ 0 := by
    rcases ho with rfl | ⟨hd, m, hm, hsk, hc⟩
    · exact d.all hret n hn.1 hcw
    · exact d.allSeen hret o (d.kids hret (by simp; omega) m hm hsk o hc) (by simp) n hcw
  have hw : Within L h0 t o := by
    rcases ho with rfl | ⟨_, m, hm, _, hc⟩
    · exact Relation.ReflTransGen.refl
    · exact Relation.ReflTransGen.single ⟨m, hm, hc⟩
  refine ⟨?_, d.grown o n hk⟩
  rcases d.inv.level o n hw hn.1 with ⟨v, v0, h1, h2, h3, _⟩ | ⟨_, _, h3⟩
  · generalize K o n = k at h3 hk
    cases h3 with
    | zero => exact absurd rfl hk
    | succ a l h => exact ⟨a, l, _, h1⟩
  · exact absurd h3 hk

end

/-! ### Concrete targets -/
namespace Demo

/-- `wrap_all(logger, target=..., skip='_')` -/
def args : WrapAllArgs := { skip := fun n => n == "_hidden", skipExc := false, cannot := fun _ => false }

/-- Module 0 with a function `f`, and classes `A` (1) and `B` (2). -/
def mod : String → Option Slot
  | "f" => some (.val (.func 10))
  | "A" => some (.val (.cls 1))
  | "B" => some (.val (.cls 2))
  | _ => none

/-- `A` and `B` refer to each other and to themselves, each with methods of its own. -/
def plainHeap : Heap
  | 0 => mod
  | 1 => fun | "g" => some (.val (.func 11)) | "B" => some (.val (.cls 2)) | "_hidden" => some (.val (.func 12))
             | _ => none
  | 2 => fun | "g" => some (.val (.func 13)) | "A" => some (.val (.cls 1)) | "n" => some (.val (.plain 3))
             | _ => none
  | _ => fun _ => none

/-- Names in `dir` order. -/
def plainLayout : Layout where
  dir | 0 => ["A", "B", "f"] | 1 => ["B", "_hidden", "g"] | 2 => ["A", "g", "n"] | _ => []
  mro _ := []
  frozen _ := false

/-- Nothing outside a list is in sight if the classes that are attributes of its members are members. -/
theorem within_of_closed {L : Layout} {h : Heap} {t : Oid} (univ : List Oid) (ht : t ∈ univ)
    (hcl : ∀ o ∈ univ, ∀ n ∈ L.dir o,
      (match attr L h o n with | some (.cls c) => decide (c ∈ univ) | _ => true) = true)
    {o : Oid} (hw : Within L h t o) : o ∈ univ := by
  induction hw with
  | refl => exact ht
  | tail _ hc ih =>
    obtain ⟨n, hn, hc⟩ := hc
    have := hcl _ ih n hn
    rw [hc] at this
    simpa using this

theorem plain_within {o : Oid} (hw : Within plainLayout plainHeap 0 o) : o ∈ [0, 1, 2] :=
  within_of_closed [0, 1, 2] (by decide) (by decide +kernel) hw

theorem plain_nothing : NothingWrapped plainLayout plainHeap 0 := by
  intro o n v hw hn hv
  have h : ∀ o ∈ [0, 1, 2], ∀ n ∈ plainLayout.dir o,
      ((attr plainLayout plainHeap o n).bind AVal.inner?) = none := by decide +kernel
  have := h o (plain_within hw) n hn
  rw [hv] at this
  exact this

theorem plain_own : OwnFunctions plainLayout args.skip plainHeap 0 := by
  intro o n v hw hn hs hv hnm
  have h : ∀ o ∈ [0, 1, 2], ∀ n ∈ plainLayout.dir o, ∀ s, plainHeap o n = some s →
      ((attr plainLayout plainHeap o n).map Slot.val) = some s := by
    intro o ho n hn s hs
    have h : ∀ o ∈ [0, 1, 2], ∀ n ∈ plainLayout.dir o,
      ((attr plainLayout plainHeap o n).map Slot.val) = plainHeap o n := by decide +kernel
    rw [h o ho n hn, hs]
  have hsome : ∀ o ∈ [0, 1, 2], ∀ n ∈ plainLayout.dir o, (plainHeap o n).isSome = true := by decide +kernel
  obtain ⟨s, hs'⟩ := Option.isSome_iff_exists.1 (hsome o (plain_within hw) n hn)
  have := h o (plain_within hw) n hn s hs'
  rw [hv] at this
  rw [hs', ← this]; rfl

theorem plain_no_inheritance : NoInheritance plainLayout plainHeap 0 := by
  intro o p _ hp; cases hp

theorem plain_nodup : ∀ o, (plainLayout.dir o).Nodup := by
  intro o
  simp only [plainLayout]
  split <;> decide

/-- `wrap_all` with depth 1 wraps the functions of both classes and of the module, and `unwrap_all` undoes it,
cycles between the classes notwithstanding. -/
example : (wrapAll plainLayout args 1 "m" plainHeap 0).1.ret = ["m.A.g", "m.B.g", "m.f"] := by decide +kernel
example : unwrapAll plainLayout 4 (wrapAll plainLayout args 1 "m" plainHeap 0).1.heap 0 = some plainHeap :=
  unwrap_undoes_wrap_partial args rfl plain_nodup plain_nothing plain_own [0, 1, 2] (fun _ => plain_within) 1 "m" 4
    (by decide)
/-- Class `A` as the target, reached again through `B` at depth 2: its functions are wrapped twice and unwrapped
twice. -/
example : (wrapAll plainLayout args 2 "A" plainHeap 1).1.ret = ["A.B.A.g", "A.B.g", "A.g"] := by decide +kernel
example : attr plainLayout (wrapAll plainLayout args 2 "A" plainHeap 1).1.heap 1 "g" =
    some (.wrapped "A.g" 70 (.wrapped "A.B.A.g" 70 (.func 11))) := by decide +kernel
example : attr plainLayout ((unwrapAll plainLayout 4 (wrapAll plainLayout args 2 "A" plainHeap 1).1.heap 1).getD
    plainHeap) 1 "g" = some (.func 11) := by decide +kernel
example : ∃ h', unwrapAll plainLayout 4 (wrapAll plainLayout args 7 "m" plainHeap 0).1.heap 0 = some h' ∧
      (∀ o n, Within plainLayout plainHeap 0 o → n ∈ plainLayout.dir o →
        attr plainLayout h' o n = attr plainLayout plainHeap o n) ∧
      ∀ o, ¬ Within plainLayout plainHeap 0 o → h' o = plainHeap o :=
  unwrap_restores_reads_partial args rfl plain_nodup plain_nothing plain_no_inheritance [0, 1, 2]
    (fun _ => plain_within) 7 "m" 4 (by decide)
example : "m.A.g" ∈ (wrapAll plainLayout args 1 "m" plainHeap 0).1.ret ∧
    (wrapAll plainLayout args 1 "m" plainHeap 0).2 = false := by decide +kernel
example : ∃ a l v, attr plainLayout (wrapAll plainLayout args 1 "m" plainHeap 0).1.heap 2 "g" = some (.wrapped a l v) :=
  (wrap_all_complete_partial args rfl plain_nodup (.inl plain_own) 1 "m" (by decide +kernel) 2
    (.inr ⟨by decide, "B", by decide, by decide, by decide +kernel⟩) "g"
    ⟨by decide, by decide, .func 13, by decide +kernel, rfl⟩ rfl (fun _ _ => rfl)).1

/-- The default skip rule. -/
example : skipPrefix "_" "__init__" = true ∧ skipPrefix "_" "dumps" = false ∧ skipPrefix "" "x" = false := by
  decide +kernel

/-- Class `B` inherits `g` from `A`. -/
def inhHeap : Heap
  | 0 => fun | "A" => some (.val (.cls 1)) | "B" => some (.val (.cls 2)) | _ => none
  | 1 => fun | "g" => some (.val (.func 11)) | _ => none
  | _ => fun _ => none
/-- Where `B` inherits from `A`. -/
def inhLayout : Layout where
  dir | 0 => ["A", "B"] | 1 => ["g"] | 2 => ["g"] | _ => []
  mro | 2 => [1] | _ => []
  frozen _ := false

/-- **C62 is false of the code (1)**: if a class in sight inherits a function from another class in sight, the
function of the subclass is wrapped twice and unwrapped once: after `unwrap_all` it still logs. -/
theorem inherited_function_violated :
    ¬ ∀ (L : Layout) (h0 : Heap) (t : Oid) (c : WrapAllArgs), (∀ o, (L.dir o).Nodup) → NothingWrapped L h0 t →
      ∀ fuel h', unwrapAll L fuel (wrapAll L c 1 "m" h0 t).1.heap t = some h' →
        ∀ o n, Within L h0 t o → n ∈ L.dir o → attr L h' o n = attr L h0 o n := by
  intro h
  have hwin : ∀ {o : Oid}, Within inhLayout inhHeap 0 o → o ∈ [0, 1, 2] := fun hw =>
    within_of_closed [0, 1, 2] (by decide) (by decide +kernel) hw
  have hn : NothingWrapped inhLayout inhHeap 0 := by
    intro o n v hw hn hv
    have h : ∀ o ∈ [0, 1, 2], ∀ n ∈ inhLayout.dir o,
        ((attr inhLayout inhHeap o n).bind AVal.inner?) = none := by decide +kernel
    have := h o (hwin hw) n hn
    rw [hv] at this
    exact this
  have hnd : ∀ o, (inhLayout.dir o).Nodup := by
    intro o; simp only [inhLayout]; split <;> decide
  have hs : (unwrapAll inhLayout 4 (wrapAll inhLayout args 1 "m" inhHeap 0).1.heap 0).isSome = true := by
    decide +kernel
  obtain ⟨h', hh'⟩ := Option.isSome_iff_exists.1 hs
  have := h inhLayout inhHeap 0 args hnd hn 4 h' hh' 2 "g"
    (Relation.ReflTransGen.single ⟨"B", by decide, by decide +kernel⟩) (by decide)
  have h2 : ((unwrapAll inhLayout 4 (wrapAll inhLayout args 1 "m" inhHeap 0).1.heap 0).bind fun h' =>
      attr inhLayout h' 2 "g") ≠ attr inhLayout inhHeap 2 "g" := by decide +kernel
  rw [hh'] at h2
  exact h2 this

/-- Does reading the attribute through an instance bind the instance as first argument? -/
def bindsSelf : Slot → Bool
  | .val (.func _) => true
  | .val (.wrapped ..) => true
  | _ => false

/-- Class 0 with a static method. -/
def staticHeap : Heap
  | 0 => fun | "s" => some (.static (.func 1)) | _ => none
  | _ => fun _ => none
/-- Its layout. -/
def staticLayout : Layout where
  dir | 0 => ["s"] | _ => []
  mro _ := []
  frozen _ := false

/-- **C62 is false of the code (2)**: a static method comes back as a plain function, so that calling it through
an instance passes the instance, which it did not before. -/
theorem static_method_violated :
    (staticHeap 0 "s").map bindsSelf = some false ∧
    ((unwrapAll staticLayout 3 (wrapAll staticLayout args 1 "C" staticHeap 0).1.heap 0).bind fun h' => h' 0 "s").map
      bindsSelf = some true := by decide +kernel

/-- Module 0 shows classes `A` (1) and `B` (2); `A` shows `B`, and `B` shows `D` (3), which has a function. -/
def deepHeap : Heap
  | 0 => fun | "A" => some (.val (.cls 1)) | "B" => some (.val (.cls 2)) | _ => none
  | 1 => fun | "B" => some (.val (.cls 2)) | _ => none
  | 2 => fun | "D" => some (.val (.cls 3)) | _ => none
  | 3 => fun | "g" => some (.val (.func 1)) | _ => none
  | _ => fun _ => none
/-- Its layout. -/
def deepLayout : Layout where
  dir | 0 => ["A", "B"] | 1 => ["B"] | 2 => ["D"] | 3 => ["g"] | _ => []
  mro _ := []
  frozen _ := false

/-- **C62 is false of the code (3)**: `m.B.D.g` is within depth 2 of `m`, but `wrap_all` comes to `B` by way of
`A` first, with no depth left to follow `D`, and does not come back. -/
theorem wrap_all_depth_violated :
    Path deepLayout args.skip deepHeap 0 "m" 2 "m.B.D" 3 ∧ IsFunction deepLayout args.skip deepHeap 3 "g" ∧
    (wrapAll deepLayout args 2 "m" deepHeap 0).2 = false ∧
    attr deepLayout (wrapAll deepLayout args 2 "m" deepHeap 0).1.heap 3 "g" = some (.func 1) := by
  refine ⟨?_, ⟨by decide, by decide, .func 1, by decide +kernel, rfl⟩, by decide +kernel, by decide +kernel⟩
  have h1 : Path deepLayout args.skip deepHeap 0 "m" 1 ("m" ++ "." ++ "B") 2 :=
    .step .here (by decide) (by decide) (by decide +kernel)
  have h2 : Path deepLayout args.skip deepHeap 0 "m" 2 ("m" ++ "." ++ "B" ++ "." ++ "D") 3 :=
    .step h1 (by decide) (by decide) (by decide +kernel)
  have h3 : "m" ++ "." ++ "B" ++ "." ++ "D" = "m.B.D" := by decide +kernel
  rwa [h3] at h2

end Demo
end Verif.Wrapping
