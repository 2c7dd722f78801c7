import Verif.Spec.WrapDepth
import Verif.Props.WrapAll
import Mathlib.Data.List.Perm.Subperm
/-!
# wrap_all at any depth (C62)
-/
namespace Verif.Wrapping

section
variable {L : Layout} {h0 : Heap} {t : Oid}

/-- Going over the names one by one. -/
theorem wrapNames_cons (c : WrapAllArgs) (rec : Option (Oid → String → WState → WState × Bool)) (o : Oid) (lb : String)
    (n : String) (ns : List String) (s : WState) :
    wrapNames L c rec o lb (n :: ns) s =
      if (wrapNames L c rec o lb [n] s).2 then wrapNames L c rec o lb [n] s
      else wrapNames L c rec o lb ns (wrapNames L c rec o lb [n] s).1 := by
  simp only [wrapNames]
  split
  · rfl
  · cases ha : attr L s.heap o n with
    | none => rfl
    | some v =>
      cases v with
      | plain => rfl
      | cls k =>
        cases rec with
        | none => rfl
        | some r =>
          dsimp only
          split
          · rfl
          · rcases hr : r k (lb ++ "." ++ n) { s with seen := k :: s.seen } with ⟨s', b⟩
            cases b <;> rfl
      | _ =>
        dsimp only
        split
        · split
          · split <;> rfl
          · rfl
        · rfl

/-- The classes that are attributes of `o` under names not skipped have been met. -/
def KidsSeen (L : Layout) (skip : String → Bool) (h0 : Heap) (o : Oid) (seen : List Oid) : Prop :=
  ∀ m ∈ L.dir o, skip m = false → ∀ k, attr L h0 o m = some (.cls k) → k ∈ seen

/-- From `s` to `s'`: of the newly met classes closer than `D` all classes have been met. -/
def Closed (L : Layout) (skip : String → Bool) (h0 : Heap) (t : Oid) (D : Nat) (s s' : WState) : Prop :=
  (∀ k ∈ s.seen, k ∈ s'.seen) ∧
  ∀ k ∈ s'.seen, k ∉ s.seen → k ≠ t → (∃ vs, Way L skip h0 t vs k ∧ vs.length < D) → KidsSeen L skip h0 k s'.seen

theorem KidsSeen.mono {skip : String → Bool} {o : Oid} {a b : List Oid} (h : KidsSeen L skip h0 o a)
    (hab : ∀ k ∈ a, k ∈ b) : KidsSeen L skip h0 o b := fun m hm hs k hk => hab k (h m hm hs k hk)

theorem Closed.refl {skip : String → Bool} {D : Nat} (s : WState) : Closed L skip h0 t D s s :=
  ⟨fun _ h => h, fun _ h h' => absurd h h'⟩

theorem Closed.trans {skip : String → Bool} {D : Nat} {s s' s'' : WState} (h : Closed L skip h0 t D s s')
    (h' : Closed L skip h0 t D s' s'') : Closed L skip h0 t D s s'' := by
  refine ⟨fun k hk => h'.1 k (h.1 k hk), fun k hk hks hkt hw => ?_⟩
  by_cases hm : k ∈ s'.seen
  · exact (h.2 k hm hks hkt hw).mono h'.1
  · exact h'.2 k hk hm hkt hw

theorem wrapSub_closed {c : WrapAllArgs} (hen : c.enable = true) (hf : Frame L c.skip h0 t)
    (hnd : ∀ o, (L.dir o).Nodup) (lb0 : String) (D : Nat) (hl : NoDetour L c.skip h0 t D) (r : Nat) :
    ∀ d, d + r = D → ∀ o lb s K vs, Path L c.skip h0 t lb0 d lb o → Way L c.skip h0 t vs o → vs.length = d →
      (∀ v ∈ vs, v ∈ s.seen) → LInv L c.skip h0 t s.heap K → (wrapSub L c r o lb s).2 = false →
      Closed L c.skip h0 t D s (wrapSub L c r o lb s).1 ∧
      (o ≠ t → (∃ vs, Way L c.skip h0 t vs o ∧ vs.length < D) → KidsSeen L c.skip h0 o (wrapSub L c r o lb s).1.seen) := by
  induction r with
  | zero =>
    intro d hd o lb s K vs hp hv hvl hvs hi hb
    refine ⟨?_, ?_⟩
    · have : ∀ ns s, (wrapNames L c none o lb ns s).1.seen = s.seen := by
        intro ns
        induction ns with
        | nil => intro s; rfl
        | cons n ns ih =>
          intro s
          simp only [wrapNames]
          repeat' split
          all_goals first | rfl | exact ih _ | (rw [ih])
      have h := this (L.dir o) s
      rw [← wrapSub] at h
      exact ⟨fun k hk => by rw [h]; exact hk, fun k hk hk' => absurd (h ▸ hk) hk'⟩
    · rintro hot ⟨vs', hv', hl'⟩
      have := hl o vs vs' hot hv hv' (by omega)
      omega
  | succ r ih =>
    intro d hd o lb s K vs hp hv hvl hvs hi hb
    have hrec : ∀ r', some (wrapSub L c r) = some r' → d < D ∧ ∀ o lb s K, Path L c.skip h0 t lb0 (d + 1) lb o →
        LInv L c.skip h0 t s.heap K →
        ∃ K' b, WDone (L := L) (h0 := h0) (t := t) c lb0 D K o (L.dir o) s (r' o lb s).1 (r' o lb s).2 b K' := by
      rintro r' ⟨⟩
      refine ⟨by omega, fun o lb s K hp hi => ?_⟩
      obtain ⟨K', h⟩ := wrapSub_done hen hf hnd lb0 D r (d + 1) (by omega) o lb s K hp hi
      exact ⟨K', _, h⟩
    refine ⟨?_, ?_⟩
    · have main : ∀ ns, (∀ n ∈ ns, n ∈ L.dir o) → ∀ s K, (∀ v ∈ vs, v ∈ s.seen) → LInv L c.skip h0 t s.heap K →
          (wrapNames L c (some (wrapSub L c r)) o lb ns s).2 = false →
          Closed L c.skip h0 t D s (wrapNames L c (some (wrapSub L c r)) o lb ns s).1 := by
        intro ns
        induction ns with
        | nil => intro _ s K _ _ _; exact .refl s
        | cons n ns ihn =>
          intro hns s K hvs hi hb
          rw [wrapNames_cons] at hb ⊢
          split at hb
          · rename_i h; rw [h] at hb; cases hb
          rename_i hn
          rw [if_neg hn]
          obtain ⟨K1, d1⟩ := wrapNames_done hen hf lb0 D d (by omega) _ hrec o lb hp [n]
            (fun m hm => hns m (by simp_all)) (by simp) s K hi
          have one : Closed L c.skip h0 t D s (wrapNames L c (some (wrapSub L c r)) o lb [n] s).1 := by
            clear ihn d1 hb
            simp only [wrapNames] at hn ⊢
            split
            · exact .refl s
            rename_i hsk
            rw [if_neg hsk] at hn
            cases ha : attr L s.heap o n with
            | none => exact .refl s
            | some v =>
              rw [ha] at hn
              cases v with
              | plain => exact .refl s
              | cls k =>
                dsimp only at hn ⊢
                split
                · exact .refl s
                rename_i hks
                rw [if_neg hks] at hn
                have hd' : n ∈ L.dir o := hns n (by simp)
                have hc0 := hi.cls hp.within hd' ha
                have hsk' : c.skip n = false := by simpa using hsk
                have hkv : k ∉ vs := fun h => hks (hvs k h)
                have hx := ih (d + 1) (by omega) k (lb ++ "." ++ n) { s with seen := k :: s.seen } K (k :: vs)
                  (.step hp hd' hsk' hc0) (.step hv hd' hsk' hc0 hkv) (by simp [hvl])
                  (by
                    intro v hv
                    rcases List.mem_cons.1 hv with rfl | hv
                    · simp
                    · simp [hvs v hv]) hi
                rcases hr : wrapSub L c r k (lb ++ "." ++ n) { s with seen := k :: s.seen } with ⟨s', b⟩
                rw [hr] at hx hn
                cases b with
                | true => simp at hn
                | false =>
                  dsimp only at hx ⊢
                  obtain ⟨hx1, hx2⟩ := hx rfl
                  refine ⟨fun p hp => hx1.1 p (by simp [hp]), fun p hp hps hpt hw => ?_⟩
                  by_cases hpk : p = k
                  · subst hpk; exact hx2 hpt hw
                  · exact hx1.2 p hp (by simp [hpk, hps]) hpt hw
              | _ =>
                dsimp only
                split
                · split
                  · split <;> exact .refl s
                  · exact ⟨fun _ h => h, fun _ h h' => absurd h h'⟩
                · exact .refl s
          exact one.trans (ihn (fun m hm => hns m (by simp [hm])) _ K1 (fun v hv => d1.mono v (hvs v hv)) d1.inv hb)
      exact main _ (fun _ h => h) s K hvs hi hb
    · intro _ _
      obtain ⟨K', h⟩ := wrapSub_done hen hf hnd lb0 D (r + 1) d hd o lb s K hp hi
      exact h.kids hb (by simp)

theorem Way.part {skip : String → Bool} {vs : List Oid} {o k : Oid} (h : Way L skip h0 t vs o) (hk : k ∈ vs) :
    ∃ vs', Way L skip h0 t vs' k ∧ vs'.length ≤ vs.length := by
  induction h with
  | here => cases hk
  | @step vs o c n hw hd hs ha hc ih =>
    rcases List.mem_cons.1 hk with rfl | hk
    · exact ⟨_, .step hw hd hs ha hc, Nat.le_refl _⟩
    · obtain ⟨vs', h1, h2⟩ := ih hk
      exact ⟨vs', h1, by simp; omega⟩

/-- Without the loops a path is a way. -/
theorem Path.way {skip : String → Bool} {lb0 lb : String} {d : Nat} {o : Oid} (h : Path L skip h0 t lb0 d lb o) :
    ∃ vs, Way L skip h0 t vs o ∧ vs.length ≤ d := by
  induction h with
  | here => exact ⟨[], .here, Nat.le_refl _⟩
  | @step d lb o c n hp hd hs ha ih =>
    obtain ⟨vs, h1, h2⟩ := ih
    by_cases hc : c ∈ vs
    · obtain ⟨vs', h3, h4⟩ := h1.part hc
      exact ⟨vs', h3, by omega⟩
    · exact ⟨_, .step h1 hd hs ha hc, by simp; omega⟩

/-- **C62, completeness at any depth.**  If nothing within the depth is first met at the end of a detour and `wrap_all`
returns, then every function within the depth that is not skipped and can be wrapped is wrapped, and its name is in the list
returned. -/
theorem C62_complete_partial (c : WrapAllArgs) (hen : c.enable = true) (hnd : ∀ o, (L.dir o).Nodup)
    (hshape : OwnFunctions L c.skip h0 t ∨ NoInheritance L h0 t) (depth : Int) (label : String)
    (hl : NoDetour L c.skip h0 t depth.toNat)
    (hret : (wrapAll L c depth label h0 t).2 = false) (o : Oid) (d : Nat) (lb : String) (hd : d ≤ depth.toNat)
    (ho : Path L c.skip h0 t label d lb o)
    (n : String) (hn : IsFunction L c.skip h0 o n) (hfz : L.frozen o = false)
    (hcan : ∀ v, attr L h0 o n = some v → c.cannot v = false) :
    (∃ a l v, attr L (wrapAll L c depth label h0 t).1.heap o n = some (.wrapped a l v)) ∧
    ∃ d lb, d ≤ depth.toNat ∧ Path L c.skip h0 t label d lb o ∧
      lb ++ "." ++ n ∈ (wrapAll L c depth label h0 t).1.ret := by
  have hf : Frame L c.skip h0 t := by
    rcases hshape with h | h
    · exact h.frame
    · exact h.frame
  obtain ⟨K, w⟩ := wrapSub_done hen hf hnd label depth.toNat depth.toNat 0 (by omega) t label ⟨h0, [], []⟩ _ .here
    LInv.init
  obtain ⟨cl, _⟩ := wrapSub_closed hen hf hnd label depth.toNat hl depth.toNat 0 (by omega) t label ⟨h0, [], []⟩ _ []
    .here .here rfl (by simp) LInv.init hret
  have seen : ∀ d lb k, d ≤ depth.toNat → Path L c.skip h0 t label d lb k →
      k = t ∨ k ∈ (wrapSub L c depth.toNat t label ⟨h0, [], []⟩).1.seen := by
    intro d lb k hd hp
    induction hp with
    | here => exact .inl rfl
    | @step d lb o k m hp hm hs ha ih =>
      right
      by_cases hot : o = t
      · subst hot
        exact w.kids hret (by simp; omega) m hm hs k ha
      · rcases ih (by omega) with h | h
        · exact absurd h hot
        · obtain ⟨vs, h1, h2⟩ := hp.way
          exact cl.2 o h (by simp) hot ⟨vs, h1, by omega⟩ m hm hs k ha
  have hcw : CanWrap (L := L) (h0 := h0) c o n := ⟨hn, hfz, hcan⟩
  have hk : K o n ≠ 0 := by
    rcases seen d lb o hd ho with rfl | h
    · exact w.all hret n hn.1 hcw
    · exact w.allSeen hret o h (by simp) n hcw
  refine ⟨?_, w.grown o n hk⟩
  rcases w.inv.level o n ho.within hn.1 with ⟨v, v0, h1, h2, h3, _⟩ | ⟨_, _, h3⟩
  · generalize K o n = k at h3 hk
    cases h3 with
    | zero => exact absurd rfl hk
    | succ a l h => exact ⟨a, l, _, h1⟩
  · exact absurd h3 hk

theorem Way.nodup {skip : String → Bool} {vs : List Oid} {o : Oid} (h : Way L skip h0 t vs o) :
    vs.Nodup ∧ ∀ v ∈ vs, Within L h0 t v := by
  have hw : ∀ {vs o}, Way L skip h0 t vs o → Within L h0 t o := by
    intro vs o h
    induction h with
    | here => exact Relation.ReflTransGen.refl
    | step _ hd _ ha _ ih => exact ih.child ⟨_, hd, ha⟩
  induction h with
  | here => simp
  | @step vs o c n h1 hd hs ha hc ih =>
    refine ⟨List.nodup_cons.2 ⟨hc, ih.1⟩, fun v hv => ?_⟩
    rcases List.mem_cons.1 hv with rfl | hv
    · exact hw (.step h1 hd hs ha hc)
    · exact ih.2 v hv

/-- With a depth beyond the number of objects in sight there are no detours to speak of. -/
theorem noDetour_of_deep {skip : String → Bool} (univ : List Oid) (huniv : ∀ k, Within L h0 t k → k ∈ univ) (depth : Nat)
    (h : univ.length < depth) : NoDetour L skip h0 t depth := by
  intro k vs vs' _ hv _ hl
  obtain ⟨h1, h2⟩ := hv.nodup
  have := (List.subperm_of_subset h1 fun v hv => huniv v (h2 v hv)).length_le
  omega

/-- **C62, completeness with a large depth.**  If the depth is larger than the number of objects in sight and `wrap_all`
returns, then every function in sight by names not skipped that is not skipped and can be wrapped is wrapped, and its name is
in the list returned. -/
theorem C62_deep_partial (c : WrapAllArgs) (hen : c.enable = true) (hnd : ∀ o, (L.dir o).Nodup)
    (hshape : OwnFunctions L c.skip h0 t ∨ NoInheritance L h0 t) (depth : Int) (label : String)
    (univ : List Oid) (huniv : ∀ k, Within L h0 t k → k ∈ univ) (hdeep : univ.length < depth.toNat)
    (hret : (wrapAll L c depth label h0 t).2 = false) (o : Oid) (d : Nat) (lb : String)
    (ho : Path L c.skip h0 t label d lb o)
    (n : String) (hn : IsFunction L c.skip h0 o n) (hfz : L.frozen o = false)
    (hcan : ∀ v, attr L h0 o n = some v → c.cannot v = false) :
    (∃ a l v, attr L (wrapAll L c depth label h0 t).1.heap o n = some (.wrapped a l v)) ∧
    ∃ d lb, d ≤ depth.toNat ∧ Path L c.skip h0 t label d lb o ∧
      lb ++ "." ++ n ∈ (wrapAll L c depth label h0 t).1.ret := by
  obtain ⟨vs, h1, h2⟩ := ho.way
  have hle : vs.length ≤ univ.length := by
    obtain ⟨h3, h4⟩ := h1.nodup
    exact (List.subperm_of_subset h3 fun v hv => huniv v (h4 v hv)).length_le
  have path : ∀ {vs o}, Way L c.skip h0 t vs o → ∃ lb, Path L c.skip h0 t label vs.length lb o := by
    intro vs o h
    induction h with
    | here => exact ⟨label, .here⟩
    | step _ hd hs ha _ ih =>
      obtain ⟨lb, hp⟩ := ih
      exact ⟨_, .step hp hd hs ha⟩
  obtain ⟨lb', hp⟩ := path h1
  exact C62_complete_partial c hen hnd hshape depth label (noDetour_of_deep univ huniv _ hdeep) hret o _ lb' (by omega) hp n hn
    hfz hcan

end

namespace Demo

/-- Everything in the module of two classes that refer to each other. -/
example := C62_deep_partial args rfl plain_nodup (.inl plain_own) 4 "m" [0, 1, 2] (fun _ => plain_within) (by decide)
  (by decide +kernel) 0 0 "m" .here

/-- From class `A` on there is one way to each class. -/
theorem deep_ways {vs : List Oid} {k : Oid} (h : Way deepLayout args.skip deepHeap 1 vs k) :
    (vs, k) ∈ [([], 1), ([2], 2), ([3, 2], 3)] := by
  induction h with
  | here => simp
  | @step vs o c n _ hn _ ha _ ih =>
    have next : ∀ x ∈ [([], 1), ([2], 2), ([3, 2], 3)], ∀ n ∈ deepLayout.dir x.2,
        (match attr deepLayout deepHeap x.2 n with
          | some (.cls c) => decide ((c :: x.1, c) ∈ ([([], 1), ([2], 2), ([3, 2], 3)] : List (List Oid × Oid)))
          | _ => true) = true := by decide +kernel
    have := next (vs, o) ih n hn
    rw [ha] at this
    simpa using this

theorem deep_noDetour : NoDetour deepLayout args.skip deepHeap 1 2 := by
  intro k vs vs' _ h h' hl
  have h := deep_ways h
  have h' := deep_ways h'
  simp only [List.mem_cons, Prod.mk.injEq, List.not_mem_nil, or_false] at h h'
  rcases h with ⟨rfl, rfl⟩ | ⟨rfl, rfl⟩ | ⟨rfl, rfl⟩ <;> simp at hl
  rcases h' with ⟨rfl, h⟩ | ⟨rfl, h⟩ | ⟨rfl, h⟩ <;> simp_all

/-- `A.B.D.g`, two steps from `A`, is wrapped. -/
example : ∃ a l v, attr deepLayout (wrapAll deepLayout args 2 "A" deepHeap 1).1.heap 3 "g" = some (.wrapped a l v) :=
  (C62_complete_partial args rfl (fun o => by simp only [deepLayout]; split <;> decide)
    (.inr fun _ _ _ hp => by cases hp) 2 "A" deep_noDetour (by decide +kernel) 3 2 _ (by decide)
    (.step (o := 2) (.step .here (n := "B") (by decide) (by decide) (by decide +kernel)) (n := "D") (by decide) (by decide)
      (by decide +kernel)) "g" ⟨by decide, by decide, .func 1, by decide +kernel, rfl⟩ rfl (by simp [args])).1

end Demo
end Verif.Wrapping
