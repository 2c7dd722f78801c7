import Verif.Lemmas.EndPub
/-!
# The life of one action over a history
-/
namespace Verif
attribute [local irreducible] QUEUE_LIMIT

namespace Dict
theorem update_append (d x y : Dict) : d.update (x ++ y) = (d.update x).update y := by
  simp [update]
theorem get?_set (d : Dict) (k k' : String) (v : Val) :
    (d.set k' v).get? k = if k' = k then some v else d.get? k := by
  induction d with
  | nil => simp [set, get?]
  | cons p r ih =>
    obtain ⟨k1, v1⟩ := p
    simp only [set]
    split
    · rename_i h; subst h
      simp only [get?]; split <;> rfl
    · rename_i h
      simp only [get?]
      split
      · rename_i h1; subst h1; rw [if_neg (fun h' => h h'.symm)]
      · exact ih
theorem get?_update (d ws : Dict) (k : String) :
    (d.update ws).get? k = (lastWrite k ws).or (d.get? k) := by
  induction ws generalizing d with
  | nil => rfl
  | cons p r ih =>
    show ((d.set p.1 p.2).update r).get? k = _
    rw [ih, get?_set]
    simp only [lastWrite, List.filter_cons]
    by_cases hp : p.1 = k
    · simp only [hp, if_true, decide_true, List.getLast?_cons]
      cases (List.filter (fun p => decide (p.1 = k)) r).getLast? <;> simp
    · simp [hp]
theorem get?_erase (d : Dict) (k k' : String) :
    (d.erase k').get? k = if k = k' then none else d.get? k := by
  induction d with
  | nil => simp [erase, get?]
  | cons p r ih =>
    obtain ⟨k1, v1⟩ := p
    simp only [erase, List.filter_cons] at ih ⊢
    by_cases h : k1 = k'
    · subst h
      simp only [ne_eq, not_true_eq_false, decide_false, Bool.false_eq_true, if_false]
      rw [ih]
      by_cases hk : k = k1
      · simp [hk]
      · simp [hk, get?, Ne.symm hk]
    · simp only [ne_eq, h, not_false_eq_true, decide_true, if_true, get?]
      rw [ih]
      by_cases hk : k1 = k
      · subst hk; simp [h]
      · simp [hk]
end Dict

/-- The time stamps of an action are sound. -/
structure TimeOK (env : Env) (w : World) (x : Act) : Prop where
  begun : ∀ b, x.beginEv = some b → ∃ n, n < w.ticks ∧ b.etime = env.clock n
  ordered : ∀ b e, x.beginEv = some b → x.endEv = some e →
    (∀ i j, i ≤ j → env.clock i ≤ env.clock j) → b.etime ≤ e.etime
  plain : ∀ b e, x.beginEv = some b → x.endEv = some e → x.isTrans = false → e.etime = b.etime
  past : ∀ e, x.endEv = some e → ∃ n, n < w.ticks ∧ e.etime = env.clock n

/-- What a history did to an action. -/
structure LifeRec (env : Env) (w w' : World) (a : ActId) (x x' : Act) (its : List Item) : Prop where
  fixed : x'.fixed = x.fixed
  warns : ∃ news, x'.warnEvs = x.warnEvs ++ news ∧
    news.map (fun e => (e.msg, e.fargs)) = its.flatMap (·.warnsOn a)
  data : (∀ it ∈ its, it.isExceptionOn a = false) → x'.data = x.data.update (its.flatMap (·.writesOn a))
  dataCalm : env.Calm → x'.data = x.data.update (its.flatMap (·.writesOn a))
  status : env.Calm → x'.status = its.foldl (fun st it => it.statusOn a st) x.status
  time : TimeOK env w x → TimeOK env w' x'
  trans : x'.isTrans = true ↔ x.isTrans = true ∨ .enter a ∈ its
  beginKeep : ∀ b, x.beginEv = some b → x'.beginEv = some b
  ticks : w.ticks ≤ w'.ticks

theorem LifeRec.refl (env : Env) (w : World) (a : ActId) (x : Act) : LifeRec env w w a x x [] :=
  ⟨rfl, ⟨[], by simp, rfl⟩, fun _ => rfl, fun _ => rfl, fun _ => rfl, id, by simp,
    fun _ h => h, Nat.le_refl _⟩

theorem Act.fixed_handle {x y : Act} (h : y.fixed = x.fixed) : y.handle = x.handle := by
  simp only [Act.fixed, Prod.mk.injEq] at h; exact h.2.2.2.2.2

theorem life_item {env : Env} (hno : env.NeedsExc) {w : World} (hr : Reachable env w) {a : ActId} {x : Act}
    (hx : w.acts a = some x) (hh : x.handle = true) (it : Item) :
    ∃ x', (stepItem env w it).acts a = some x' ∧ LifeRec env w (stepItem env w it) a x x' [it] := by
  have hend : ∀ e, x.endEv = some e → e.status ≠ .begin := by
    intro e he
    have := (hr.evInv.endKind a x e hx he).2.1
    rcases this with h | h | h <;> rw [h] <;> decide
  have htr := hr.transOK a x hx
  obtain ⟨x', h0, h1⟩ := rec_item hno hx hh hr.idInv.fresh htr hend it
  obtain ⟨y, g0, g1⟩ := ends_item (env := env) hx hh hr.idInv.fresh htr hr.evInv it
  rw [h0] at g0; cases g0
  have htrans : x'.isTrans = true ↔ x.isTrans = true ∨ it = .enter a := by
    rw [g1.trans]
    cases it with
    | enter b =>
      simp only [Item.prep]
      split
      · rename_i h; simp [h]
      · rename_i h; simp [h]
    | exit b e =>
      simp only [Item.prep]
      split <;> simp
    | op o => simp [Item.prep]
  refine ⟨x', h0, h1.fixed, by simpa using h1.warns, ?_, ?_, ?_, ?_, ?_, h1.beginKeep, h1.ticks⟩
  · intro h; simpa using h1.data (h it (by simp))
  · intro h; simpa using h1.dataCalm h
  · intro h; simpa using h1.statusCalm h
  · intro ht
    have hbegun : ∀ b, x'.beginEv = some b → ∃ n, n < (stepItem env w it).ticks ∧ b.etime = env.clock n := by
      intro b hb
      rcases h1.begun b hb with h | ⟨n, _, h2, h3⟩
      · obtain ⟨n, hn, hn'⟩ := ht.begun b h
        exact ⟨n, Nat.lt_of_lt_of_le hn h1.ticks, hn'⟩
      · exact ⟨n, h2, h3⟩
    refine ⟨hbegun, ?_, ?_, ?_⟩
    · intro b e hb he hmono
      rcases h1.ended e he with h | ⟨b', hb', h | ⟨_, h, n, hn, _, hn'⟩⟩
      · have hbs := (hr.evInv.endKind a x e hx h).2.2
        obtain ⟨b0, hb0⟩ := Option.isSome_iff_exists.1 hbs
        have := h1.beginKeep b0 hb0
        rw [hb] at this; cases this
        exact ht.ordered b e hb0 h hmono
      · rw [hb] at hb'; cases hb'; omega
      · rw [hb] at hb'; cases hb'
        obtain ⟨n', hn1, hn2⟩ := ht.begun b h
        rw [hn2, hn']
        exact hmono _ _ (by omega)
    · intro b e hb he htf
      rcases h1.ended e he with h | ⟨b', hb', h | ⟨ht', _⟩⟩
      · have hbs := (hr.evInv.endKind a x e hx h).2.2
        obtain ⟨b0, hb0⟩ := Option.isSome_iff_exists.1 hbs
        have := h1.beginKeep b0 hb0
        rw [hb] at this; cases this
        refine ht.plain b e hb0 h ?_
        cases hxt : x.isTrans with
        | false => rfl
        | true => rw [htrans.2 (.inl hxt)] at htf; cases htf
      · rw [hb] at hb'; cases hb'; exact h
      · rw [ht'] at htf; cases htf
    · intro e he
      rcases h1.ended e he with h | ⟨b', hb', h | ⟨_, _, n, _, hn, hn'⟩⟩
      · obtain ⟨n, hn, hn'⟩ := ht.past e h
        exact ⟨n, Nat.lt_of_lt_of_le hn h1.ticks, hn'⟩
      · rw [h]; exact hbegun b' hb'
      · exact ⟨n, hn, hn'⟩
  · rw [htrans, List.mem_singleton, @eq_comm _ (Item.enter a)]

theorem life_run {env : Env} (hno : env.NeedsExc) {w : World} (hr : Reachable env w) {a : ActId} {x : Act}
    (hx : w.acts a = some x) (hh : x.handle = true) (its : List Item) :
    ∃ x', (run env w its).acts a = some x' ∧ LifeRec env w (run env w its) a x x' its := by
  induction its generalizing w x with
  | nil => exact ⟨x, hx, .refl ..⟩
  | cons it its ih =>
    obtain ⟨y, hy, h1⟩ := life_item hno hr hx hh it
    obtain ⟨z, hz, h2⟩ := ih (hr.item it) hy ((Act.fixed_handle h1.fixed).trans hh)
    refine ⟨z, hz, h2.fixed.trans h1.fixed, ?_, ?_, ?_, ?_, h2.time ∘ h1.time, ?_,
      fun b hb => h2.beginKeep b (h1.beginKeep b hb), Nat.le_trans h1.ticks h2.ticks⟩
    · obtain ⟨n1, a1, a2⟩ := h1.warns
      obtain ⟨n2, b1, b2⟩ := h2.warns
      exact ⟨n1 ++ n2, by rw [b1, a1, List.append_assoc], by simp_all⟩
    · intro h
      rw [h2.data (fun i hi => h i (by simp [hi])), h1.data (by simpa using h it (by simp))]
      rw [← Dict.update_append]; simp
    · intro h
      rw [h2.dataCalm h, h1.dataCalm h, ← Dict.update_append]; simp
    · intro h
      rw [h2.status h, h1.status h]; rfl
    · rw [h2.trans, h1.trans]; simp [or_assoc]

/-- A freshly made action. -/
theorem newAction_spec {env : Env} {w : World} {l : LogId} {L : Log} (hL : w.logs l = some L)
    (lv : Int) (nm : String) (kw : Dict) :
    ∃ x, (step env w (.newAction l lv nm kw)).1.acts w.nextId = some x ∧
      (step env w (.newAction l lv nm kw)).2 = .newAct w.nextId ∧
      x.handle = true ∧ x.logger = l ∧ x.level = lv ∧ x.name = nm ∧ x.beginEv = none ∧ x.endEv = none ∧
      x.warnEvs = [] ∧ x.isTrans = false ∧ x.defer = false ∧
      x.parent = initParent w l kw ∧
      x.data = (kw.erase "reraise").erase "parent_action" := by
  simp only [step, hL, newAction]
  exact ⟨_, setAct_same .., trivial, rfl, rfl, rfl, rfl, rfl, rfl, rfl, rfl, rfl, rfl, rfl⟩

end Verif
