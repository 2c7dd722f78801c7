import Verif.Lemmas.Calls
import Verif.Lemmas.Life
import Mathlib.Data.List.Perm.Subperm
/-!
# A sink receives no more than was published
-/
namespace Verif
attribute [local irreducible] QUEUE_LIMIT

theorem Reachable.got_count {env : Env} {w : World} (h : Reachable env w) (s : SinkId) {k : Kind}
    (hk : k ≠ .exception) (a : ActId) (e : Event) :
    (got s k a w.trace).count e ≤ (pubsOf w.pub k a).count e := by
  rw [got_eq]
  by_cases he : e.act = a
  · subst he
    rw [count_pubsOf, count_pubsOf]
    have hc := h.countInv s e.logger (k, e)
    rw [List.count_append] at hc
    have h1 : (ofLogger e.logger (received s w.del.trace)).count (k, e) =
        (received s w.trace).count (k, e) := by
      simp only [ofLogger]; rw [List.count_filter (by simp [hk])]; rfl
    have h2 : (ofLogger e.logger w.del.pub).count (k, e) = w.pub.count (k, e) := by
      simp only [ofLogger]; rw [List.count_filter (by simp [hk])]; rfl
    omega
  · rw [List.count_eq_zero.2]
    · omega
    · intro hm; exact he (mem_pubsOf.1 hm).2

theorem Reachable.got_le {env : Env} {w : World} (h : Reachable env w) (s : SinkId) {k : Kind}
    (hk : k ≠ .exception) (a : ActId) : (got s k a w.trace).length ≤ (pubsOf w.pub k a).length := by
  refine List.Subperm.length_le (List.subperm_ext_iff.2 fun e _ => ?_)
  exact h.got_count s hk a e

theorem new_inv {env : Env} {w w0 : World} {l : LogId} {lv : Int} {nm : String} {kw : Dict} {a : ActId}
    (h : step env w (.newAction l lv nm kw) = (w0, .newAct a)) :
    (∃ L, w.logs l = some L) ∧ a = w.nextId ∧ w0 = (step env w (.newAction l lv nm kw)).1 := by
  have h1 : w0 = (step env w (.newAction l lv nm kw)).1 := by rw [h]
  cases hL : w.logs l with
  | none => simp [step, hL] at h
  | some L =>
    obtain ⟨x, _, h3, _⟩ := newAction_spec (env := env) hL lv nm kw
    rw [h] at h3
    simp only [Res.newAct.injEq] at h3
    exact ⟨⟨L, rfl⟩, h3, h1⟩

/-- The action just made. -/
structure IsNew (env : Env) (w w0 : World) (l : LogId) (lv : Int) (nm : String) (kw : Dict) (a : ActId)
    (x : Act) : Prop where
  reach : Reachable env w0
  acts : w0.acts a = some x
  handle : x.handle = true
  logger : x.logger = l
  beginEv : x.beginEv = none
  endEv : x.endEv = none
  warnEvs : x.warnEvs = []
  isTrans : x.isTrans = false
  defer : x.defer = false
  parent : x.parent = initParent w l kw
  data : x.data = (kw.erase "reraise").erase "parent_action"

theorem Reachable.isNew {env : Env} {w w0 : World} {l : LogId} {lv : Int} {nm : String} {kw : Dict} {a : ActId}
    (hr : Reachable env w) (h : Verif.step env w (.newAction l lv nm kw) = (w0, .newAct a)) :
    ∃ x, IsNew env w w0 l lv nm kw a x := by
  obtain ⟨⟨L, hL⟩, rfl, rfl⟩ := new_inv h
  obtain ⟨x, h1, _, h2, h3, _, _, h6, h7, h8, h9, h10, h11, h12⟩ := newAction_spec (env := env) hL lv nm kw
  exact ⟨x, hr.step _, h1, h2, h3, h6, h7, h8, h9, h10, h11, h12⟩

theorem IsNew.time {env : Env} {w w0 : World} {l : LogId} {lv : Int} {nm : String} {kw : Dict} {a : ActId}
    {x : Act} (h : IsNew env w w0 l lv nm kw a x) : TimeOK env w0 x :=
  ⟨by simp [h.beginEv], by simp [h.beginEv], by simp [h.beginEv], by simp [h.endEv]⟩

theorem foldl_lastStatus (a : ActId) (its : List Item) (h : ∀ it ∈ its, ∀ e, it ≠ .exit a e) (st : Status) :
    its.foldl (fun st it => it.statusOn a st) st = (lastStatus a its).getD st := by
  induction its generalizing st with
  | nil => rfl
  | cons it its ih =>
    rw [List.foldl_cons, ih (fun i hi => h i (by simp [hi]))]
    have hx : it.statusOn a st = (it.statusCall a).getD st := by
      cases it with
      | enter b => rfl
      | exit b e =>
        have hb : b ≠ a := by rintro rfl; exact h _ (by simp) e rfl
        cases e <;> simp [Item.statusOn, Item.statusCall, hb]
      | op o =>
        cases o with
        | success b => simp only [Item.statusOn, Item.statusCall]; split <;> rfl
        | failure b => simp only [Item.statusOn, Item.statusCall]; split <;> rfl
        | exception b c =>
          cases c <;> simp only [Item.statusOn, Item.statusCall]
          · rfl
          · split <;> rfl
        | _ => rfl
    rw [hx]
    simp only [lastStatus, List.filterMap_cons]
    cases it.statusCall a with
    | none => rfl
    | some s => simp only [Option.getD_some, List.getLast?_cons]

/-- Publications of end events over a history. -/
theorem ends_run {env : Env} {w : World} (hr : Reachable env w) {a : ActId} {x : Act}
    (hx : w.acts a = some x) (hh : x.handle = true) (its : List Item) :
    (pubsOf (run env w its).pub .end_ a).length ≤
      (pubsOf w.pub .end_ a).length + (its.filter (·.ends a)).length := by
  induction its generalizing w x with
  | nil => simp [run]
  | cons it its ih =>
    obtain ⟨y, hy, h1⟩ := ends_item (env := env) hx hh hr.idInv.fresh (hr.transOK a x hx) hr.evInv it
    obtain ⟨z, hz, hzf⟩ := hr.good.fixed_item it hx
    rw [hy] at hz; cases hz
    have := ih (hr.item it) hy ((Act.fixed_handle hzf).trans hh)
    rw [run_cons]
    refine Nat.le_trans this ?_
    obtain ⟨d, d1, d2, d3, _⟩ := h1.pubs
    rw [d1, List.length_append, List.filter_cons]
    by_cases hd : d = []
    · subst hd
      split <;> simp <;> omega
    · rw [if_pos (d3 hd).1]; simp; omega

/-- Whatever is new after a history has ids from the old counter on. -/
theorem fresh_run {env : Env} {w : World} (hr : Reachable env w) (its : List Item) :
    (∀ e, (run env w its).HasEvent e → ¬ w.HasEvent e → w.nextId ≤ e.id) ∧
    (∀ b, ((run env w its).acts b).isSome → w.acts b = none → w.nextId ≤ b) := by
  have key := (core_run (env := env) hr.transOK its).1.inv
    (P := fun d => IdInv d ∧ w.nextId ≤ d.nextId ∧ (∀ e, d.Has e → ¬ w.core.Has e → w.nextId ≤ e.id) ∧
      (∀ b x, d.acts b = some x → w.acts b = none → w.nextId ≤ b)) (by
      rintro c d ⟨hi, hle, h1, h2⟩ s
      obtain ⟨news, n1, n2, _⟩ := has_step hi s
      have hn := nextId_step s
      refine ⟨idInv_step hi s, by omega, ?_, ?_⟩
      · intro e he hne
        rcases n1 e he with h | h
        · exact h1 e h hne
        · have := (n2 e h).1; omega
      · intro b x hb hnb
        rcases acts_step s b x hb with ⟨y, hy⟩ | ⟨h, _⟩
        · exact h2 b y hy hnb
        · omega)
    ⟨hr.idInv, Nat.le_refl _, fun e he hne => absurd he hne,
      fun b x hb hnb => by rw [show w.acts b = some x from hb] at hnb; cases hnb⟩
  obtain ⟨_, _, h1, h2⟩ := key
  refine ⟨h1, fun b hb hnb => ?_⟩
  obtain ⟨x, hx⟩ := Option.isSome_iff_exists.1 hb
  exact h2 b x hx hnb

/-- The warn events of an action are distinct. -/
theorem Reachable.warnEvs_nodup {env : Env} {w : World} (h : Reachable env w) {a : ActId} {x : Act}
    (hx : w.acts a = some x) : x.warnEvs.Nodup := by
  have key := h.inv (P := fun d => IdInv d ∧ ∀ a x, d.acts a = some x → x.warnEvs.Nodup) (by
    rintro c d ⟨hi, hn⟩ s
    refine ⟨idInv_step hi s, ?_⟩
    intro a x hx
    have upd : ∀ (f : ActId → Option Act) (b : ActId) (y : Act), f = c.acts →
        updAct f b y a = some x → y.warnEvs.Nodup → x.warnEvs.Nodup := by
      intro f b y hf h hy
      subst hf
      simp only [updAct] at h
      split at h
      · cases h; exact hy
      · exact hn _ _ h
    cases s with
    | newAct y hb he hw => exact upd _ _ _ rfl hx (by simp [hw])
    | upd b y dd t f hy => exact upd _ _ _ rfl hx (hn b y hy)
    | begin b y dd t f e hy => exact upd _ _ _ rfl hx (hn b y hy)
    | exc b y e hy => exact upd _ _ _ rfl hx (hn b y hy)
    | fin b y e hy => exact upd _ _ _ rfl hx (hn b y hy)
    | pubEnd b y e hy => exact hn _ _ hx
    | comment y b en e hb he hw => exact upd _ _ _ rfl hx (by simp [hw])
    | warn b y dd e hb hh hid =>
      refine upd _ _ _ rfl hx (List.nodup_append.2 ⟨hn _ _ hb, by simp, ?_⟩)
      intro f hf g hg hfg
      simp only [List.mem_singleton] at hg
      subst hg; subst hfg
      have := hi.evLt f (.inr ⟨b, y, hb, .inr (.inr (.inl hf))⟩)
      omega)
    ⟨idInv_init, by intro a x hx; simp [World.core, World.init] at hx⟩
  exact key.2 a x hx

/-- Nothing was published for an action at its creation. -/
theorem new_no_pubs {env : Env} {w w0 : World} {l : LogId} {lv : Int} {nm : String} {kw : Dict} {a : ActId}
    (hr : Reachable env w) (h : step env w (.newAction l lv nm kw) = (w0, .newAct a)) (k : Kind) :
    pubsOf w0.pub k a = [] := by
  obtain ⟨⟨L, hL⟩, rfl, rfl⟩ := new_inv h
  have : (step env w (.newAction l lv nm kw)).1.pub = w.pub := by simp [step, hL, newAction, World.setAct]
  rw [this]
  exact hr.pubInv.none _ k hr.idInv.fresh

/-- Items that are not status calls on `a` and do not leave its block keep its end event, and its begin
event if there is one. -/
theorem end_keep {env : Env} {w : World} {a : ActId} {x : Act} (hx : w.acts a = some x)
    (hh : x.handle = true) (hf : w.acts w.nextId = none) (it : Item) (hit : it.ends a = false) :
    ∃ y, (stepItem env w it).acts a = some y ∧ y.endEv = x.endEv ∧
      (∀ b, x.beginEv = some b → y.beginEv = some b) := by
  have hheld : w.held a = true := held_iff.2 ⟨x, hx, hh⟩
  have hbeg : ∀ (w' : World) (x' : Act) (m : Option String) (f : List Val) (kw : Dict), w'.acts a = some x' →
      x'.endEv = x.endEv → x'.beginEv = x.beginEv →
      ∃ y, (begin_ env w' a m f kw).1.acts a = some y ∧ y.endEv = x.endEv ∧
        (∀ b, x.beginEv = some b → y.beginEv = some b) := by
    intro w' x' m f kw hx' h1 h2
    rcases begin_spec (env := env) hx' m f kw with ⟨b, hb, h⟩ | ⟨hb, b, _, _, _, _, _, _, h, _⟩
    · refine ⟨{ x' with data := x'.data.update kw }, by rw [h]; simp, h1, fun b hb => ?_⟩
      exact h2.trans hb
    · refine ⟨{ x' with data := x'.data.update kw, beginEv := some b }, by rw [h]; simp, h1, fun b hb' => ?_⟩
      rw [← h2, hb] at hb'; cases hb'
  by_cases ht : it.target = some a
  · cases it with
    | enter b =>
      simp only [Item.target, Option.some.injEq] at ht; subst ht
      simp only [stepItem, guard_held hheld, enter, hx]
      exact hbeg _ { x with isTrans := true, defer := true } _ _ _ (by simp [World.setActive]) rfl rfl
    | exit b e =>
      simp only [Item.target, Option.some.injEq] at ht; subst ht
      simp [Item.ends] at hit
    | op o =>
      cases o <;> simp only [Item.target, Option.some.injEq, reduceCtorEq] at ht <;> subst ht <;>
        simp [Item.ends] at hit
      case begin m f kw =>
        simp only [stepItem, step, guard_held hheld]
        exact hbeg w x _ _ _ hx rfl rfl
      case warn m f kw =>
        simp only [stepItem, step, guard_held hheld]
        obtain ⟨e, _, _, _, _, _, _, h, _⟩ := warn_spec (env := env) hx m f kw
        exact ⟨{ x with data := x.data.update kw, warnEvs := x.warnEvs ++ [e] }, by rw [h, updAct_same], rfl,
          fun _ h => h⟩
      case setItem k v =>
        refine ⟨{ x with data := x.data.set k v }, ?_, rfl, fun _ h => h⟩
        simp [stepItem, step, guard_held hheld, setItem, hx]
  · exact ⟨x, (rec_other hx hf it ht).1, rfl, fun _ h => h⟩

end Verif
