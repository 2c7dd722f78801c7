import Verif.Props.SinkConc
import Verif.Model.Sinks
import Mathlib.Algebra.Order.Field.Rat
/-!
# C111: one thread alone uses a rate sink as the sequential model says
-/
namespace Verif.SinkConc

open Verif.Dct Verif.Sinks

/-! ### Dictionaries made from lists of keys -/

/-- A dictionary with other values. -/
def mapVals {α β γ : Type} (h : β → γ) (d : Dct.Dict α β) : Dct.Dict α γ := d.map fun p => (p.1, h p.2)

theorem get?_mapVals {α β γ : Type} [DecidableEq α] (h : β → γ) (d : Dct.Dict α β) (k : α) : get? (mapVals h d) k = (get? d k).map h := by
  induction d with
  | nil => rfl
  | cons p d ih =>
    obtain ⟨a, b⟩ := p
    change (if a = k then some (h b) else get? (mapVals h d) k) = Option.map h (if a = k then some b else get? d k)
    split
    · rfl
    · exact ih

theorem set_mapVals {α β γ : Type} [DecidableEq α] (h : β → γ) (d : Dct.Dict α β) (k : α) (v : β) :
    mapVals h (set d k v) = set (mapVals h d) k (h v) := by
  induction d with
  | nil => rfl
  | cons p d ih =>
    obtain ⟨a, b⟩ := p
    change mapVals h (if a = k then (k, v) :: d else (a, b) :: set d k v) =
      if a = k then (k, h v) :: mapVals h d else (a, h b) :: set (mapVals h d) k (h v)
    split
    · rfl
    · rw [← ih]; rfl

theorem upd_mapVals {α β γ : Type} [DecidableEq α] (h : β → γ) (d : Dct.Dict α β) (k : α) (i : β) (j : γ) (F : β → β) (G : γ → γ)
    (hi : h (F i) = G j) (hF : ∀ x, h (F x) = G (h x)) : mapVals h (upd d k i F) = upd (mapVals h d) k j G := by
  unfold upd
  rw [set_mapVals, get?_mapVals]
  cases get? d k with
  | none => simp [hi]
  | some x => simp [hF]

theorem get?_keys {X α β : Type} [DecidableEq X] [DecidableEq α] {f : X → α} (hf : Function.Injective f) (l : List X) (g : X → β) (k : X) :
    get? (l.map fun x => (f x, g x)) (f k) = if k ∈ l then some (g k) else none := by
  induction l with
  | nil => rfl
  | cons a l ih =>
    change (if f a = f k then some (g a) else get? (l.map fun x => (f x, g x)) (f k)) = _
    by_cases h : a = k
    · subst h; simp
    · have : f a ≠ f k := fun e => h (hf e)
      rw [if_neg this, ih]
      simp [Ne.symm h]

theorem set_keys {X α β : Type} [DecidableEq X] [DecidableEq α] {f : X → α} (hf : Function.Injective f) (l : List X) (hl : l.Nodup)
    (g : X → β) (k : X) (v : β) :
    set (l.map fun x => (f x, g x)) (f k) v = (ins l k).map fun x => (f x, if x = k then v else g x) := by
  induction l with
  | nil => simp [ins, Dct.set]
  | cons a l ih =>
    rw [List.nodup_cons] at hl
    change (if f a = f k then (f k, v) :: l.map (fun x => (f x, g x)) else (f a, g a) :: set (l.map fun x => (f x, g x)) (f k) v) = _
    by_cases h : a = k
    · subst h
      rw [if_pos rfl]
      have : ins (a :: l) a = a :: l := by simp [ins]
      rw [this, List.map_cons, if_pos rfl]
      congr 1
      refine List.map_congr_left fun x hx => ?_
      rw [if_neg fun e : x = a => hl.1 (e ▸ hx)]
    · have : f a ≠ f k := fun e => h (hf e)
      rw [if_neg this, ih hl.2]
      have : ins (a :: l) k = a :: ins l k := by
        unfold ins
        by_cases hk : k ∈ l
        · rw [if_pos (by simp [hk]), if_pos hk]
        · rw [if_neg (by simp [hk, Ne.symm h]), if_neg hk]; rfl
      rw [this, List.map_cons, if_neg h]

theorem upd_keys {X α β : Type} [DecidableEq X] [DecidableEq α] {f : X → α} (hf : Function.Injective f) (l : List X) (hl : l.Nodup)
    (g : X → β) (k : X) (i : β) (F : β → β) :
    upd (l.map fun x => (f x, g x)) (f k) i F =
      (ins l k).map fun x => (f x, if x = k then F (if k ∈ l then g k else i) else g x) := by
  unfold upd
  rw [get?_keys hf, set_keys hf l hl]
  split <;> rfl

/-! ### The two sinks -/

/-- What the sink has counted, as nested dictionaries; `nameOf` and `statOf` are the texts of names and statuses. -/
def nested (nameOf statOf : Nat → String) (s : Sys) : Map3 LogId Nat :=
  s.logs.map fun lg => (lg, (s.names lg).map fun nm => (nameOf nm, (s.stats lg nm).map fun st => (statOf st, val s ⟨lg, nm, st⟩)))

/-- The counts of the sequential model's accumulators. -/
def totals {K : Type} (m : Map3 LogId (RateAcc K)) : Map3 LogId Nat := mapVals (mapVals (mapVals RateAcc.total)) m

/-- The sink `s` is the sequential one `m`: the same labels in the same order, with the same counts. -/
structure Rep {K : Type} (nameOf statOf : Nat → String) (s : Sys) (m : Map3 LogId (RateAcc K)) : Prop where
  inv : Inv s
  fresh : ∀ lg, lg ∉ s.logs → s.names lg = []
  same : totals m = nested nameOf statOf s

/-- A new sink. -/
theorem rep_init {K : Type} (nameOf statOf : Nat → String) (n : Nat) : Rep (K := K) nameOf statOf (init n) [] :=
  ⟨inv_init n, fun _ _ => rfl, rfl⟩

theorem totals_onEnd {K : Type} (size : Option Nat) (m : Map3 LogId (RateAcc K)) (e : Ev LogId K) :
    totals (rateOnEnd size m e) =
      upd (totals m) e.logger [] fun d2 => upd d2 e.name [] fun d3 => upd d3 e.status 0 (· + 1) := by
  have h3 : ∀ d3 : Dct.Dict String (RateAcc K),
      mapVals RateAcc.total (upd d3 e.status (rateInit size e.now) fun a => rateAdd a e.value) =
        upd (mapVals RateAcc.total d3) e.status 0 (· + 1) :=
    fun d3 => upd_mapVals _ _ _ _ _ _ _ rfl fun _ => rfl
  have h2 : ∀ d2 : Dct.Dict String (Dct.Dict String (RateAcc K)),
      mapVals (mapVals RateAcc.total) (upd d2 e.name [] fun d3 => upd d3 e.status (rateInit size e.now) fun a => rateAdd a e.value) =
        upd (mapVals (mapVals RateAcc.total) d2) e.name [] fun d3 => upd d3 e.status 0 (· + 1) :=
    fun d2 => upd_mapVals _ _ _ _ _ _ _ (h3 []) h3
  exact upd_mapVals _ _ _ _ _ (fun d2 => upd d2 e.name [] fun d3 => upd d3 e.status (rateInit size e.now) fun a => rateAdd a e.value)
    (fun d2 => upd d2 e.name [] fun d3 => upd d3 e.status 0 (· + 1)) (h2 []) h2

theorem alone_go {t : Tid} {s : Sys} {p : PC} (hp : s.pcs[t]? = some p) {s' : Sys} (s1 : Sys) (hg : go s t p = s1)
    (h : Alone t s1 s') : Alone t s s' := by
  subst hg
  obtain ⟨n, h⟩ := h
  refine ⟨n + 1, ?_⟩
  rw [List.replicate_succ, run, List.foldl_cons]
  simpa [step, hp, run] using h

/-- What `on_end` leaves behind in the sink. -/
structure After (s s' : Sys) (k : Key) : Prop where
  logs : s'.logs = ins s.logs k.lg
  names : ∀ l, s'.names l = if l = k.lg then ins (s.names l) k.nm else s.names l
  stats : ∀ l m, s'.stats l m = if l = k.lg ∧ m = k.nm then ins (s.stats l m) k.st else s.stats l m
  val : ∀ j, val s' j = if j = k then val s k + 1 else val s j

theorem onEnd_alone {s : Sys} {t : Tid} (h : Inv s) (hp : s.pcs[t]? = some .idle) (k : Key) :
    ∃ s', Alone t (step s t (.onEnd k)) s' ∧ s'.pcs = s.pcs ∧ s'.made = s.made ++ [k] ∧ s'.res = s.res ∧ After s s' k := by
  obtain ⟨ht, hp'⟩ := List.getElem?_eq_some_iff.1 hp
  have e1 : s.pcs.set t .idle = s.pcs := by rw [← hp']; exact List.set_getElem_self ht
  have hat : ∀ (q : PC), (s.pcs.set t q)[t]? = some q := fun q => by simp [ht]
  have e0 : step s t (.onEnd k) = { s with made := s.made ++ [k], pcs := s.pcs.set t (.setLog k) } := by
    simp [step, hp, call, Sys.to]
  rw [e0]
  cases ha : s.acc k with
  | some a =>
    refine ⟨{ s with made := s.made ++ [k], logs := ins s.logs k.lg, names := fun l => if l = k.lg then ins (s.names l) k.nm else s.names l, total := fun b => if b = a then s.total a + 1 else s.total b },
      ?_, rfl, rfl, rfl, rfl, fun _ => rfl, ?_, ?_⟩
    · refine alone_go (hat _) { s with made := s.made ++ [k], pcs := s.pcs.set t (.setName k), logs := ins s.logs k.lg }
        (by simp only [go, Sys.to, List.set_set]) ?_
      refine alone_go (hat _) { s with made := s.made ++ [k], pcs := s.pcs.set t (.look k), logs := ins s.logs k.lg, names := fun l => if l = k.lg then ins (s.names l) k.nm else s.names l }
        (by simp only [go, Sys.to, List.set_set]) ?_
      refine alone_go (hat _) { s with made := s.made ++ [k], pcs := s.pcs.set t (.load k a), logs := ins s.logs k.lg, names := fun l => if l = k.lg then ins (s.names l) k.nm else s.names l }
        (by simp only [go, Sys.to, List.set_set, ha]) ?_
      refine alone_go (hat _) { s with made := s.made ++ [k], pcs := s.pcs.set t (.put k a (s.total a)), logs := ins s.logs k.lg, names := fun l => if l = k.lg then ins (s.names l) k.nm else s.names l }
        (by simp only [go, Sys.to, List.set_set]) ?_
      refine alone_go (hat _) _ rfl ⟨0, ?_⟩
      simp only [List.replicate_zero, run, List.foldl_nil, go, Sys.to, List.set_set, e1]
    · intro l m
      change s.stats l m = _
      split
      · next e =>
        obtain ⟨rfl, rfl⟩ := e
        rw [ins, if_pos ((h.stats k).1 (by simp [ha]))]
      · rfl
    · intro j
      by_cases hj : j = k
      · subst hj; simp [val, ha]
      · rw [if_neg hj]
        change ((s.acc j).map fun b => if b = a then s.total a + 1 else s.total b).getD 0 = ((s.acc j).map s.total).getD 0
        cases hb : s.acc j with
        | none => rfl
        | some b =>
          have : b ≠ a := fun e => hj (h.uniq j k a (.inl (e ▸ hb)) (.inl ha))
          simp [this]
  | none =>
    refine ⟨{ s with made := s.made ++ [k], logs := ins s.logs k.lg, names := fun l => if l = k.lg then ins (s.names l) k.nm else s.names l, next := s.next + 1, acc := fun j => if j = k then some s.next else s.acc j, stats := fun l m => if l = k.lg ∧ m = k.nm then ins (s.stats l m) k.st else s.stats l m, total := fun b => if b = s.next then s.total s.next + 1 else s.total b },
      ?_, rfl, rfl, rfl, rfl, fun _ => rfl, fun _ _ => rfl, ?_⟩
    · refine alone_go (hat _) { s with made := s.made ++ [k], pcs := s.pcs.set t (.setName k), logs := ins s.logs k.lg }
        (by simp only [go, Sys.to, List.set_set]) ?_
      refine alone_go (hat _) { s with made := s.made ++ [k], pcs := s.pcs.set t (.look k), logs := ins s.logs k.lg, names := fun l => if l = k.lg then ins (s.names l) k.nm else s.names l }
        (by simp only [go, Sys.to, List.set_set]) ?_
      refine alone_go (hat _) { s with made := s.made ++ [k], pcs := s.pcs.set t (.make k), logs := ins s.logs k.lg, names := fun l => if l = k.lg then ins (s.names l) k.nm else s.names l }
        (by simp only [go, Sys.to, List.set_set, ha]) ?_
      refine alone_go (hat _) { s with made := s.made ++ [k], pcs := s.pcs.set t (.store k s.next), logs := ins s.logs k.lg, names := fun l => if l = k.lg then ins (s.names l) k.nm else s.names l, next := s.next + 1 }
        (by simp only [go, Sys.to, List.set_set]) ?_
      refine alone_go (hat _) { s with made := s.made ++ [k], pcs := s.pcs.set t (.load k s.next), logs := ins s.logs k.lg, names := fun l => if l = k.lg then ins (s.names l) k.nm else s.names l, next := s.next + 1, acc := fun j => if j = k then some s.next else s.acc j, stats := fun l m => if l = k.lg ∧ m = k.nm then ins (s.stats l m) k.st else s.stats l m }
        (by simp only [go, Sys.to, List.set_set]) ?_
      refine alone_go (hat _) { s with made := s.made ++ [k], pcs := s.pcs.set t (.put k s.next (s.total s.next)), logs := ins s.logs k.lg, names := fun l => if l = k.lg then ins (s.names l) k.nm else s.names l, next := s.next + 1, acc := fun j => if j = k then some s.next else s.acc j, stats := fun l m => if l = k.lg ∧ m = k.nm then ins (s.stats l m) k.st else s.stats l m }
        (by simp only [go, Sys.to, List.set_set]) ?_
      refine alone_go (hat _) _ rfl ⟨0, ?_⟩
      simp only [List.replicate_zero, run, List.foldl_nil, go, Sys.to, List.set_set, e1]
    · intro j
      by_cases hj : j = k
      · subst hj; simp [val, ha, h.zero]
      · rw [if_neg hj]
        simp only [val, if_neg hj]
        cases hb : s.acc j with
        | none => rfl
        | some b =>
          have : b ≠ s.next := fun e => absurd (h.bound j b (.inl hb)) (by omega)
          simp [this]

theorem inv_alone {t : Tid} {s s' : Sys} (h : Inv s) (ha : Alone t s s') : Inv s' := by
  obtain ⟨n, rfl⟩ := ha
  exact inv_run h _

/-- **C111**, one thread alone: `on_end` is that of the sequential model. -/
theorem C111_sequential {K : Type} {nameOf statOf : Nat → String} (hn : Function.Injective nameOf) (hs : Function.Injective statOf)
    (size : Option Nat) (s : Sys) (m : Map3 LogId (RateAcc K)) (t : Tid) (hp : s.pcs[t]? = some .idle) (h : Rep nameOf statOf s m)
    (k : Key) (value now : K) :
    ∃ s', Alone t (step s t (.onEnd k)) s' ∧ s'.pcs = s.pcs ∧ s'.made = s.made ++ [k] ∧ s'.res = s.res ∧
      Rep nameOf statOf s' (rateOnEnd size m ⟨k.lg, nameOf k.nm, statOf k.st, value, now⟩) := by
  obtain ⟨s', h1, h2, h3, h4, h5⟩ := onEnd_alone h.inv hp k
  refine ⟨s', h1, h2, h3, h4, inv_alone (inv_step h.inv t _) h1, ?_, ?_⟩
  · intro lg hlg
    rw [h5.logs, mem_ins] at hlg
    rw [h5.names, if_neg fun e => hlg (.inr e)]
    exact h.fresh lg fun e => hlg (.inl e)
  · rw [totals_onEnd, h.same]
    have hst : ∀ l nm, nm ∉ s.names l → s.stats l nm = [] := by
      intro l nm hnm
      by_contra hc
      obtain ⟨st, hst⟩ := List.exists_mem_of_ne_nil _ hc
      exact hnm (h.inv.there ⟨l, nm, st⟩ ((h.inv.stats ⟨l, nm, st⟩).2 hst)).2
    have hval : ∀ l nm st, st ∉ s.stats l nm → val s ⟨l, nm, st⟩ = 0 := by
      intro l nm st hst
      have : s.acc ⟨l, nm, st⟩ = none := by
        by_contra hc
        exact hst ((h.inv.stats ⟨l, nm, st⟩).1 hc)
      simp [val, this]
    unfold nested
    rw [h5.logs]
    have e1 := upd_keys (f := fun l : LogId => l) (fun _ _ e => e) s.logs h.inv.nlogs
      (fun lg => (s.names lg).map fun nm => (nameOf nm, (s.stats lg nm).map fun st => (statOf st, val s ⟨lg, nm, st⟩))) k.lg []
      fun d2 => upd d2 (nameOf k.nm) [] fun d3 => upd d3 (statOf k.st) 0 (· + 1)
    rw [e1]
    refine List.map_congr_left fun lg _ => Prod.ext rfl ?_
    dsimp only
    rw [h5.names]
    by_cases hlg : lg = k.lg
    · subst hlg
      rw [if_pos rfl, if_pos rfl]
      have e2 : (if k.lg ∈ s.logs then (s.names k.lg).map fun nm => (nameOf nm, (s.stats k.lg nm).map fun st => (statOf st, val s ⟨k.lg, nm, st⟩))
          else []) = (s.names k.lg).map fun nm => (nameOf nm, (s.stats k.lg nm).map fun st => (statOf st, val s ⟨k.lg, nm, st⟩)) := by
        split
        · rfl
        · next hc => rw [h.fresh _ hc]; rfl
      rw [e2, upd_keys hn _ (h.inv.nnames _)]
      refine List.map_congr_left fun nm _ => Prod.ext rfl ?_
      dsimp only
      rw [h5.stats]
      by_cases hnm : nm = k.nm
      · subst hnm
        have e3 : (if k.nm ∈ s.names k.lg then (s.stats k.lg k.nm).map fun st => (statOf st, val s ⟨k.lg, k.nm, st⟩) else []) =
            (s.stats k.lg k.nm).map fun st => (statOf st, val s ⟨k.lg, k.nm, st⟩) := by
          split
          · rfl
          · next hc => rw [hst _ _ hc]; rfl
        rw [if_pos rfl, e3, if_pos ⟨rfl, rfl⟩, upd_keys hs _ (h.inv.nstats _ _)]
        refine List.map_congr_left fun st _ => Prod.ext rfl ?_
        dsimp only
        rw [h5.val]
        by_cases hst' : st = k.st
        · subst hst'
          rw [if_pos rfl, if_pos rfl]
          split
          · rfl
          · next hc => rw [hval _ _ _ hc]
        · rw [if_neg hst', if_neg fun e => hst' (by rw [← e])]
      · rw [if_neg hnm, if_neg fun e => hnm e.2]
        refine List.map_congr_left fun st _ => Prod.ext rfl ?_
        dsimp only
        rw [h5.val, if_neg fun e => hnm (by rw [← e])]
    · rw [if_neg hlg, if_neg hlg]
      refine List.map_congr_left fun nm _ => Prod.ext rfl ?_
      dsimp only
      rw [h5.stats, if_neg fun e => hlg e.1]
      refine List.map_congr_left fun st _ => Prod.ext rfl ?_
      dsimp only
      rw [h5.val, if_neg fun e => hlg (by rw [← e])]

/-- The hypotheses can be met: a new sink, then one that has counted an event. -/
example : ∃ (s : Sys) (m : Map3 LogId (RateAcc ℚ)), s.pcs[1]? = some .idle ∧ s.made = [⟨0, 1, 2⟩] ∧
    Rep (fun n => String.ofList (List.replicate n 'x')) (fun n => String.ofList (List.replicate n 'y')) s m := by
  obtain ⟨s', -, h1, h2, -, h3⟩ := C111_sequential (K := ℚ) (nameOf := fun n => String.ofList (List.replicate n 'x'))
    (statOf := fun n => String.ofList (List.replicate n 'y'))
    (fun a b e => by simpa using congrArg (fun s : String => s.toList.length) e)
    (fun a b e => by simpa using congrArg (fun s : String => s.toList.length) e) none (init 2) [] 1 rfl (rep_init _ _ 2) ⟨0, 1, 2⟩ 5 7
  exact ⟨s', _, by rw [h1]; rfl, h2, h3⟩

end Verif.SinkConc
