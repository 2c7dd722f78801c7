import Verif.Props.Story
import Verif.Lemmas.Life
/-!
# C115 with conditions on the text of the script only

`C115_selected_partial` asks that no action has data under the names of the template's fields in the states its events are rendered in.
Here that is read off the script: it sets no such data, and the actions its logger had before have none.
-/
namespace Verif

/-- A script that uses none of these names as keys of data. -/
def Script.Avoids (names : List String) : Script → Prop
  | .seq p q => p.Avoids names ∧ q.Avoids names
  | .catch p q => p.Avoids names ∧ q.Avoids names
  | .set k _ => k ∉ names
  | .block _ _ data _ p => (∀ kv ∈ data, kv.1 ∉ names) ∧ p.Avoids names
  | _ => True

/-- The actions of a logger have no data under these names. -/
def World.Without (w : World) (l : LogId) (names : List String) : Prop :=
  ∀ a x, w.acts a = some x → x.logger = l → ∀ k ∈ names, w.dataOf a k = none

namespace Story

open Verif.LineOf Verif.Tmpl Verif.LogFile

/-- An item a script makes, or a flush, that writes no data under these names. -/
def Harmless (names : List String) : Item → Prop
  | .op (.newAction _ _ _ kw) | .op (.comment _ _ _ kw) | .op (.warn _ _ _ kw) | .op (.success _ _ _ kw)
  | .op (.failure _ _ _ kw) => ∀ kv ∈ kw, kv.1 ∉ names
  | .op (.setItem _ k _) => k ∉ names
  | .op (.flush _) | .enter _ | .exit _ _ => True
  | _ => False

theorem Harmless.writes {names : List String} {it : Item} (h : Harmless names it) (a : ActId) : ∀ kv ∈ it.writesOn a, kv.1 ∉ names := by
  cases it with
  | op o =>
    cases o <;> simp only [Harmless] at h <;> simp only [Item.writesOn] <;> first
      | (split <;> simp <;> exact h)
      | (intro kv hkv; cases hkv)
      | (intro kv hkv; split at hkv; · exact h kv hkv
         cases hkv)
  | enter b => intro kv hkv; cases hkv
  | exit b e => intro kv hkv; cases hkv

theorem lastWrite_none {k : String} {ws : Dict} (h : ∀ kv ∈ ws, kv.1 ≠ k) : lastWrite k ws = none := by
  unfold lastWrite
  rw [List.filter_eq_nil_iff.2 (by intro kv hkv; simpa using h kv hkv)]
  rfl

theorem get?_none {k : String} {d : Dict} (h : ∀ kv ∈ d, kv.1 ≠ k) : d.get? k = none := by
  induction d with
  | nil => rfl
  | cons p r ih =>
    have h1 : p.1 ≠ k := h p (by simp)
    obtain ⟨k1, v1⟩ := p
    simp only [Dict.get?]
    rw [if_neg h1]
    exact ih fun kv hkv => h kv (by simp [hkv])

/-- What an item does to the data of an action there is. -/
theorem data_item {env : Env} (hc : env.Calm) {w : World} (hr : Reachable env w) {a : ActId} {x : Act} (hx : w.acts a = some x)
    (it : Item) : ∃ y, (stepItem env w it).acts a = some y ∧ y.logger = x.logger ∧
      (y.data = x.data ∨ y.data = x.data.update (it.writesOn a)) := by
  by_cases ht : it.target = some a
  · by_cases hh : x.handle = true
    · obtain ⟨y, hy, h⟩ := life_item hc.noInfo hr hx hh it
      have hf := h.fixed
      simp only [Act.fixed, Prod.mk.injEq] at hf
      exact ⟨y, hy, hf.1, .inr (by simpa using h.dataCalm hc)⟩
    · have hheld : w.held a = false := by simp [World.held, hx, hh]
      refine ⟨x, ?_, rfl, .inl rfl⟩
      cases it with
      | enter b =>
        simp only [Item.target, Option.some.injEq] at ht; subst ht
        simp [stepItem, guard, hheld, hx]
      | exit b e =>
        simp only [Item.target, Option.some.injEq] at ht; subst ht
        simp [stepItem, hheld, hx]
      | op o =>
        cases o <;> simp only [Item.target, Option.some.injEq, reduceCtorEq] at ht <;> subst ht <;>
          simp [stepItem, step, guard, hheld, hx]
  · exact ⟨x, (rec_other hx hr.idInv.fresh it ht).1, rfl, .inl rfl⟩

/-- Data is never removed. -/
theorem data_stays {env : Env} (hc : env.Calm) (its : List Item) : ∀ {w : World} (_ : Reachable env w) {a : ActId} {x : Act}
    (_ : w.acts a = some x) (k : String) (_ : (run env w its).dataOf a k = none), w.dataOf a k = none := by
  induction its with
  | nil => intro w _ a x _ k h; exact h
  | cons it its ih =>
    intro w hr a x hx k h
    rw [run_cons] at h
    obtain ⟨y, hy, -, hd⟩ := data_item hc hr hx it
    have h1 := ih (hr.item it) hy k h
    simp only [World.dataOf, hy, hx, Option.bind_some] at h1 ⊢
    rcases hd with hd | hd
    · rw [← hd]; exact h1
    · rw [hd, Dict.get?_update] at h1
      cases hl : lastWrite k (it.writesOn a) with
      | none => simpa [hl] using h1
      | some v => simp [hl] at h1

/-- The actions an item makes have no data under these names. -/
theorem new_item {env : Env} {w : World} {names : List String} {it : Item} (h : Harmless names it) {a : ActId}
    {y : Act} (hx : w.acts a = none) (hy : (stepItem env w it).acts a = some y) : ∀ k ∈ names, y.data.get? k = none := by
  have same : ∀ {w' : World}, SameFixed w w' → w'.acts a = some y → ∀ k ∈ names, y.data.get? k = none := by
    intro w' hs hy'
    obtain ⟨x, hx', _⟩ := hs.find hy'
    rw [hx] at hx'; cases hx'
  have hg : ∀ b (r : World × Option Exc), SameFixed w r.1 → SameFixed w (guard w b r).1 := by
    intro b r hs
    simp only [guard]; split
    · exact hs
    · exact .refl w
  have made : ∀ {z : Act} {kw : Dict}, updAct w.acts w.nextId z a = some y → (∀ k, kw.get? k = none → z.data.get? k = none) →
      (∀ kv ∈ kw, kv.1 ∉ names) → ∀ k ∈ names, y.data.get? k = none := by
    intro z kw hz hd hkw k hk
    by_cases ha : a = w.nextId
    · subst ha
      rw [updAct_same] at hz; cases hz
      exact hd k (get?_none fun kv hkv e => hkw kv hkv (e ▸ hk))
    · rw [updAct_ne _ _ ha, hx] at hz; cases hz
  cases it with
  | enter b => exact same (hg _ _ (fixed_enter ..)) hy
  | exit b exc =>
    simp only [stepItem] at hy
    split at hy
    · exact same (fixed_exit ..) hy
    · exact same (.refl w) hy
  | op o =>
    cases o <;> simp only [Harmless] at h
    case newAction l lv nm kw =>
      simp only [stepItem, step] at hy
      split at hy
      · exact same (.refl w) hy
      · refine made (kw := kw) hy ?_ h
        intro k hk
        simp only [Dict.get?_erase, hk, ite_self]
    case comment l m f kw =>
      simp only [stepItem, step, ret, comment] at hy
      split at hy
      · exact same (.refl w) hy
      · rw [publish_acts] at hy
        refine made (kw := kw) hy ?_ h
        intro k hk
        simp only [Dict.get?_erase, hk, ite_self]
    case warn => exact same (hg _ _ (fixed_warn ..)) hy
    case success => exact same (hg _ _ (fixed_success ..)) hy
    case failure => exact same (hg _ _ (fixed_failure ..)) hy
    case setItem b k v =>
      refine same (hg _ _ ?_) hy
      simp only [setItem]; split
      · exact .refl w
      · rename_i x hx; exact .upd hx rfl rfl
    case flush l => exact same (.ofActs (flush_flushLike ..).core.acts) hy

/-- Harmless histories keep the actions of a logger without data under the names. -/
theorem without_run {env : Env} (hc : env.Calm) {l : LogId} {names : List String} (its : List Item) : ∀ {w : World}
    (_ : Reachable env w) (_ : ∀ it ∈ its, Harmless names it) (_ : w.Without l names), (run env w its).Without l names := by
  induction its with
  | nil => intro w _ _ h; exact h
  | cons it its ih =>
    intro w hr hits hw
    rw [run_cons]
    refine ih (hr.item it) (fun i hi => hits i (by simp [hi])) ?_
    intro a y hy hl k hk
    have hit := hits it (by simp)
    simp only [World.dataOf, hy, Option.bind_some]
    cases hx : w.acts a with
    | none => exact new_item hit hx hy k hk
    | some x =>
      obtain ⟨y', hy', hl', hd⟩ := data_item hc hr hx it
      rw [hy] at hy'; cases hy'
      have h0 := hw a x hx (hl'.symm.trans hl) k hk
      simp only [World.dataOf, hx, Option.bind_some] at h0
      rcases hd with hd | hd
      · rw [hd]; exact h0
      · rw [hd, Dict.get?_update, lastWrite_none fun kv hkv e => hit.writes a kv hkv (e ▸ hk), h0]; rfl

/-- What a script does is harmless if its text is. -/
theorem harmless_items {env : Env} {l : LogId} {names : List String} (hre : "reraise" ∉ names) (p : Script) :
    ∀ (_ : p.Avoids names) (c : Option ActId) (k : Option Exc → Prog) (_ : ∀ x w, ∀ it ∈ items env (k x) w, Harmless names it) (w : World),
      ∀ it ∈ items env (p.compile l c k) w, Harmless names it := by
  have call : ∀ (o : Op) (k : World → Res → Prog) (w : World), Harmless names (.op o) → (∀ w' r, ∀ it ∈ items env (k w' r) w', Harmless names it) →
      ∀ it ∈ items env (.call o k) w, Harmless names it := by
    intro o k w ho hk it hit
    simp only [items, List.mem_cons] at hit
    rcases hit with rfl | hit
    · exact ho
    · exact hk _ _ it hit
  have nil : ∀ kv ∈ ([] : Dict), kv.1 ∉ names := by simp
  induction p with
  | skip => intro _ c k hk w; exact hk none w
  | raise e => intro _ c k hk w; exact hk (some e) w
  | seq p q ihp ihq =>
    intro h c k hk w
    refine ihp h.1 c _ ?_ w
    intro x w'
    cases x with
    | none => exact ihq h.2 c k hk w'
    | some e => exact hk (some e) w'
  | «catch» p q ihp ihq =>
    intro h c k hk w
    refine ihp h.1 c _ ?_ w
    intro x w'
    cases x with
    | none => exact hk none w'
    | some e => exact ihq h.2 c k hk w'
  | warn m =>
    intro _ c k hk w
    cases c with
    | none => exact hk none w
    | some a => exact call _ _ w nil fun w' r => hk _ w'
  | set key v =>
    intro h c k hk w
    cases c with
    | none => exact hk none w
    | some a => exact call _ _ w h fun w' r => hk _ w'
  | finish good m =>
    intro _ c k hk w
    cases c with
    | none => exact hk none w
    | some a => exact call _ _ w (by cases good <;> exact nil) fun w' r => hk _ w'
  | comment m => intro _ c k hk w; exact call _ _ w nil fun w' r => hk _ w'
  | block level name data swallow p ih =>
    intro h c k hk w
    refine call _ _ w ?_ ?_
    · intro kv hkv
      cases swallow with
      | false => exact h.1 kv hkv
      | true =>
        simp only [if_true, List.mem_cons] at hkv
        rcases hkv with rfl | hkv
        · exact hre
        · exact h.1 kv hkv
    · intro w' r
      cases r with
      | ok => exact hk none w'
      | exc e => exact hk none w'
      | newAct a =>
        have hleave : ∀ x w, ∀ it ∈ items env (Prog.leave x) w, Harmless names it := by
          intro x w; cases x <;> intro it hit <;> cases hit
        intro it hit
        simp only [items] at hit
        split at hit
        · split at hit
          · rcases List.mem_cons.1 hit with rfl | hit
            · trivial
            · exact hk _ _ it hit
          · rw [List.mem_append, List.mem_cons, List.mem_cons] at hit
            rcases hit with (rfl | hit) | rfl | hit
            · trivial
            · exact ih h.2 (some a) Prog.leave hleave _ it hit
            · trivial
            · exact hk _ _ it hit
        · exact hk _ _ it hit

/-- The names of the template's fields. -/
def fieldNames : List String := ["status_str", "action_name", "event_message"]

/-- The script's own text keeps the data of actions out of the template's fields. -/
theorem noClash_of_avoids {env : Env} (hc : env.Calm) {w : World} (hw : Reachable env w) {l : LogId} {p : Script} (hp : p.Avoids fieldNames)
    (hold : w.Without l fieldNames) {i : SinkId} (at_ : Kind × Event → World) :
    let f := (step env (exec env (p.compile l none Prog.leave) w).1 (.flush l)).1
    let evs := ofLogger l (received i f.trace)
    Rendered env f at_ evs → NoClash at_ evs := by
  intro f evs hat q hq k hk
  have hf : f = run env w (items env (p.compile l none Prog.leave) w ++ [.op (.flush l)]) := by
    rw [run_append, run_items _ hw.good]; rfl
  have hclean : f.Without l fieldNames := by
    rw [hf]
    refine without_run hc _ hw ?_ hold
    intro it hit
    rcases List.mem_append.1 hit with hit | hit
    · refine harmless_items (by decide) p hp none Prog.leave ?_ w it hit
      intro x w; cases x <;> intro it hit <;> cases hit
    · simp only [List.mem_singleton] at hit; subst hit; trivial
  obtain ⟨hreach, hpub, its, hrun⟩ := hat q hq
  obtain ⟨-, -, x, hx, hl, -⟩ := hreach.evInv.pub q.1 q.2 hpub
  refine data_stays hc its hreach hx k ?_
  rw [← hrun]
  obtain ⟨y, hy, g⟩ := hreach.grows its hx
  rw [← hrun] at hy
  refine hclean _ y hy ?_ k hk
  have hfx := g.fixed
  simp only [Act.fixed, Prod.mk.injEq] at hfx
  have hql : q.2.logger = l := by
    have := (List.mem_filter.1 hq).2
    simp only [Bool.and_eq_true, decide_eq_true_eq] at this
    exact this.2
  rw [hfx.1, ← hl, hql]

/-- **C115** for scripts whose text names none of the template's fields as a key of data, on a logger whose actions so far have no such
data: after the script and a flush the file tells the selected lines of the transcript, one by one, in order, and nothing else. -/
theorem C115_text_partial {env : Env} (hc : env.Calm) {w : World} (hw : Reachable env w) {l : LogId} {L : Log}
    (hL : w.logs l = some L) (hnew : published w l = []) (ha : w.active l = none)
    (hold : w.Without l ["status_str", "action_name", "event_message"]) {p : Script} (hp : p.Ok)
    (hav : p.Avoids ["status_str", "action_name", "event_message"])
    (hlen : (p.lines env.text none).1.length ≤ QUEUE_LIMIT) {i : SinkId} (hi : i ∈ L.sinks)
    (hh : ∀ k, k ≠ .exception → env.hasHook i k) {r : Render} (hr : Sound r) (at_ : Kind × Event → World)
    (on : List String) (filters : List (Kind × Event → Option Bool)) :
    let f := (step env (exec env (p.compile l none Prog.leave) w).1 (.flush l)).1
    let evs := ofLogger l (received i f.trace)
    Rendered env f at_ evs → ∀ s, sinkOf r template on filters at_ = some s →
      evs.length = (p.lines env.text none).1.length ∧
      List.Forall₂ Told ((((p.lines env.text none).1.zip evs).filter (Selected on filters)).map fun x => (x.1, r.message (at_ x.2) x.2.2))
        (readFile [false, true, true] (fileOf s evs)) := by
  intro f evs hat s hs
  exact C115_selected_partial hc hw hL hnew ha hp hlen hi hh hr at_ on filters hat
    (noClash_of_avoids hc hw hav hold at_ hat) s hs

/-- The sample script, on a new logger. -/
example : Sample.visit.Avoids ["status_str", "action_name", "event_message"] ∧
    (run Sample.quiet World.init Sample.setupAsync).Without 0 ["status_str", "action_name", "event_message"] := by
  refine ⟨⟨trivial, ⟨by simp, ⟨⟨by decide, trivial, trivial⟩, trivial⟩, trivial⟩⟩, ?_⟩
  intro a x hx
  have : (run Sample.quiet World.init Sample.setupAsync).acts = World.init.acts := by rfl
  rw [this] at hx; cases hx

/-- The script that forges its status does not avoid the names. -/
example : ¬ forged.Avoids ["status_str", "action_name", "event_message"] := by
  intro h
  exact h.1.1 ("status_str", .other 0) (by simp) (by simp)

end Story
end Verif
