import Verif.Props.ModesSeq
import Verif.Props.Copying
/-!
# One thread of the model of copying is one thread of the model of modes (C109)

With `C99_sequential` this ties `Model/Copying.lean` to the world model.
-/
namespace Verif.Modes
variable {t : Tid}

/-- The loop of `context.flush`, in closed form. -/
theorem flushes_closed (off : Bool) : ∀ (ls : List LogId) (s : Sys), s.pcs[t]? = some (.flush ls off) →
    (∀ l, s.owner l = none) →
    ∃ s', Goes t s s' ∧ s'.pcs[t]? = some (.flush [] off) ∧ (∀ l, s'.queue l = if l ∈ ls then [] else s.queue l) ∧
      (∀ l, s'.got l = if l ∈ ls then s.got l ++ s.queue l else s.got l) ∧ (∀ l, s'.owner l = none) ∧ s'.mode = s.mode ∧
      s'.ctxAsync = s.ctxAsync ∧ s'.loggers = s.loggers
  | [], s, hp, ho => ⟨s, Goes.refl t s, hp, by simp, by simp, ho, rfl, rfl, rfl⟩
  | l :: ls, s, hp, ho => by
    have h1 : step s t .go = { s with owner := upd s.owner l (some t) }.to t (.loop l ls off) := by
      rw [step_go hp]; simp [go, ho l]
    obtain ⟨s1, g, i1, i2, i3, i4, i5, i6, i7⟩ := drain_goes (t := t) l ls off (s.queue l)
      ({ s with owner := upd s.owner l (some t) }.to t (.loop l ls off)) (set_self hp _) rfl
    have ho1 : ∀ m, s1.owner m = none := by
      intro m; rw [i4]
      by_cases hm : m = l
      · subst hm; simp
      · simp [Sys.to, upd, hm, ho m]
    obtain ⟨s2, g2, j1, j2, j3, j4, j5, j6, j7⟩ := flushes_closed off ls s1 i1 ho1
    refine ⟨s2, ((Goes.one h1).trans g).trans g2, j1, fun m => ?_, fun m => ?_, j4, j5.trans i5, j6.trans i6, j7.trans i7⟩
    · rw [j2, i2]
      by_cases hm : m = l <;> by_cases hm' : m ∈ ls <;> simp [hm, hm', upd, Sys.to]
    · rw [j3, i2, i3]
      by_cases hm : m = l
      · subst hm; simp [upd, Sys.to]
      · by_cases hm' : m ∈ ls <;> simp [hm, hm', upd, Sys.to]

/-- The loop that calls `set_async(False)`, in closed form. -/
theorem setting_closed (d : Bool) : ∀ (ls : List LogId) (s : Sys), s.pcs[t]? = some (.setting ls d) →
    ∃ s', Goes t s s' ∧ s'.pcs[t]? = some (.setting [] d) ∧ (∀ l, s'.mode l = if l ∈ ls then false else s.mode l) ∧
      s'.queue = s.queue ∧ s'.got = s.got ∧ s'.owner = s.owner ∧ s'.ctxAsync = s.ctxAsync ∧ s'.loggers = s.loggers
  | [], s, hp => ⟨s, Goes.refl t s, hp, by simp, rfl, rfl, rfl, rfl, rfl⟩
  | l :: ls, s, hp => by
    have h1 := step_go hp
    simp only [go] at h1
    obtain ⟨s2, g2, j1, j2, j3, j4, j5, j6, j7⟩ := setting_closed d ls
      ({ s with mode := upd s.mode l false }.to t (.setting ls d)) (set_self hp _)
    refine ⟨s2, (Goes.one h1).trans g2, j1, fun m => ?_, j3, j4, j5, j6, j7⟩
    rw [j2]
    by_cases hm : m = l <;> by_cases hm' : m ∈ ls <;> simp [hm, hm', upd, Sys.to]

end Verif.Modes

namespace Verif.Copying

/-- The calls both models have. -/
inductive Cmd
  | new (l : LogId) (given : Option Bool)
  | remove (l : LogId)
  | publish (l : LogId) (e : Ev)
  | flush
  | enable
  | disable

/-- A call in this model; a logger made takes its mode from the context unless one is given. -/
def Cmd.act (s : Sys) : Cmd → Act
  | .new l g => .new l (g.getD s.ctxAsync)
  | .remove l => .remove l
  | .publish l e => .publish l e
  | .flush => .flush
  | .enable => .enable
  | .disable => .disable

/-- The same call in the model of modes. -/
def Cmd.modes : Cmd → Modes.Act
  | .new l g => .new l g
  | .remove l => .remove l
  | .publish l e => .publish l e
  | .flush => .flush
  | .enable => .enable true
  | .disable => .disable true

/-- The two states show the same context and loggers; thread `t` is in application code in both. -/
structure Like (t : Tid) (s : Sys) (m : Modes.Sys) : Prop where
  table : s.entries = m.loggers
  dead : s.dead = []
  ctx : s.ctxAsync = m.ctxAsync
  mode : ∀ l, s.mode l = m.mode l
  queue : ∀ l, s.queue l = m.queue l
  got : ∀ l, s.got l = m.got l
  owner : ∀ l, m.owner l = none
  pc : s.pcs[t]? = some .idle
  pc' : m.pcs[t]? = some .idle

/-- A logger is made once, and has no events before. -/
def Cmd.fresh (s : Sys) : Cmd → Prop
  | .new l _ => l ∉ s.entries ∧ s.queue l = []
  | _ => True

def Goes (t : Tid) (s s' : Sys) : Prop := ∃ n, run s (List.replicate n (t, .go)) = s'

theorem run_append (s : Sys) (a b : List (Tid × Act)) : run s (a ++ b) = run (run s a) b := by simp [run]

theorem Goes.refl (t : Tid) (s : Sys) : Goes t s s := ⟨0, rfl⟩

theorem Goes.one {t : Tid} {s s' : Sys} (h : step s t .go = s') : Goes t s s' := ⟨1, h⟩

theorem Goes.trans {t : Tid} {a b c : Sys} (h : Goes t a b) (h' : Goes t b c) : Goes t a c := by
  obtain ⟨n, hn⟩ := h
  obtain ⟨m, hm⟩ := h'
  exact ⟨n + m, by rw [← List.replicate_append_replicate, run_append, hn, hm]⟩

section
variable {t : Tid}

theorem commit_dead {s : Sys} (h : s.dead = []) : s.commit = s := by
  unfold Sys.commit
  split
  · rfl
  · rw [h]
    obtain ⟨a, b, c, d, e, f, g, h', i⟩ := s
    simp at h
    subst h
    simp

theorem step_go' {s : Sys} {p : PC} (h : s.pcs[t]? = some p) : step s t .go = go s t p := by simp [step, h]

theorem to_to (s : Sys) (p q : PC) : (s.to t p).to t q = s.to t q := by simp [Sys.to]

/-- Left alone, a thread copies the whole table. -/
theorem copy_goes {nx : Next} : ∀ (n : Nat) (s : Sys) (i : Nat), s.dead = [] → i + n = s.entries.length →
    s.pcs[t]? = some (.copy nx s.entries.length i (s.entries.take i)) →
    Goes t s (s.to t (.copy nx s.entries.length s.entries.length s.entries))
  | 0, s, i, _, hi, hp => by
    have : i = s.entries.length := by omega
    subst this
    rw [List.take_length] at hp
    refine ⟨0, ?_⟩
    show s = s.to t _
    have : s.pcs.set t (.copy nx s.entries.length s.entries.length s.entries) = s.pcs := by
      apply List.ext_getElem?
      intro j
      by_cases hj : t = j
      · subst hj; rw [set_self hp]; exact hp.symm
      · rw [List.getElem?_set_ne hj]
    simp [Sys.to, this]
  | n + 1, s, i, hd, hi, hp => by
    have hlt : i < s.entries.length := by omega
    have h1 : step s t .go = s.to t (.copy nx s.entries.length (i + 1) (s.entries.take (i + 1))) := by
      rw [step_go' hp]
      simp only [go, ne_eq, not_true_eq_false, if_false, List.getElem?_eq_getElem hlt, hd, List.not_mem_nil]
      rw [List.take_succ_eq_append_getElem hlt]
    have h2 := copy_goes n (s.to t (.copy nx s.entries.length (i + 1) (s.entries.take (i + 1)))) (i + 1) hd
      (by show i + 1 + n = s.entries.length; omega) (set_self hp _)
    rw [to_to] at h2
    exact (Goes.one h1).trans h2

/-- From the beginning of a copy to its end. -/
theorem start_goes {nx : Next} {s : Sys} {p : PC} (hd : s.dead = []) (hp : s.pcs[t]? = some p) :
    Goes t (s.start t nx) (finish (s.to t (.copy nx s.entries.length s.entries.length s.entries)) t s.entries nx) := by
  have h1 := copy_goes (t := t) (nx := nx) s.entries.length (s.start t nx) 0 hd (by simp [Sys.start, Sys.to])
    (by simpa [Sys.start, Sys.to] using set_self hp (.copy nx s.entries.length 0 []))
  refine h1.trans (Goes.one ?_)
  unfold Sys.start
  rw [to_to]
  have h2 := step_go' (s := s.to t (.copy nx s.entries.length s.entries.length s.entries)) (t := t) (set_self hp _)
  refine h2.trans ?_
  simp [go, Sys.to]

/-- **C109**: a call made by a thread that is then left alone until it returns does in this model what it does in the model of
modes: the table, the modes, the queues and what was handed over come out the same. -/
theorem C109_sequential {s : Sys} {m : Modes.Sys} (h : Like t s m) (c : Cmd) (hc : c.fresh s) :
    ∃ s' m', Goes t (step s t (c.act s)) s' ∧ Modes.Goes t (Modes.step m t c.modes) m' ∧ Like t s' m' := by
  have hgo : c.act s ≠ .go := by cases c <;> simp [Cmd.act]
  have hgo' : c.modes ≠ .go := by cases c <;> simp [Cmd.modes]
  have h0 : step s t (c.act s) = call s t (c.act s) := by simp [step, h.pc, hgo]
  rw [h0, Modes.step_call h.pc' hgo']
  cases c with
  | new l g =>
    obtain ⟨hl, hq⟩ := hc
    have hp0 : (Modes.call m t (.new l g)).pcs[t]? = some (.made l g) := Modes.set_self h.pc' _
    have h1 := Modes.step_go hp0
    simp only [Modes.go] at h1
    have hp1 := Modes.set_self hp0 (.set l (g.getD (Modes.call m t (.new l g)).ctxAsync))
    have h2 := Modes.step_go (s := (Modes.call m t (.new l g)).to t (.set l (g.getD (Modes.call m t (.new l g)).ctxAsync))) hp1
    simp only [Modes.go] at h2
    refine ⟨_, _, Goes.refl t _, (Modes.Goes.one h1).trans (Modes.Goes.one h2), ?_⟩
    have hs : call s t (Cmd.act s (.new l g)) =
        { s with entries := s.entries ++ [l], mode := upd s.mode l (g.getD s.ctxAsync), queue := upd s.queue l [] } := by
      simp [call, Cmd.act, hl]
    rw [hs]
    refine ⟨?_, h.dead, h.ctx, fun k => ?_, fun k => ?_, h.got, h.owner, h.pc, Modes.set_self hp1 _⟩
    · show s.entries ++ [l] = if l ∈ m.loggers then m.loggers else m.loggers ++ [l]
      rw [← h.table, if_neg hl]
    · show upd s.mode l _ k = Modes.upd m.mode l (g.getD m.ctxAsync) k
      rw [← h.ctx]
      by_cases hk : k = l <;> simp [upd, Modes.upd, hk, h.mode]
    · show upd s.queue l [] k = m.queue k
      by_cases hk : k = l
      · subst hk; simp [upd, ← h.queue, hq]
      · simp [upd, hk, h.queue]
  | remove l =>
    refine ⟨_, _, Goes.refl t _, Modes.Goes.refl t _, ?_⟩
    refine ⟨?_, h.dead, h.ctx, h.mode, h.queue, h.got, h.owner, h.pc, h.pc'⟩
    show s.entries.filter _ = m.loggers.filter _
    rw [h.table]
  | publish l e =>
    have hp0 : (Modes.call m t (.publish l e)).pcs[t]? = some (.read l e) := Modes.set_self h.pc' _
    have h1 := Modes.step_go hp0
    have hm : (Modes.call m t (.publish l e)).mode l = s.mode l := (h.mode l).symm
    simp only [Modes.go, hm] at h1
    cases ha : s.mode l with
    | true =>
      rw [ha, if_pos rfl] at h1
      have hp1 := Modes.set_self hp0 (.append l e)
      have h2 := Modes.step_go (s := (Modes.call m t (.publish l e)).to t (.append l e)) hp1
      simp only [Modes.go] at h2
      refine ⟨_, _, Goes.refl t _, (Modes.Goes.one h1).trans (Modes.Goes.one h2), ?_⟩
      have hs : call s t (Cmd.act s (.publish l e)) =
          { s with queue := upd s.queue l (pushBounded QUEUE_LIMIT (s.queue l) e) } := by
        simp [call, Cmd.act, ha]
      rw [hs]
      refine ⟨h.table, h.dead, h.ctx, h.mode, fun k => ?_, h.got, h.owner, h.pc, Modes.set_self hp1 _⟩
      show upd s.queue l (pushBounded QUEUE_LIMIT (s.queue l) e) k =
        Modes.upd m.queue l (pushBounded QUEUE_LIMIT (m.queue l) e) k
      by_cases hk : k = l <;> simp [upd, Modes.upd, hk, h.queue]
    | false =>
      rw [ha, if_neg (by simp)] at h1
      have hp1 := Modes.set_self hp0 (.deliver l e)
      have h2 := Modes.step_go (s := (Modes.call m t (.publish l e)).to t (.deliver l e)) hp1
      simp only [Modes.go] at h2
      refine ⟨_, _, Goes.refl t _, (Modes.Goes.one h1).trans (Modes.Goes.one h2), ?_⟩
      have hs : call s t (Cmd.act s (.publish l e)) = { s with got := upd s.got l (s.got l ++ [e]) } := by
        simp [call, Cmd.act, ha]
      rw [hs]
      refine ⟨h.table, h.dead, h.ctx, h.mode, h.queue, fun k => ?_, h.owner, h.pc, Modes.set_self hp1 _⟩
      show upd s.got l (s.got l ++ [e]) k = Modes.upd m.got l (m.got l ++ [e]) k
      by_cases hk : k = l <;> simp [upd, Modes.upd, hk, h.got]
  | flush =>
    have g1 := start_goes (t := t) (s := { s with out := upd s.out t none }) (nx := .flush false) h.dead h.pc
    have hp0 : (Modes.call m t .flush).pcs[t]? = some (.flushSnap false) := Modes.set_self h.pc' _
    have h1 := Modes.step_go hp0
    simp only [Modes.go] at h1
    have hp1 := Modes.set_self hp0 (.flush (Modes.call m t .flush).loggers false)
    obtain ⟨m2, g2, j1, j2, j3, j4, j5, j6, j7⟩ := Modes.flushes_closed (t := t) false _
      ((Modes.call m t .flush).to t (.flush (Modes.call m t .flush).loggers false)) hp1 h.owner
    have h4 := Modes.step_go j1
    simp only [Modes.go] at h4
    refine ⟨_, _, g1, ((Modes.Goes.one h1).trans g2).trans (Modes.Goes.one h4), ?_⟩
    simp only [finish, to_to, commit_dead (s := Sys.to { s with out := upd s.out t none } t .idle) h.dead]
    refine ⟨h.table.trans j7.symm, h.dead, h.ctx.trans j6.symm, fun k => ?_, fun k => ?_, fun k => ?_, j4, set_self h.pc _,
      Modes.set_self j1 _⟩
    · exact (h.mode k).trans (congrFun j5 k).symm
    · refine Eq.trans ?_ (j2 k).symm
      show (if k ∈ s.entries then [] else s.queue k) = if k ∈ m.loggers then [] else m.queue k
      rw [h.table, h.queue k]
    · refine Eq.trans ?_ (j3 k).symm
      show (if k ∈ s.entries then s.got k ++ s.queue k else s.got k) = if k ∈ m.loggers then m.got k ++ m.queue k else m.got k
      rw [h.table, h.queue k, h.got k]
  | enable =>
    have g1 := start_goes (t := t) (s := { s with out := upd s.out t none, ctxAsync := true }) (nx := .enable) h.dead h.pc
    have hp0 : (Modes.call m t (.enable true)).pcs[t]? = some (.snap false) := Modes.set_self h.pc' _
    have h1 := Modes.step_go hp0
    simp only [Modes.go] at h1
    have hp1 := Modes.set_self hp0 (.setting (Modes.call m t (.enable true)).loggers false)
    obtain ⟨m2, g2, j1, j2, j3, j4, j5, j6, j7⟩ := Modes.setting_closed (t := t) false _
      ((Modes.call m t (.enable true)).to t (.setting (Modes.call m t (.enable true)).loggers false)) hp1
    have h4 := Modes.step_go j1
    simp only [Modes.go] at h4
    refine ⟨_, _, g1, ((Modes.Goes.one h1).trans g2).trans (Modes.Goes.one h4), ?_⟩
    simp only [finish, to_to, commit_dead (s := Sys.to { s with out := upd s.out t none, ctxAsync := true } t .idle) h.dead]
    refine ⟨h.table.trans j7.symm, h.dead, j6.symm, fun k => ?_, fun k => ?_, fun k => ?_, fun k => ?_, set_self h.pc _,
      Modes.set_self j1 _⟩
    · refine Eq.trans ?_ (j2 k).symm
      show (if k ∈ s.entries then false else s.mode k) = if k ∈ m.loggers then false else m.mode k
      rw [h.table, h.mode k]
    · exact (h.queue k).trans (congrFun j3 k).symm
    · exact (h.got k).trans (congrFun j4 k).symm
    · exact (congrFun j5 k).trans (h.owner k)
  | disable =>
    -- the modes
    have g1 := start_goes (t := t) (s := { s with out := upd s.out t none }) (nx := .modes) h.dead h.pc
    simp only [finish, to_to] at g1
    rw [commit_dead (by exact h.dead)] at g1
    -- the flush
    have g2 := start_goes (t := t) (nx := .flush true)
      (s := { (Sys.to { s with out := upd s.out t none } t .idle) with
        mode := fun l => if l ∈ s.entries then false else s.mode l }) h.dead (set_self h.pc .idle)
    have hp0 : (Modes.call m t (.disable true)).pcs[t]? = some (.snap true) := Modes.set_self h.pc' _
    have h1 := Modes.step_go hp0
    simp only [Modes.go] at h1
    have hp1 := Modes.set_self hp0 (.setting (Modes.call m t (.disable true)).loggers true)
    obtain ⟨m2, k2, j1, j2, j3, j4, j5, j6, j7⟩ := Modes.setting_closed (t := t) true _
      ((Modes.call m t (.disable true)).to t (.setting (Modes.call m t (.disable true)).loggers true)) hp1
    have h4 := Modes.step_go j1
    simp only [Modes.go, if_true] at h4
    have hp2 := Modes.set_self j1 (.flushSnap true)
    have h5 := Modes.step_go (s := m2.to t (.flushSnap true)) hp2
    simp only [Modes.go] at h5
    have hp3 := Modes.set_self (s := m2.to t (.flushSnap true)) hp2 (.flush m2.loggers true)
    obtain ⟨m3, k3, i1, i2, i3, i4, i5, i6, i7⟩ := Modes.flushes_closed (t := t) true _
      ((m2.to t (.flushSnap true)).to t (.flush m2.loggers true)) hp3
      (fun l => (congrFun j5 l).trans (h.owner l))
    have h6 := Modes.step_go i1
    simp only [Modes.go, if_true] at h6
    refine ⟨_, _, g1.trans g2, ((((Modes.Goes.one h1).trans k2).trans (Modes.Goes.one h4)).trans (Modes.Goes.one h5)).trans
      (k3.trans (Modes.Goes.one h6)), ?_⟩
    simp only [finish, to_to]
    rw [commit_dead (by exact h.dead)]
    refine ⟨h.table.trans (i7.trans j7).symm, h.dead, rfl, fun k => ?_, fun k => ?_, fun k => ?_, i4,
      set_self (set_self h.pc _) _, Modes.set_self i1 _⟩
    · refine Eq.trans ?_ ((congrFun i5 k).trans (j2 k)).symm
      show (if k ∈ s.entries then false else s.mode k) = if k ∈ m.loggers then false else m.mode k
      rw [h.table, h.mode k]
    · refine Eq.trans ?_ (i2 k).symm
      show (if k ∈ s.entries then [] else s.queue k) = if k ∈ m2.loggers then [] else m2.queue k
      rw [j7, j3, h.table, h.queue k]
      rfl
    · refine Eq.trans ?_ (i3 k).symm
      show (if k ∈ s.entries then s.got k ++ s.queue k else s.got k) = if k ∈ m2.loggers then m2.got k ++ m2.queue k else m2.got k
      rw [j7, j3, j4, h.table, h.queue k, h.got k]
      rfl

/-- The fresh states are alike. -/
theorem init_like {n : Nat} (ht : t < n) : Like t (init n) (Modes.init n) :=
  ⟨rfl, rfl, rfl, fun _ => rfl, fun _ => rfl, fun _ => rfl, fun _ => rfl, by simp [init, ht], by simp [Modes.init, ht]⟩

end

/-- A case: an asynchronous logger with an event, then `disable_async`. -/
example : let s := run (init 1) [(0, .new 7 true), (0, .publish 7 3), (0, .disable), (0, .go), (0, .go), (0, .go), (0, .go)]
    let m := Modes.run (Modes.init 1) ([(0, .new 7 (some true)), (0, .go), (0, .go), (0, .publish 7 3), (0, .go), (0, .go),
      (0, .disable true)] ++ List.replicate 9 (0, .go))
    s.got 7 = [3] ∧ m.got 7 = [3] ∧ s.mode 7 = false ∧ m.mode 7 = false ∧ s.pcs = [.idle] ∧ m.pcs = [.idle] := by decide +kernel

end Verif.Copying
