import Verif.Lemmas.Received
import Verif.Model.Stack
/-!
# What holds in every state of the process, whatever sinks, hooks and handlers do
-/
namespace Verif.Stack
open scoped List
attribute [local irreducible] QUEUE_LIMIT
variable {env : Env} {s s' : St}

/-! ## Actions -/

/-- Actions and publications are consistent. -/
structure CI (c : Core) : Prop where
  trans : TransOK c
  id : IdInv c
  ev : EvInv c
  pub : PubInv c
  ord : OrderInv c

theorem CI.init : CI World.init.core :=
  ⟨(Good.init ⟨fun _ => 0, fun _ _ => false, fun _ _ => none, fun _ => none, fun _ _ _ => .ok ""⟩).trans,
    (Good.init ⟨fun _ => 0, fun _ _ => false, fun _ _ => none, fun _ => none, fun _ _ _ => .ok ""⟩).id,
    (Good.init ⟨fun _ => 0, fun _ _ => false, fun _ _ => none, fun _ => none, fun _ _ _ => .ok ""⟩).pre.ev, pubInv_init,
    (Reachable.init ⟨fun _ => 0, fun _ _ => false, fun _ _ => none, fun _ => none, fun _ _ _ => .ok ""⟩).orderInv⟩

theorem CI.step {c d : Core} (h : CI c) (st : CoreStep c d) : CI d :=
  ⟨transOK_step h.trans st, idInv_step h.id st, evInv_step h.id h.ev st, pubInv_step h.id h.ev h.pub st, orderInv_step h.ev h.pub h.ord st⟩

theorem CI.star {c d : Core} (h : CI c) (st : CoreStar c d) : CI d := st.inv (P := CI) (fun _ _ h s => h.step s) h

/-- Actions stay, and keep their exceptions. -/
def Keeps (c d : Core) : Prop :=
  ∀ a x, c.acts a = some x → ∃ y, d.acts a = some y ∧ y.handle = x.handle ∧ y.logger = x.logger ∧ ∀ e ∈ x.excEvs, e ∈ y.excEvs

theorem Keeps.refl (c : Core) : Keeps c c := fun _ x h => ⟨x, h, rfl, rfl, fun _ h => h⟩
theorem Keeps.trans {c d e : Core} (h : Keeps c d) (g : Keeps d e) : Keeps c e := by
  intro a x hx
  obtain ⟨y, hy, h1, h2, h3⟩ := h a x hx
  obtain ⟨z, hz, g1, g2, g3⟩ := g a y hy
  exact ⟨z, hz, g1.trans h1, g2.trans h2, fun e he => g3 e (h3 e he)⟩

theorem keeps_upd {c : Core} {b : ActId} {x y : Verif.Act} {n : Nat} {p : List (Kind × Event)} (hx : c.acts b = some x)
    (h1 : y.handle = x.handle) (h2 : y.logger = x.logger) (h3 : ∀ e ∈ x.excEvs, e ∈ y.excEvs) :
    Keeps c ⟨n, updAct c.acts b y, p⟩ := by
  intro a z hz
  by_cases h : a = b
  · subst h; rw [hx] at hz; cases hz; exact ⟨y, by simp, h1, h2, h3⟩
  · exact ⟨z, by simp [updAct_ne _ _ h, hz], rfl, rfl, fun _ h => h⟩

theorem keeps_new {c : Core} (h : IdInv c) {y : Verif.Act} {n : Nat} {p : List (Kind × Event)} : Keeps c ⟨n, updAct c.acts c.nextId y, p⟩ := by
  intro a z hz
  have := h.actLt a z hz
  exact ⟨z, by simp [updAct_ne _ _ (Nat.ne_of_lt this), hz], rfl, rfl, fun _ h => h⟩

theorem keeps_step {c d : Core} (h : IdInv c) (st : CoreStep c d) : Keeps c d := by
  cases st with
  | newAct x => exact keeps_new h
  | upd a x d t f hx => exact keeps_upd hx rfl rfl fun _ h => h
  | begin a x d t f e hx => exact keeps_upd hx rfl rfl fun _ h => h
  | warn a x d e hx => exact keeps_upd hx rfl rfl fun _ h => h
  | exc a x e hx => exact keeps_upd hx rfl rfl fun _ h => by simp [h]
  | fin a x e hx => exact keeps_upd hx rfl rfl fun _ h => h
  | pubEnd a x e => exact Keeps.refl _
  | comment x b en e => exact keeps_new h

theorem CI.keeps {c d : Core} (h : CI c) (st : CoreStar c d) : Keeps c d := by
  have : CI d ∧ Keeps c d := by
    induction st with
    | refl => exact ⟨h, .refl _⟩
    | tail _ s ih => exact ⟨ih.1.step s, ih.2.trans (keeps_step ih.1.id s)⟩
  exact this.2

/-! ## Lists and loops -/

/-- Loggers stay, and their lists only get longer. -/
structure Grows (s s' : St) : Prop where
  logs : ∀ l, (s.w.logs l).isSome → (s'.w.logs l).isSome
  gen : ∀ l, s.gen l ≤ s'.gen l
  list : ∀ l g k, (s.w.logs l).isSome → g ≤ s.gen l → s.list l g k <+: s'.list l g k

theorem grows_same (h1 : s'.w.logs = s.w.logs) (h2 : s'.gen = s.gen) (h3 : s'.old = s.old) : Grows s s' :=
  ⟨fun l h => by rw [h1]; exact h, fun l => Nat.le_of_eq (by rw [h2]), fun l g k _ _ => by simp only [St.list, h1, h2, h3]; exact List.prefix_rfl⟩

/-- A frame that is in order. -/
def FrameOK (s : St) : Frame → Prop
  | .hooks l g k e i => (s.w.logs l).isSome ∧ g ≤ s.gen l ∧ i ≤ (s.list l g k).length ∧ e.kind = k ∧ e.logger = l ∧
      (k ≠ .exception → (k, e) ∈ s.w.pub) ∧ (k = .exception → ∃ x, s.w.acts e.act = some x ∧ e ∈ x.excEvs)
  | .endRest a st _ _ _ => (st = .success ∨ st = .failure ∨ st = .exception) ∧
      ∃ x, s.w.acts a = some x ∧ x.handle = true ∧ (st = .exception → x.excEvs ≠ [])
  | .excRest a _ _ _ _ _ => ∃ x, s.w.acts a = some x ∧ x.handle = true ∧ x.excEvs ≠ []
  | _ => True

theorem ne_nil_of_sub {α : Type} {x y : List α} (h : x ≠ []) (hs : ∀ e ∈ x, e ∈ y) : y ≠ [] := by
  obtain ⟨e, he⟩ := List.exists_mem_of_ne_nil x h
  intro hy
  have := hs e he
  rw [hy] at this
  cases this

theorem FrameOK.mono {f : Frame} (h : FrameOK s f) (hk : Keeps s.w.core s'.w.core) (hg : Grows s s')
    (hp : ∀ x ∈ s.w.pub, x ∈ s'.w.pub) : FrameOK s' f := by
  cases f with
  | hooks l g k e i =>
    obtain ⟨h1, h2, h3, h4, h5, h6, h7⟩ := h
    refine ⟨hg.logs l h1, Nat.le_trans h2 (hg.gen l), Nat.le_trans h3 (hg.list l g k h1 h2).length_le, h4, h5, fun hk => hp _ (h6 hk), ?_⟩
    intro he
    obtain ⟨x, hx, hxe⟩ := h7 he
    obtain ⟨y, hy, _, _, hs⟩ := hk _ x hx
    exact ⟨y, hy, hs e hxe⟩
  | endRest a st m f e =>
    obtain ⟨h1, x, hx, hh, hs⟩ := h
    obtain ⟨y, hy, hy1, _, hy3⟩ := hk a x hx
    exact ⟨h1, y, hy, hy1.trans hh, fun h => ne_nil_of_sub (hs h) hy3⟩
  | excRest a m f kw t e =>
    obtain ⟨x, hx, hh, hs⟩ := h
    obtain ⟨y, hy, hy1, _, hy3⟩ := hk a x hx
    exact ⟨y, hy, hy1.trans hh, ne_nil_of_sub hs hy3⟩
  | _ => trivial

/-- May this frame still hand `p` to sink `sk`? -/
def owes (lst : LogId → Nat → Kind → List SinkId) (sk : SinkId) (p : Kind × Event) : Frame → Nat
  | .hooks l g k e i => if (k, e) = p ∧ sk ∉ (lst l g k).take i then 1 else 0
  | _ => 0

def due (s : St) (sk : SinkId) (p : Kind × Event) (fs : List Frame) : Nat := (fs.map (owes s.list sk p)).sum

@[simp] theorem due_nil (sk : SinkId) (p : Kind × Event) : due s sk p [] = 0 := rfl
@[simp] theorem due_cons (sk : SinkId) (p : Kind × Event) (f : Frame) (fs : List Frame) :
    due s sk p (f :: fs) = owes s.list sk p f + due s sk p fs := rfl

theorem take_prefix {α : Type} {x y : List α} (h : x <+: y) {i : Nat} (hi : i ≤ x.length) : y.take i = x.take i := by
  obtain ⟨z, rfl⟩ := h
  rw [List.take_append_of_le_length hi]

theorem due_grows (hg : Grows s s') (sk : SinkId) (p : Kind × Event) {fs : List Frame} (h : ∀ f ∈ fs, FrameOK s f) :
    due s' sk p fs = due s sk p fs := by
  induction fs with
  | nil => rfl
  | cons f fs ih =>
    rw [due_cons, due_cons, ih fun g hg => h g (by simp [hg])]
    have hf := h f (by simp)
    cases f with
    | hooks l g k e i =>
      obtain ⟨h1, h2, h3, _⟩ := hf
      simp only [owes, take_prefix (hg.list l g k h1 h2) h3]
    | _ => rfl

/-! ## The invariant -/

structure Inv (env : Env) (s : St) : Prop where
  core : CI s.w.core
  log : LogOK s.w
  q : QInv env s.w.del
  bound : ∀ l L, s.w.logs l = some L → L.queue.length ≤ QUEUE_LIMIT
  nodup : ∀ l g k, (s.list l g k).Nodup
  frames : ∀ f ∈ s.stack, FrameOK s f
  exc : ∀ sk e, (Kind.exception, e) ∈ received sk s.w.trace → ∃ x, s.w.acts e.act = some x ∧ e ∈ x.excEvs
  count : ∀ sk p, p.1 ≠ Kind.exception →
    (received sk s.w.trace).count p + (s.w.del.queue p.2.logger).count p + due s sk p s.stack ≤ s.w.pub.count p

theorem Inv.init (env : Env) : Inv env St.init := by
  refine ⟨CI.init, (Good.init env).pre.log, (Good.init env).q, ?_, ?_, ?_, ?_, ?_⟩
  · intro l L h; cases h
  · intro l g k; have : St.init.list l g k = [] := by simp only [St.list, St.init, World.init]; exact ite_self _
    rw [this]; exact List.nodup_nil
  · intro f hf; simp only [St.init, List.mem_singleton] at hf; subst hf; trivial
  · intro sk e h; simp [St.init, World.init, received] at h
  · intro sk p _; simp [St.init, World.init, received, World.del, Del.queue, due, owes]

/-- `up` plays no role. -/
theorem Inv.setUp (h : Inv env s) (u : Option Exc) : Inv env { s with up := u } := by
  obtain ⟨h1, h2, h3, h4, h5, h6, h7, h8⟩ := h
  refine ⟨h1, h2, h3, h4, h5, ?_, h7, h8⟩
  intro f hf
  have := h6 f hf
  cases f <;> exact this

/-- A frame is done with. -/
theorem Inv.pop {f : Frame} {fs : List Frame} (h : Inv env s) (hs : s.stack = f :: fs) : Inv env { s with stack := fs } := by
  refine ⟨h.core, h.log, h.q, h.bound, h.nodup, ?_, h.exc, ?_⟩
  · intro g hg
    have := h.frames g (by rw [hs]; simp [hg])
    cases g <;> exact this
  · intro sk p hp
    have := h.count sk p hp
    rw [hs, due_cons] at this
    have e : due { s with stack := fs } sk p fs = due s sk p fs := rfl
    show _ + _ + due { s with stack := fs } sk p fs ≤ _
    rw [e]
    simp only
    omega

/-- A frame that is no loop over hooks. -/
def Frame.plain : Frame → Bool
  | .hooks .. => false
  | _ => true

theorem Inv.push {f : Frame} (h : Inv env s) (hf : FrameOK s f) (hp : f.plain = true) : Inv env (s.push f) := by
  refine ⟨h.core, h.log, h.q, h.bound, h.nodup, ?_, h.exc, ?_⟩
  · intro g hg
    have h1 : FrameOK s g := by
      rcases List.mem_cons.1 hg with rfl | hg
      · exact hf
      · exact h.frames g hg
    cases g <;> exact h1
  · intro sk p hpk
    have := h.count sk p hpk
    have e : due (s.push f) sk p (s.push f).stack = due s sk p s.stack := by
      show owes s.list sk p f + due s sk p s.stack = _
      cases f <;> simp_all [Frame.plain, owes]
    rw [e]
    exact this

/-- Actions change, deliveries do not. -/
theorem Inv.acts {w : World} (h : Inv env s) (hc : CoreStar s.w.core w.core) (hd : w.del = s.w.del) (hl : LogOK w) : Inv env (s.world w) := by
  have h1 : w.trace = s.w.trace := congrArg Del.trace hd
  have h2 : w.logs = s.w.logs := congrArg Del.logs hd
  have h3 : w.pub = s.w.pub := congrArg Del.pub hd
  have hk := h.core.keeps hc
  have hg : Grows s (s.world w) := grows_same h2 rfl rfl
  refine ⟨h.core.star hc, hl, by show QInv env w.del; rw [hd]; exact h.q, by show ∀ l L, w.logs l = some L → _; rw [h2]; exact h.bound, ?_, ?_, ?_, ?_⟩
  · intro l g k
    have := h.nodup l g k
    simpa only [St.list, St.world, h2] using this
  · intro f hf
    exact (h.frames f hf).mono hk hg fun x hx => by show x ∈ w.pub; rw [h3]; exact hx
  · intro sk e he
    obtain ⟨x, hx, hxe⟩ := h.exc sk e (by rw [← h1]; exact he)
    obtain ⟨y, hy, _, _, hs⟩ := hk _ x hx
    exact ⟨y, hy, hs e hxe⟩
  · intro sk p hp
    have := h.count sk p hp
    rw [show due (s.world w) sk p (s.world w).stack = due s sk p s.stack from due_grows hg sk p h.frames]
    show (received sk w.trace).count p + (w.del.queue p.2.logger).count p + _ ≤ w.pub.count p
    rw [h1, hd, h3]
    exact this

theorem count_append_single {p x : Kind × Event} (xs : List (Kind × Event)) : (xs ++ [x]).count p = xs.count p + if x = p then 1 else 0 := by
  rw [List.count_append, List.count_singleton]
  by_cases h : x = p <;> simp [h]

theorem length_pushBounded {α : Type} (n : Nat) (q : List α) (x : α) : (pushBounded n q x).length ≤ max n 0 ∨ (pushBounded n q x).length ≤ n := by
  right
  simp only [pushBounded, List.length_drop, List.length_append, List.length_singleton]
  omega

/-- Publishing. -/
theorem Inv.emit {w : World} {l : LogId} {k : Kind} {e : Event} (h : Inv env s)
    (hc : CoreStar s.w.core ⟨w.nextId, w.acts, w.pub ++ [(k, e)]⟩) (hd : w.del = s.w.del) (hl : LogOK w)
    (hlog : (s.w.logs l).isSome) (hel : e.logger = l) (hek : e.kind = k) (hk : k ≠ .exception) :
    Inv env (emit (s.world w) l k e) := by
  have h1 : w.trace = s.w.trace := congrArg Del.trace hd
  have h2 : w.logs = s.w.logs := congrArg Del.logs hd
  have h3 : w.pub = s.w.pub := congrArg Del.pub hd
  have hkeep := h.core.keeps hc
  obtain ⟨L, hL⟩ := Option.isSome_iff_exists.1 hlog
  have hexc : ∀ (w' : World), w'.acts = w.acts → ∀ sk ev, (Kind.exception, ev) ∈ received sk s.w.trace → ∃ x, w'.acts ev.act = some x ∧ ev ∈ x.excEvs := by
    intro w' hw sk ev he
    obtain ⟨x, hx, hxe⟩ := h.exc sk ev he
    obtain ⟨y, hy, _, _, hs⟩ := hkeep _ x hx
    exact ⟨y, by rw [hw]; exact hy, hs ev hxe⟩
  have hin : ∀ x ∈ s.w.pub, x ∈ w.pub ++ [(k, e)] := by intro x hx; rw [h3]; simp [hx]
  have hq := h.q.q
  unfold Verif.Stack.emit
  have hwl : w.logs l = some L := by rw [h2, hL]
  simp only [St.world, hwl]
  by_cases ha : L.async = true
  · simp only [if_pos ha]
    generalize hs' : ({ w := { w with pub := w.pub ++ [(k, e)] }.setLog l { L with queue := pushBounded QUEUE_LIMIT L.queue (k, e) }, gen := s.gen, old := s.old, stack := s.stack, up := s.up } : St) = s'
    have hlogs : s'.w.logs = updLog s.w.logs l { L with queue := pushBounded QUEUE_LIMIT L.queue (k, e) } := by subst hs'; show updLog w.logs _ _ = _; rw [h2]
    have hgen : s'.gen = s.gen := by subst hs'; rfl
    have hold : s'.old = s.old := by subst hs'; rfl
    have hstack : s'.stack = s.stack := by subst hs'; rfl
    have hpub : s'.w.pub = s.w.pub ++ [(k, e)] := by subst hs'; show w.pub ++ _ = _; rw [h3]
    have htr : s'.w.trace = s.w.trace := by subst hs'; exact h1
    have hact : s'.w.acts = w.acts := by subst hs'; rfl
    have hcore : s'.w.core = ⟨w.nextId, w.acts, w.pub ++ [(k, e)]⟩ := by subst hs'; rfl
    have hlist : s'.list = s.list := by
      funext l' g k'
      simp only [St.list, hgen, hold, hlogs, updLog]
      by_cases hll : l' = l
      · subst hll; simp [hL]
      · simp [hll]
    have hg : Grows s s' := ⟨fun m hm => by rw [hlogs, updLog]; split <;> simp_all, fun m => Nat.le_of_eq (by rw [hgen]), fun m g k' _ _ => by rw [hlist]; exact List.prefix_rfl⟩
    have hqueue : ∀ m, s'.w.del.queue m = if m = l then pushBounded QUEUE_LIMIT L.queue (k, e) else s.w.del.queue m := by
      intro m
      simp only [World.del, Del.queue, hlogs, updLog]
      by_cases hm : m = l <;> simp [hm]
    have hLq : s.w.del.queue l = L.queue := by simp [World.del, Del.queue, hL]
    refine ⟨by rw [hcore]; exact h.core.star hc, ?_, ⟨?_, ?_⟩, ?_, ?_, ?_, ?_, ?_⟩
    · intro a x hx
      rw [hact] at hx
      have := hl a x hx
      rw [h2] at this
      exact hg.logs _ this
    · intro m M hM
      simp only [World.del, hlogs, updLog] at hM
      split at hM
      · cases hM
        have := h.q.reg l L hL
        exact ⟨this.nodup, this.hooks⟩
      · exact h.q.reg m M hM
    · intro m k' e' hm
      rw [hqueue] at hm
      show _ ∧ _ ∧ _ ∧ (k', e') ∈ s'.w.pub
      rw [hpub]
      split at hm
      · subst_vars
        have := (pushBounded_sublist _ _ _).subset hm
        rcases List.mem_append.1 this with h' | h'
        · have := hq _ k' e' (by rw [hLq]; exact h')
          exact ⟨this.1, this.2.1, this.2.2.1, List.mem_append_left _ this.2.2.2⟩
        · simp only [List.mem_singleton, Prod.mk.injEq] at h'
          obtain ⟨rfl, rfl⟩ := h'
          exact ⟨rfl, rfl, hk, by simp⟩
      · have := hq _ k' e' hm
        exact ⟨this.1, this.2.1, this.2.2.1, List.mem_append_left _ this.2.2.2⟩
    · intro m M hM
      rw [hlogs, updLog] at hM
      split at hM
      · cases hM
        rcases length_pushBounded QUEUE_LIMIT L.queue (k, e) with h' | h' <;> simpa using h'
      · exact h.bound m M hM
    · intro m g k'; rw [hlist]; exact h.nodup m g k'
    · intro f hf
      rw [hstack] at hf
      exact (h.frames f hf).mono (by rw [hcore]; exact hkeep) hg (by rw [hpub, ← h3]; intro x hx; simp [hx])
    · intro sk ev he
      rw [htr] at he
      exact hexc s'.w hact sk ev he
    · intro sk p hp
      have := h.count sk p hp
      rw [hstack, due_grows hg sk p h.frames, htr, hqueue, hpub, count_append_single]
      split
      · rename_i hpl
        have h9 := (pushBounded_sublist QUEUE_LIMIT L.queue (k, e)).count_le p
        rw [count_append_single] at h9
        rw [hpl, hLq] at this
        omega
      · split <;> omega
  · simp only [if_neg ha]
    generalize hs' : (St.push { w := { w with pub := w.pub ++ [(k, e)] }, gen := s.gen, old := s.old, stack := s.stack, up := s.up } (.hooks l (s.gen l) k e 0) : St) = s'
    have hlogs : s'.w.logs = s.w.logs := by subst hs'; exact h2
    have hgen : s'.gen = s.gen := by subst hs'; rfl
    have hold : s'.old = s.old := by subst hs'; rfl
    have hstack : s'.stack = .hooks l (s.gen l) k e 0 :: s.stack := by subst hs'; rfl
    have hpub : s'.w.pub = s.w.pub ++ [(k, e)] := by subst hs'; show w.pub ++ _ = _; rw [h3]
    have htr : s'.w.trace = s.w.trace := by subst hs'; exact h1
    have hact : s'.w.acts = w.acts := by subst hs'; rfl
    have hcore : s'.w.core = ⟨w.nextId, w.acts, w.pub ++ [(k, e)]⟩ := by subst hs'; rfl
    have hg : Grows s s' := grows_same hlogs hgen hold
    have hlist : s'.list = s.list := by
      funext l' g k'; simp only [St.list, hgen, hold, hlogs]
    have hqueue : ∀ m, s'.w.del.queue m = s.w.del.queue m := by intro m; simp only [World.del, Del.queue, hlogs]
    refine ⟨by rw [hcore]; exact h.core.star hc, ?_, ⟨?_, ?_⟩, ?_, ?_, ?_, ?_, ?_⟩
    · intro a x hx
      rw [hact] at hx
      have := hl a x hx
      rw [h2] at this
      exact hg.logs _ this
    · intro m M hM
      exact h.q.reg m M (by simpa [World.del, hlogs] using hM)
    · intro m k' e' hm
      rw [hqueue] at hm
      have := hq _ k' e' hm
      exact ⟨this.1, this.2.1, this.2.2.1, by show _ ∈ s'.w.pub; rw [hpub]; exact List.mem_append_left _ this.2.2.2⟩
    · intro m M hM
      exact h.bound m M (by rw [← hlogs]; exact hM)
    · intro m g k'; rw [hlist]; exact h.nodup m g k'
    · intro f hf
      rw [hstack] at hf
      rcases List.mem_cons.1 hf with rfl | hf
      · exact ⟨by rw [hlogs]; exact hlog, Nat.le_of_eq (by rw [hgen]), Nat.zero_le _, hek, hel, fun _ => by rw [hpub]; simp, fun h => absurd h hk⟩
      · exact (h.frames f hf).mono (by rw [hcore]; exact hkeep) hg (by rw [hpub, ← h3]; intro x hx; simp [hx])
    · intro sk ev he
      rw [htr] at he
      exact hexc s'.w hact sk ev he
    · intro sk p hp
      have := h.count sk p hp
      rw [hstack, due_cons, due_grows hg sk p h.frames, htr, hqueue, hpub, count_append_single]
      simp only [owes, List.take_zero, List.not_mem_nil, not_false_eq_true, and_true]
      omega

/-- Something that is no hook of a sink is called, or nothing. -/
theorem Inv.quiet {o : Obs} (h : Inv env s) (ho : o.isHook = false) : Inv env (enterCode s o) := by
  have hr : ∀ sk, received sk (s.w.trace ++ [o]) = received sk s.w.trace := by
    intro sk
    rw [received_append, received_noHook sk (t := [o]) (by simpa using ho), List.append_nil]
  have h0 : Inv env (s.world { s.w with trace := s.w.trace ++ [o] }) := by
    refine ⟨h.core, h.log, ⟨h.q.reg, h.q.q⟩, h.bound, h.nodup, ?_, ?_, ?_⟩
    · intro f hf
      have := h.frames f hf
      cases f <;> exact this
    · intro sk e he
      simp only [St.world, hr] at he
      exact h.exc sk e he
    · intro sk p hp
      have := h.count sk p hp
      simp only [St.world, hr]
      exact this
  exact h0.push trivial rfl

theorem getElem?_take {α : Type} {x : List α} {i : Nat} {a : α} (h : x[i]? = some a) : x.take (i + 1) = x.take i ++ [a] := by
  rw [List.take_succ, h]; rfl

/-- A sink is called. -/
theorem Inv.hook {l : LogId} {g : Nat} {k : Kind} {e : Event} {i : Nat} {sk : SinkId} {fs : List Frame} (h : Inv env s)
    (hs : s.stack = .hooks l g k e i :: fs) (hi : (s.list l g k)[i]? = some sk) :
    Inv env (enterCode ({ s with stack := fs }.push (.hooks l g k e (i + 1))) (.hook sk k e)) := by
  have hf := h.frames _ (by rw [hs]; exact List.mem_cons_self)
  obtain ⟨f1, f2, f3, f4, f5, f6, f7⟩ := hf
  have hr : ∀ s', received s' (s.w.trace ++ [Obs.hook sk k e]) = received s' s.w.trace ++ if sk = s' then [(k, e)] else [] := by
    intro s'
    rw [received_append]
    congr 1
    simp only [received, List.filterMap_cons, List.filterMap_nil]
    split <;> simp_all
  have hlt : i < (s.list l g k).length := by
    obtain ⟨h', _⟩ := List.getElem?_eq_some_iff.1 hi; exact h'
  have h0 : Inv env (({ s with stack := fs }.push (.hooks l g k e (i + 1))).world { s.w with trace := s.w.trace ++ [Obs.hook sk k e] }) := by
    refine ⟨h.core, h.log, ⟨h.q.reg, h.q.q⟩, h.bound, h.nodup, ?_, ?_, ?_⟩
    · intro f hf
      rcases List.mem_cons.1 hf with rfl | hf
      · exact ⟨f1, f2, hlt, f4, f5, f6, f7⟩
      · have := h.frames f (by rw [hs]; exact List.mem_cons_of_mem _ hf)
        cases f <;> exact this
    · intro s' ev he
      simp only [St.world, St.push, hr] at he
      rcases List.mem_append.1 he with he | he
      · exact h.exc s' ev he
      · split at he
        · simp only [List.mem_singleton, Prod.mk.injEq] at he
          obtain ⟨rfl, rfl⟩ := he
          exact f7 rfl
        · cases he
    · intro s' p hp
      have hc := h.count s' p hp
      rw [hs, due_cons] at hc
      have hd : due (({ s with stack := fs }.push (.hooks l g k e (i + 1))).world { s.w with trace := s.w.trace ++ [Obs.hook sk k e] }) s' p
          (({ s with stack := fs }.push (.hooks l g k e (i + 1))).world { s.w with trace := s.w.trace ++ [Obs.hook sk k e] }).stack =
          owes s.list s' p (.hooks l g k e (i + 1)) + due s s' p fs := rfl
      rw [hd]
      simp only [St.world, St.push, hr]
      show (received s' s.w.trace ++ _).count p + (s.w.del.queue p.2.logger).count p + _ ≤ s.w.pub.count p
      rw [List.count_append]
      simp only [owes, getElem?_take hi, List.mem_append, List.mem_singleton, not_or] at hc ⊢
      have hnot : sk ∉ (s.list l g k).take i := by
        have hn := h.nodup l g k
        rw [← List.take_append_drop (i + 1) (s.list l g k), getElem?_take hi, List.append_assoc] at hn
        have := (List.nodup_append.1 hn).2.2
        intro hm
        exact this sk hm sk (by simp) rfl
      by_cases hsk : sk = s'
      · subst hsk
        by_cases hpe : (k, e) = p
        · subst hpe
          simp only [hnot, not_false_eq_true, and_self, if_true, not_true, and_false, if_false] at hc ⊢
          simp only [List.count_singleton_self]
          omega
        · have : ([(k, e)] : List (Kind × Event)).count p = 0 := by simp [hpe]
          simp only [hpe, false_and, if_false, if_true, this] at hc ⊢
          omega
      · have : (¬ s' = sk) := fun h => hsk h.symm
        simp only [if_neg hsk, List.count_nil, this, not_false_eq_true, and_true] at hc ⊢
        omega
  exact h0.push trivial rfl

/-- A loop over the exception hooks. -/
theorem Inv.pushExc {l : LogId} {e : Event} (h : Inv env s) (hl : (s.w.logs l).isSome) (he : e.kind = .exception) (hel : e.logger = l)
    (hx : ∃ x, s.w.acts e.act = some x ∧ e ∈ x.excEvs) : Inv env (s.push (.hooks l (s.gen l) .exception e 0)) := by
  refine ⟨h.core, h.log, h.q, h.bound, h.nodup, ?_, h.exc, ?_⟩
  · intro g hg
    rcases List.mem_cons.1 hg with rfl | hg
    · exact ⟨hl, Nat.le_refl _, Nat.zero_le _, he, hel, fun h => absurd rfl h, fun _ => hx⟩
    · have := h.frames g hg
      cases g <;> exact this
  · intro sk p hp
    have := h.count sk p hp
    have e : due (s.push (.hooks l (s.gen l) .exception e 0)) sk p (s.push (.hooks l (s.gen l) .exception e 0)).stack = due s sk p s.stack := by
      show owes s.list sk p _ + due s sk p s.stack = _
      simp only [owes]
      rw [if_neg]
      · omega
      · rintro ⟨rfl, _⟩; exact hp rfl
    rw [e]
    exact this

/-- Loggers change, but neither what is queued nor the lists, except that these may get longer. -/
theorem Inv.logs {s' : St} (h : Inv env s) (hcore : s'.w.core = s.w.core) (htr : s'.w.trace = s.w.trace) (hst : s'.stack = s.stack)
    (hg : Grows s s') (hq : ∀ l, s'.w.del.queue l = s.w.del.queue l) (hreg : ∀ l L, s'.w.logs l = some L → RegOk env L)
    (hnd : ∀ l g k, (s'.list l g k).Nodup) : Inv env s' := by
  have hacts : s'.w.acts = s.w.acts := congrArg Core.acts hcore
  have hpub : s'.w.pub = s.w.pub := congrArg Core.pub hcore
  refine ⟨by rw [hcore]; exact h.core, ?_, ⟨hreg, ?_⟩, ?_, hnd, ?_, ?_, ?_⟩
  · intro a x hx
    exact hg.logs _ (h.log a x (by rw [← hacts]; exact hx))
  · intro l k e he
    rw [hq] at he
    have := h.q.q l k e he
    exact ⟨this.1, this.2.1, this.2.2.1, by show _ ∈ s'.w.pub; rw [hpub]; exact this.2.2.2⟩
  · intro l L hL
    have h1 := hq l
    simp only [World.del, Del.queue, hL] at h1
    rw [h1]
    cases hM : s.w.logs l with
    | none => simp
    | some M => exact h.bound l M hM
  · intro f hf
    rw [hst] at hf
    exact (h.frames f hf).mono (by rw [hcore]; exact Keeps.refl _) hg (by rw [hpub]; exact fun _ h => h)
  · intro sk e he
    rw [htr] at he
    rw [hacts]
    exact h.exc sk e he
  · intro sk p hp
    rw [hst, due_grows hg sk p h.frames, htr, hq, hpub]
    exact h.count sk p hp

/-- An event is taken from a queue. -/
theorem Inv.take {l : LogId} {L : Log} {k : Kind} {e : Event} {q : List (Kind × Event)} (h : Inv env s) (hL : s.w.logs l = some L)
    (hq : L.queue = (k, e) :: q) :
    Inv env ((s.world (s.w.setLog l { L with queue := q })).push (.hooks l (s.gen l) k e 0)) := by
  have hLq : s.w.del.queue l = L.queue := by simp [World.del, Del.queue, hL]
  obtain ⟨q1, q2, q3, q4⟩ := h.q.q l k e (by rw [hLq, hq]; simp)
  generalize hs' : (s.world (s.w.setLog l { L with queue := q })).push (.hooks l (s.gen l) k e 0) = s'
  have hlogs : s'.w.logs = updLog s.w.logs l { L with queue := q } := by subst hs'; rfl
  have hgen : s'.gen = s.gen := by subst hs'; rfl
  have hold : s'.old = s.old := by subst hs'; rfl
  have hstack : s'.stack = .hooks l (s.gen l) k e 0 :: s.stack := by subst hs'; rfl
  have hpub : s'.w.pub = s.w.pub := by subst hs'; rfl
  have htr : s'.w.trace = s.w.trace := by subst hs'; rfl
  have hact : s'.w.acts = s.w.acts := by subst hs'; rfl
  have hcore : s'.w.core = s.w.core := by subst hs'; rfl
  have hlist : s'.list = s.list := by
    funext l' g k'
    simp only [St.list, hgen, hold, hlogs, updLog]
    by_cases hll : l' = l
    · subst hll; simp [hL]
    · simp [hll]
  have hg : Grows s s' := ⟨fun m hm => by rw [hlogs, updLog]; split <;> simp_all, fun m => Nat.le_of_eq (by rw [hgen]), fun m g k' _ _ => by rw [hlist]; exact List.prefix_rfl⟩
  have hqueue : ∀ m, s'.w.del.queue m = if m = l then q else s.w.del.queue m := by
    intro m
    simp only [World.del, Del.queue, hlogs, updLog]
    by_cases hm : m = l <;> simp [hm]
  refine ⟨by rw [hcore]; exact h.core, ?_, ⟨?_, ?_⟩, ?_, ?_, ?_, ?_, ?_⟩
  · intro a x hx
    rw [hact] at hx
    exact hg.logs _ (h.log a x hx)
  · intro m M hM
    simp only [World.del, hlogs, updLog] at hM
    split at hM
    · cases hM
      have := h.q.reg l L hL
      exact ⟨this.nodup, this.hooks⟩
    · exact h.q.reg m M hM
  · intro m k' e' hm
    rw [hqueue] at hm
    show _ ∧ _ ∧ _ ∧ (k', e') ∈ s'.w.pub
    rw [hpub]
    split at hm
    · subst_vars
      exact h.q.q _ k' e' (by rw [hLq, hq]; simp [hm])
    · exact h.q.q _ k' e' hm
  · intro m M hM
    rw [hlogs, updLog] at hM
    split at hM
    · cases hM
      have := h.bound l L hL
      rw [hq] at this
      simp only [List.length_cons] at this
      show q.length ≤ _
      omega
    · exact h.bound m M hM
  · intro m g k'; rw [hlist]; exact h.nodup m g k'
  · intro f hf
    rw [hstack] at hf
    rcases List.mem_cons.1 hf with rfl | hf
    · exact ⟨hg.logs l (by simp [hL]), Nat.le_of_eq (by rw [hgen]), Nat.zero_le _, q2, q1, fun _ => by rw [hpub]; exact q4, fun h => absurd h q3⟩
    · exact (h.frames f hf).mono (by rw [hcore]; exact Keeps.refl _) hg (by rw [hpub]; intro x hx; exact hx)
  · intro sk ev he
    rw [htr] at he
    rw [hact]
    exact h.exc sk ev he
  · intro sk p hp
    have := h.count sk p hp
    rw [hstack, due_cons, due_grows hg sk p h.frames, htr, hqueue, hpub]
    simp only [owes, List.take_zero, List.not_mem_nil, not_false_eq_true, and_true]
    by_cases hpe : (k, e) = p
    · subst hpe
      rw [if_pos rfl, if_pos q1]
      rw [show ((k, e) : Kind × Event).2.logger = l from q1, hLq, hq, List.count_cons_self] at this
      omega
    · rw [if_neg hpe]
      split
      · rename_i hpl
        rw [hpl, hLq, hq, List.count_cons_of_ne hpe] at this
        omega
      · omega

end Verif.Stack
