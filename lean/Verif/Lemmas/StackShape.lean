import Verif.Lemmas.StackStep
import Verif.Spec.Stack
/-!
# What a step may do to publications, queues, loops over hooks, and the calls made
-/
namespace Verif.Stack
open scoped List
attribute [local irreducible] QUEUE_LIMIT
variable {env : Env} {s s' t : St}

/-- Actions or the clock may have changed, or something been put on the stack. -/
structure Same (s s' : St) : Prop where
  pub : s'.w.pub = s.w.pub
  trace : s'.w.trace = s.w.trace
  logs : s'.w.logs = s.w.logs
  gen : s'.gen = s.gen
  old : s'.old = s.old
  stack : ∀ l g k e i, k ≠ .exception → Frame.hooks l g k e i ∈ s'.stack → Frame.hooks l g k e i ∈ s.stack

theorem Same.refl (s : St) : Same s s := ⟨rfl, rfl, rfl, rfl, rfl, fun _ _ _ _ _ _ h => h⟩
theorem Same.trans (h : Same s t) (g : Same t s') : Same s s' :=
  ⟨g.pub.trans h.pub, g.trace.trans h.trace, g.logs.trans h.logs, g.gen.trans h.gen, g.old.trans h.old,
    fun l n k e i hk hf => h.stack l n k e i hk (g.stack l n k e i hk hf)⟩
theorem same_world {w : World} (h1 : w.pub = s.w.pub) (h2 : w.trace = s.w.trace) (h3 : w.logs = s.w.logs) : Same s (s.world w) :=
  ⟨h1, h2, h3, rfl, rfl, fun _ _ _ _ _ _ h => h⟩
theorem same_push {f : Frame} (hf : f.plain = true) : Same s (s.push f) :=
  ⟨rfl, rfl, rfl, rfl, rfl, fun l g k e i _ h => by
    rcases List.mem_cons.1 h with rfl | h
    · cases hf
    · exact h⟩
theorem same_wp {w : World} {f : Frame} (h1 : w.pub = s.w.pub) (h2 : w.trace = s.w.trace) (h3 : w.logs = s.w.logs)
    (hf : f.plain = true) : Same s ((s.world w).push f) := (same_world h1 h2 h3).trans (same_push hf)
theorem same_push2 {f g : Frame} (hf : f.plain = true) (hg : g.plain = true) : Same s ((s.push f).push g) :=
  (same_push hf).trans (same_push hg)
theorem same_pushExc (l : LogId) (g : Nat) (e : Event) (i : Nat) : Same s (s.push (.hooks l g .exception e i)) :=
  ⟨rfl, rfl, rfl, rfl, rfl, fun _ _ _ _ _ hk h => by
    rcases List.mem_cons.1 h with h | h
    · cases h; exact absurd rfl hk
    · exact h⟩

/-- `s'` has no more to hand out than `s`. -/
def Less (s s' : St) : Prop := ∀ p, p.1 ≠ Kind.exception → Pending s' p → Pending s p

theorem Less.trans (h : Less s t) (g : Less t s') : Less s s' := fun p hp hq => h p hp (g p hp hq)
theorem Same.less (h : Same s s') : Less s s' := by
  rintro ⟨k, e⟩ hk (⟨l, hl⟩ | ⟨l, g, i, hm⟩)
  · exact .inl ⟨l, by simpa only [queued, h.logs] using hl⟩
  · exact .inr ⟨l, g, i, h.stack l g k e i hk hm⟩

theorem Grows.trans (h : Grows s t) (g : Grows t s') : Grows s s' :=
  ⟨fun l hl => g.logs l (h.logs l hl), fun l => Nat.le_trans (h.gen l) (g.gen l), fun l n k hl hn =>
    (h.list l n k hl hn).trans (g.list l n k (h.logs l hl) (Nat.le_trans hn (h.gen l)))⟩
theorem Same.grows (h : Same s s') : Grows s s' := grows_same h.logs h.gen h.old

/-- Loggers stay and keep their hooks. -/
def HookGrow (w w' : World) : Prop := ∀ l L, w.logs l = some L → ∃ L', w'.logs l = some L' ∧ ∀ k, L.hooks k <+: L'.hooks k

theorem HookGrow.grows (h : HookGrow s.w s'.w) (h2 : s'.gen = s.gen) (h3 : s'.old = s.old) : Grows s s' := by
  refine ⟨?_, fun l => Nat.le_of_eq (by rw [h2]), ?_⟩
  · intro l hl
    obtain ⟨L, hL⟩ := Option.isSome_iff_exists.1 hl
    obtain ⟨L', hL', _⟩ := h l L hL
    simp [hL']
  · intro l g k hl _
    obtain ⟨L, hL⟩ := Option.isSome_iff_exists.1 hl
    obtain ⟨L', hL', hk⟩ := h l L hL
    simp only [St.list, h2, h3, hL, hL']
    by_cases hg : g = s.gen l
    · simp only [hg, if_true]; exact hk k
    · simp only [hg, if_false]; exact List.prefix_rfl

theorem hookGrow_of {w w' : World} (h : ∀ l, LogGrow env (w.logs l) (w'.logs l)) : HookGrow w w' := by
  intro l L hL
  have := h l
  rw [hL] at this
  cases h2 : w'.logs l with
  | none => rw [h2] at this; exact this.elim
  | some L' => rw [h2] at this; exact ⟨L', rfl, this.2.1⟩

theorem hookGrow_set {w : World} {l : LogId} {L L' : Log} (hL : w.logs l = some L) (h : L'.hooks = L.hooks) : HookGrow w (w.setLog l L') := by
  intro m M hM
  simp only [setLog_logs, updLog]
  by_cases hml : m = l
  · subst hml
    rw [hL] at hM
    cases hM
    exact ⟨L', by simp, fun k => by rw [h]; exact List.prefix_rfl⟩
  · exact ⟨M, by simp [hml, hM], fun k => List.prefix_rfl⟩

/-- The forms a step can have. -/
inductive Shape (s s' : St) : Prop
  | quiet (hp : s'.w.pub = s.w.pub) (ht : s'.w.trace = s.w.trace) (hl : Less s s') (hg : Grows s s')
  | code (o : Obs) (hp : s'.w.pub = s.w.pub) (ht : s'.w.trace = s.w.trace ++ [o]) (hl : Less s s') (hg : Grows s s')
      (ho : ∀ sk k e, o = .hook sk k e → ∃ l g i fs, s.stack = Frame.hooks l g k e i :: fs)
  | emit (k : Kind) (e : Event) (L : Log) (hL : s.w.logs e.logger = some L) (hk : k ≠ .exception) (hp : s'.w.pub = s.w.pub ++ [(k, e)])
      (ht : s'.w.trace = s.w.trace) (hl : ∀ p, p.1 ≠ Kind.exception → Pending s' p → Pending s p ∨ p = (k, e))
      (hs : L.async = false → (∃ fs, s'.stack = Frame.hooks e.logger (s.gen e.logger) k e 0 :: fs) ∧ s'.gen = s.gen ∧ s'.w.logs = s.w.logs) (hg : Grows s s')

theorem Same.shape (h : Same s s') : Shape s s' := .quiet h.pub h.trace h.less h.grows

theorem Same.then (h : Same s t) (g : Shape t s') (hc : t.stack = s.stack ∨ s'.w.trace = t.w.trace) : Shape s s' := by
  cases g with
  | quiet hp ht hl hg => exact .quiet (hp.trans h.pub) (ht.trans h.trace) (h.less.trans hl) (h.grows.trans hg)
  | code o hp ht hl hg ho =>
    rcases hc with hc | hc
    · exact .code o (hp.trans h.pub) (by rw [ht, h.trace]) (h.less.trans hl) (h.grows.trans hg) (by rw [← hc]; exact ho)
    · rw [hc] at ht
      simp at ht
  | emit k e L hL hk hp ht hl hs hg =>
    refine .emit k e L (by rw [← h.logs]; exact hL) hk (by rw [hp, h.pub]) (ht.trans h.trace) ?_ ?_ (h.grows.trans hg)
    · intro p hp hq
      rcases hl p hp hq with hq | hq
      · exact .inl (h.less p hp hq)
      · exact .inr hq
    · intro ha
      obtain ⟨h1, h2, h3⟩ := hs ha
      rw [h.gen] at h1 h2
      exact ⟨h1, h2, h3.trans h.logs⟩

theorem mem_pushBounded' {α : Type} {n : Nat} {q : List α} {x y : α} (h : y ∈ pushBounded n q x) : y ∈ q ∨ y = x := by
  have := List.mem_of_mem_drop h
  simpa using this

theorem shape_emit {l : LogId} {k : Kind} {e : Event} (hl : (s.w.logs l).isSome) (hel : e.logger = l) (hk : k ≠ .exception) :
    Shape s (emit s l k e) := by
  obtain ⟨L, hL⟩ := Option.isSome_iff_exists.1 hl
  subst hel
  simp only [emit]
  rw [show ({ s.w with pub := s.w.pub ++ [(k, e)] } : World).logs = s.w.logs from rfl, hL]
  simp only
  by_cases ha : L.async = true
  · rw [if_pos ha]
    refine .emit k e L hL hk rfl rfl ?_ (fun hf => by rw [ha] at hf; cases hf)
      (HookGrow.grows (hookGrow_set (w := { s.w with pub := s.w.pub ++ [(k, e)] }) hL rfl) rfl rfl)
    rintro ⟨k', e'⟩ hk' (⟨m, hm⟩ | hm)
    · simp only [queued, St.world, setLog_logs, updLog] at hm
      by_cases hml : m = e.logger
      · rw [if_pos hml] at hm
        rcases mem_pushBounded' hm with hm | hm
        · exact .inl (.inl ⟨e.logger, by simpa [queued, hL] using hm⟩)
        · exact .inr hm
      · rw [if_neg hml] at hm
        exact .inl (.inl ⟨m, hm⟩)
    · exact .inl (.inr hm)
  · rw [if_neg ha]
    refine .emit k e L hL hk rfl rfl ?_ (fun _ => ⟨⟨_, rfl⟩, rfl, rfl⟩) (grows_same rfl rfl rfl)
    rintro ⟨k', e'⟩ hk' (⟨m, hm⟩ | ⟨m, g, i, hm⟩)
    · exact .inl (.inl ⟨m, hm⟩)
    · rcases List.mem_cons.1 hm with hm | hm
      · simp only [Frame.hooks.injEq] at hm
        exact .inr (by rw [hm.2.2.1, hm.2.2.2.1])
      · exact .inl (.inr ⟨m, g, i, hm⟩)

/-! ## The functions -/

theorem trace_emit (s : St) (l : LogId) (k : Kind) (e : Event) : (emit s l k e).w.trace = s.w.trace := by
  simp only [emit]; split
  · rfl
  · split <;> rfl

theorem shape_begin (h : Inv env s) {a : ActId} (m : Option String) (f : List Val) (kw : Dict) : Shape s (begin_ env s a m f kw) := by
  simp only [begin_]
  split
  · exact (Same.refl s).shape
  · rename_i x hx
    split
    · exact Same.shape (by exact same_world rfl rfl rfl)
    · exact Same.then (by exact same_world rfl rfl rfl) (shape_emit (by exact (h.log a x hx)) (by rfl) (by decide)) (.inl (by rfl))

theorem trace_begin (a : ActId) (m : Option String) (f : List Val) (kw : Dict) : (begin_ env s a m f kw).w.trace = s.w.trace := by
  simp only [begin_]
  split
  · rfl
  · split
    · rfl
    · exact trace_emit ..

theorem shape_warn (h : Inv env s) {a : ActId} (m : String) (f : List Val) (kw : Dict) : Shape s (warn env s a m f kw) := by
  simp only [warn]
  split
  · exact (Same.refl s).shape
  · rename_i x hx
    exact Same.then (by exact same_world rfl rfl rfl) (shape_emit (by exact (h.log a x hx)) (by rfl) (by decide)) (.inl (by rfl))

theorem shape_endWith (h : LogOK s.w) {a : ActId} (st : Status) (m : String) (f : List Val) (t : Int) (exc : Option Exc) :
    Shape s (endWith s a st m f t exc) ∧ (endWith s a st m f t exc).w.trace = s.w.trace := by
  simp only [endWith]
  split
  · exact ⟨(Same.refl s).shape, rfl⟩
  · rename_i x hx
    split
    · exact ⟨Same.shape (by exact same_world rfl rfl rfl), rfl⟩
    · exact ⟨Same.then (by exact same_world rfl rfl rfl) (shape_emit (by exact (h a x hx)) (by rfl) (by decide)) (.inl (by rfl)), trace_emit ..⟩

theorem shape_end (h : Inv env s) {a : ActId} (st : Status) (m : String) (f : List Val) (kw : Dict) (t : Option Int)
    (exc : Option Exc) : Shape s (end_ env s a st m f kw t exc) ∧ (end_ env s a st m f kw t exc).w.trace = s.w.trace := by
  simp only [end_]
  split
  · exact ⟨(Same.refl s).shape, rfl⟩
  · rename_i x hx
    have hl : LogOK (s.w.setAct a { x with data := x.data.update kw }) :=
      logOK_set h.log hx (y := { x with data := x.data.update kw }) rfl rfl rfl
    split
    · split
      · split
        · have := shape_endWith (s := (s.world (s.w.setAct a { x with data := x.data.update kw })).world
            (s.w.setAct a { x with data := x.data.update kw }).tick) (a := a) hl st m f
            ((s.w.setAct a { x with data := x.data.update kw }).now env) exc
          exact ⟨Same.then (by exact same_world rfl rfl rfl) this.1 (.inl (by rfl)), this.2⟩
        · rename_i t' _
          have := shape_endWith (s := s.world (s.w.setAct a { x with data := x.data.update kw })) (a := a) hl st m f t' exc
          exact ⟨Same.then (by exact same_world rfl rfl rfl) this.1 (.inl (by rfl)), this.2⟩
      · have := shape_endWith (s := (s.world (s.w.setAct a { x with data := x.data.update kw })).world
            (s.w.setAct a { x with data := x.data.update kw }).tick) (a := a) hl st m f
            ((s.w.setAct a { x with data := x.data.update kw }).now env) exc
        exact ⟨Same.then (by exact same_world rfl rfl rfl) this.1 (.inl (by rfl)), this.2⟩
    · have h1 : Same s ((s.world (s.w.setAct a { x with data := x.data.update kw })).push (.endRest a st m f exc)) :=
        (by exact same_wp rfl rfl rfl rfl)
      refine ⟨h1.then ?_ (.inr (trace_begin ..)), trace_begin ..⟩
      simp only [begin_]
      split
      · exact (Same.refl _).shape
      · rename_i y hy
        split
        · exact Same.shape (by exact same_world rfl rfl rfl)
        · exact Same.then (by exact same_world rfl rfl rfl) (shape_emit (by exact (hl a y hy)) (by rfl) (by decide)) (.inl (by rfl))

theorem same_emitExc (l : LogId) (e : Event) : Same s (emitExc s l e) := by
  simp only [emitExc]
  split
  · exact .refl _
  · exact same_pushExc ..

theorem same_exception {a : ActId} (cur : Option Exc) (m : Option String) (f : List Val) (kw : Dict) :
    Same s (exception_ env s a cur m f kw) := by
  simp only [exception_]
  split
  · exact .refl s
  · split
    · exact ⟨rfl, rfl, rfl, rfl, rfl, fun _ _ _ _ _ _ h => h⟩
    · split
      · exact ⟨rfl, rfl, rfl, rfl, rfl, fun _ _ _ _ _ _ h => h⟩
      · exact Same.trans (by exact ⟨rfl, rfl, rfl, rfl, rfl, (same_push (s := s) (f := .excRest ..) rfl).stack⟩) (same_emitExc _ _)

theorem shape_exit (h : Inv env s) {a : ActId} {x : Verif.Act} (hx : s.w.acts a = some x) (hh : x.handle = true) (exc : Option Exc) :
    Shape s (exit env s a exc) := by
  have h0 : Inv env (s.world (s.w.setAct a { x with defer := false })) := by
    refine h.acts (.single ?_) rfl (logOK_set h.log hx (y := { x with defer := false }) rfl rfl rfl)
    exact .upd s.w.core a x x.data x.isTrans false hx hh (h.core.trans a x hx)
  have h1 := h0.push (f := .exitRest a) trivial rfl
  have hS : Same s ((s.world (s.w.setAct a { x with defer := false })).push (.exitRest a)) :=
    (by exact same_wp rfl rfl rfl rfl)
  simp only [exit, hx]
  split
  · exact (hS.trans (Same.trans (same_push (f := .exitTry a) rfl) (same_exception _ _ _ _))).shape
  · split
    · rename_i ev hev
      exact hS.then (shape_emit (h.log a x hx) (h.core.ev.act a x ev hx (.inr (.inl hev))).2 (by decide)) (.inr (trace_emit ..))
    · simp only [success]
      split
      · exact hS.shape
      · have := shape_end h1 (a := a) .success (endMsg { x with defer := false } none " succeeded") [] [] none none
        rename_i y hy
        have hy' : y = { x with defer := false } := by
          simp only [St.push, St.world, setAct_acts, updAct_same, Option.some.injEq] at hy
          exact hy.symm
        rw [hy']
        exact hS.then this.1 (.inr this.2)

theorem shape_comment (l : LogId) (m : String) (f : List Val) (kw : Dict) : Shape s (comment env s l m f kw) := by
  simp only [comment]
  split
  · exact (Same.refl s).shape
  · rename_i L hL
    exact Same.then (by exact same_world rfl rfl rfl) (shape_emit (by show (s.w.logs l).isSome; simp [hL]) rfl (by decide)) (.inl (by rfl))

theorem shape_onAct {a : ActId} {r : St} (hr : ∀ x, s.w.acts a = some x → x.handle = true → Shape s r) : Shape s (onAct s a r) := by
  simp only [onAct]
  split
  · rename_i hh
    obtain ⟨x, hx, hxh⟩ := held_iff.1 hh
    exact hr x hx hxh
  · exact (Same.refl s).shape

/-- The world may have changed, but not what is queued. -/
theorem shape_quiet {s' : St} (h1 : s'.w.pub = s.w.pub) (h2 : s'.w.trace = s.w.trace) (h3 : ∀ l, queued s'.w l = queued s.w l)
    (h4 : ∀ l g k e i, k ≠ .exception → Frame.hooks l g k e i ∈ s'.stack → Frame.hooks l g k e i ∈ s.stack) (h5 : Grows s s') : Shape s s' := by
  refine .quiet h1 h2 ?_ h5
  rintro ⟨k, e⟩ hk (⟨l, hl⟩ | ⟨l, g, i, hm⟩)
  · exact .inl ⟨l, by rw [← h3]; exact hl⟩
  · exact .inr ⟨l, g, i, h4 l g k e i hk hm⟩

theorem queued_grow {w w' : World} (h : ∀ l, LogGrow env (w.logs l) (w'.logs l)) (l : LogId) : queued w' l = queued w l := by
  have := h l
  simp only [queued]
  cases h1 : w.logs l <;> cases h2 : w'.logs l <;> simp_all [LogGrow]

theorem shape_grow {w : World} (hp : w.pub = s.w.pub) (htr : w.trace = s.w.trace) (hl : ∀ l, LogGrow env (s.w.logs l) (w.logs l)) :
    Shape s (s.world w) :=
  shape_quiet hp htr (queued_grow hl) (fun _ _ _ _ _ _ h => h) ((hookGrow_of hl).grows rfl rfl)

theorem foldl_pub (ls : List LogId) (b : Bool) (w : World) : (ls.foldl (fun w l => setAsync w l b) w).pub = w.pub :=
  congrArg Core.pub (foldl_setAsync_flushLike ls b w).coreEq

theorem shape_setSinks (l : LogId) (ss : List SinkId) : Shape s (setSinks env s l ss) := by
  simp only [setSinks]
  split
  · exact (Same.refl s).shape
  · rename_i L hL
    have hrest := setSinks_rest env L ss
    simp only [Log.rest, Prod.mk.injEq] at hrest
    refine shape_quiet rfl rfl ?_ (fun _ _ _ _ _ _ h => h) ⟨?_, ?_, ?_⟩
    · intro m
      simp only [queued, setLog_logs, updLog]
      by_cases hml : m = l
      · subst hml; simp [hL, hrest.2.1]
      · simp [hml]
    · intro m hm
      simp only [setLog_logs, updLog]
      split <;> simp_all
    · intro m
      simp only
      split
      · subst_vars; omega
      · omega
    · intro m g k hm hg
      simp only [St.list, setLog_logs, updLog]
      by_cases hml : m = l
      · subst hml
        by_cases hgg : g = s.gen m
        · subst hgg; simp [hL]
        · have : g ≠ s.gen m + 1 := by omega
          simp [hgg, this]
      · simp [hml]

theorem shape_call (h : Inv env s) (it : Item) : Shape s (call env s it) := by
  cases it with
  | enter a =>
    refine shape_onAct fun x hx hh => ?_
    simp only [enter, hx]
    have hl : LogOK ((s.w.setAct a { x with isTrans := true, defer := true }).setActive x.logger (some a)) :=
      logOK_set h.log hx (y := { x with isTrans := true, defer := true }) rfl (by simp) (by simp)
    refine Same.then (t := s.world ((s.w.setAct a { x with isTrans := true, defer := true }).setActive x.logger (some a)))
      (same_world (by simp) (by simp) (by simp)) ?_ (.inl (by rfl))
    simp only [begin_]
    split
    · exact (Same.refl _).shape
    · rename_i y hy
      split
      · exact Same.shape (by exact same_world rfl rfl rfl)
      · exact Same.then (by exact same_world rfl rfl rfl) (shape_emit (by exact (hl a y hy)) (by rfl) (by decide)) (.inl (by rfl))
  | exit a exc => exact shape_onAct fun x hx hh => shape_exit h hx hh exc
  | op o =>
    cases o with
    | begin a m f kw => exact shape_onAct fun x hx hh => shape_begin h _ _ _
    | warn a m f kw => exact shape_onAct fun x hx hh => shape_warn h _ _ _
    | success a m f kw =>
      refine shape_onAct fun x hx hh => ?_
      simp only [success, hx]
      exact (shape_end h _ _ _ _ _ _).1
    | failure a m f kw =>
      refine shape_onAct fun x hx hh => ?_
      simp only [failure, hx]
      exact (shape_end h _ _ _ _ _ _).1
    | exception a cur m f kw => exact shape_onAct fun x hx hh => (same_exception _ _ _ _).shape
    | comment l m f kw => exact shape_comment _ _ _ _
    | flush l =>
      simp only [call, flush]
      split
      · exact (Same.refl s).shape
      · exact Same.shape (by exact same_push rfl)
    | ctxFlush => exact Same.shape (by exact same_push rfl)
    | setSinks l ss => exact shape_setSinks l ss
    | clearSinks l => exact shape_setSinks l []
    | disableAsync u =>
      simp only [call]
      refine shape_quiet ?_ ?_ ?_ ?_ (HookGrow.grows ?_ rfl rfl)
      · cases u
        · rfl
        · exact foldl_pub _ _ _
      · cases u
        · rfl
        · exact foldl_trace _ _ _
      · cases u
        · exact fun _ => rfl
        · exact queued_grow (env := env) (grow_foldl _ _ _)
      · intro l g k e i _ hm
        simpa [St.push, St.world] using hm
      · cases u
        · exact hookGrow_of (env := env) (fun _ => .refl _)
        · exact hookGrow_of (env := env) (grow_foldl _ _ _)
    | newLogger l ss as =>
      simp only [call, Verif.step]
      split
      · exact (Same.refl s).shape
      · rename_i hl
        refine shape_grow (env := env) ?_ ?_ ?_
        · simp only [addLogger]; split <;> rfl
        · simp only [addLogger]; split <;> rfl
        · intro m
          have : (addLogger (s.w.tick.setLog l (newLog env s.w ss as)) l).logs = updLog s.w.logs l (newLog env s.w ss as) := by
            simp only [addLogger]; split <;> rfl
          rw [this, updLog]
          split
          · subst_vars; rw [hl]; exact ⟨newLog_queue .., newLog_regOk ..⟩
          · exact .refl _
    | newAction l lv nm kw =>
      simp only [call, Verif.step]
      split
      · exact (Same.refl s).shape
      · exact Same.shape (by exact same_world rfl rfl rfl)
    | setItem a k v =>
      simp only [call, Verif.step, guard, ret]
      split
      · simp only [Verif.setItem]
        split
        · exact (Same.refl s).shape
        · exact Same.shape (by exact same_world rfl rfl rfl)
      · exact (Same.refl s).shape
    | setAsync l b =>
      simp only [call, Verif.step]
      exact shape_grow (congrArg Core.pub (setAsync_flushLike _ _ _).coreEq) (setAsync_trace _ _ _) (grow_setAsync (env := env) _ _ _)
    | addSink l sk =>
      simp only [call, Verif.step, onLog]
      split
      · exact (Same.refl s).shape
      · rename_i L hL
        have hrest := addSink_rest env L sk
        simp only [Log.rest, Prod.mk.injEq] at hrest
        refine shape_grow rfl rfl (grow_set (env := env) hL hrest.2.1 ?_ fun r => regOk_addSink r sk)
        intro k
        simp only [addSink]
        split
        · exact List.prefix_rfl
        · simp only
          split
          · exact List.prefix_append ..
          · exact List.prefix_rfl
    | addPreflush l hk =>
      simp only [call, Verif.step, onLog]
      split
      · exact (Same.refl s).shape
      · rename_i L hL
        exact shape_grow rfl rfl (grow_set (env := env) (L' := { L with preflush := L.preflush ++ [hk] }) hL rfl (fun _ => List.prefix_rfl) fun r => ⟨r.nodup, r.hooks⟩)
    | addNoteHandler hk => exact Same.shape (by exact same_world rfl rfl rfl)
    | enableAsync u =>
      simp only [call, Verif.step, enableAsync]
      cases u
      · exact Same.shape (by exact same_world rfl rfl rfl)
      · refine shape_grow (env := env) ?_ ?_ ?_
        · exact foldl_pub s.w.ctxLoggers false { s.w with ctxAsync := true }
        · exact foldl_trace _ _ _
        · intro l
          exact grow_foldl s.w.ctxLoggers false { s.w with ctxAsync := true } l
    | addLogger l =>
      simp only [call, Verif.step]
      split
      · exact (Same.refl s).shape
      · refine (same_world ?_ ?_ ?_).shape <;> (simp only [addLogger]; split <;> rfl)
    | removeLogger l => exact Same.shape (by exact same_world rfl rfl rfl)

theorem same_tail {f : Frame} {fs : List Frame} (hs : s.stack = f :: fs) : Same s { s with stack := fs } :=
  ⟨rfl, rfl, rfl, rfl, rfl, fun _ _ _ _ _ _ h => by rw [hs]; exact List.mem_cons_of_mem _ h⟩

theorem shape_enterCode {o : Obs} (ho : o.isHook = false) : Shape s (enterCode s o) := by
  refine .code o rfl rfl ?_ (grows_same rfl rfl rfl) (fun sk k e h => by subst h; cases ho)
  rintro ⟨k, e⟩ hk (⟨l, hl⟩ | ⟨l, g, i, hm⟩)
  · exact .inl ⟨l, hl⟩
  · exact .inr ⟨l, g, i, by simpa [enterCode, St.push, St.world] using hm⟩

/-- What goes before may have put things on the stack, if what is called is not a sink. -/
theorem Same.code {o : Obs} (h : Same s t) (ho : o.isHook = false) : Shape s (enterCode t o) := by
  refine .code o h.pub (by show t.w.trace ++ [o] = _; rw [h.trace]) (h.less.trans ?_) (h.grows.trans (grows_same rfl rfl rfl)) (fun sk k e h => by subst h; cases ho)
  rintro ⟨k, e⟩ hk (⟨l, hl⟩ | ⟨l, g, i, hm⟩)
  · exact .inl ⟨l, hl⟩
  · exact .inr ⟨l, g, i, by simpa [enterCode, St.push, St.world] using hm⟩

theorem shape_resume {f : Frame} {fs : List Frame} (h : Inv env s) (hs : s.stack = f :: fs) :
    Shape s (resume env { s with stack := fs } f) := by
  have h0 := h.pop hs
  have hS := same_tail hs
  cases f with
  | code => exact (hS.trans (by exact same_push rfl)).shape
  | hooks l g k e i =>
    simp only [resume]
    split
    · exact hS.shape
    · rename_i sk hi
      refine .code (.hook sk k e) rfl rfl ?_ (grows_same rfl rfl rfl) ?_
      · rintro ⟨k', e'⟩ hk (⟨m, hm⟩ | ⟨m, g', i', hm⟩)
        · exact .inl ⟨m, hm⟩
        · simp only [enterCode, St.push, St.world, List.mem_cons, reduceCtorEq, false_or] at hm
          rcases hm with hm | hm
          · simp only [Frame.hooks.injEq] at hm
            exact .inr ⟨l, g, i, by rw [hs, hm.2.2.1, hm.2.2.2.1]; exact List.mem_cons_self⟩
          · exact .inr ⟨m, g', i', by rw [hs]; exact List.mem_cons_of_mem _ hm⟩
      · intro sk' k' e' ho
        cases ho
        exact ⟨l, g, i, fs, hs⟩
  | endRest a st m f exc =>
    simp only [resume]
    split
    · exact hS.shape
    · have := shape_endWith (a := a) h0.log st m f
      rename_i b hb
      exact hS.then (this b.etime exc).1 (.inr (this b.etime exc).2)
  | excRest a m f kw t cur =>
    have := shape_end h0 (a := a) .exception m f kw (some t) cur
    exact hS.then this.1 (.inr this.2)
  | exitTry a => exact hS.shape
  | exitRest a =>
    simp only [resume]
    split
    · exact hS.shape
    · exact (hS.trans (same_world (by simp) (by simp) (by simp))).shape
  | notes nm i =>
    simp only [resume]
    split
    · exact hS.shape
    · exact (hS.trans (by exact same_push rfl)).code rfl
  | preflush l i =>
    simp only [resume]
    split
    · exact hS.shape
    · split
      · exact (hS.trans (by exact same_push rfl)).shape
      · exact (hS.trans (by exact same_push rfl)).code rfl
  | preNote l i => exact (hS.trans (by exact same_push rfl)).shape
  | drain l =>
    simp only [resume]
    split
    · exact hS.shape
    · rename_i L hL
      have hL' : s.w.logs l = some L := hL
      split
      · rename_i hq
        refine shape_quiet rfl rfl ?_ (fun _ _ _ _ _ _ h => by rw [hs]; exact List.mem_cons_of_mem _ h)
          (HookGrow.grows (hookGrow_set (w := s.w.tick) hL' rfl) rfl rfl)
        intro m
        simp only [queued, St.world, setLog_logs, updLog]
        by_cases hml : m = l
        · subst hml; simp [hL']
        · simp [hml, World.tick]
      · rename_i k e q hq
        have hmem : (k, e) ∈ queued s.w l := by simp [queued, hL', hq]
        have hsub : ∀ m p, p ∈ queued (s.w.setLog l { L with queue := q }) m → ∃ n, p ∈ queued s.w n := by
          intro m p hp
          simp only [queued, setLog_logs, updLog] at hp
          by_cases hml : m = l
          · rw [if_pos hml] at hp
            exact ⟨l, by simp only [queued, hL', hq]; exact List.mem_cons_of_mem _ hp⟩
          · rw [if_neg hml] at hp
            exact ⟨m, hp⟩
        have key : ∀ k', k' = k → Shape s ((({ s with stack := fs }.world (s.w.setLog l { L with queue := q })).push (.drain l)).push (.hooks l (s.gen l) k' e 0)) := by
          rintro _ rfl
          refine .quiet rfl rfl ?_ (HookGrow.grows (hookGrow_set (w := s.w) hL' rfl) rfl rfl)
          rintro ⟨k', e'⟩ hk (⟨m, hm⟩ | ⟨m, g', i', hm⟩)
          · exact .inl (hsub m _ hm)
          · simp only [St.push, St.world, List.mem_cons, reduceCtorEq, false_or] at hm
            rcases hm with hm | hm
            · simp only [Frame.hooks.injEq] at hm
              exact .inl ⟨l, by rw [hm.2.2.1, hm.2.2.2.1]; exact hmem⟩
            · exact .inr ⟨m, g', i', by rw [hs]; exact List.mem_cons_of_mem _ hm⟩
        split
        · refine .quiet rfl rfl ?_ (HookGrow.grows (hookGrow_set (w := s.w) hL' rfl) rfl rfl)
          rintro ⟨k', e'⟩ hk (⟨m, hm⟩ | ⟨m, g', i', hm⟩)
          · exact .inl (hsub m _ hm)
          · simp only [St.push, St.world, List.mem_cons, reduceCtorEq, false_or] at hm
            exact .inr ⟨m, g', i', by rw [hs]; exact List.mem_cons_of_mem _ hm⟩
        · exact key _ rfl
  | ctx ls =>
    cases ls with
    | nil => exact hS.shape
    | cons l ls =>
      simp only [resume, flush]
      split
      · exact (hS.trans (by exact same_push rfl)).shape
      · exact (hS.trans (Same.trans (same_push (f := .ctx ls) rfl) (by exact same_push rfl))).shape
  | ctxNote ls => exact (hS.trans (by exact same_push rfl)).shape
  | disable => exact (hS.trans (by exact same_world rfl rfl rfl)).shape

theorem same_up (u : Option Exc) : Same s { s with up := u } := ⟨rfl, rfl, rfl, rfl, rfl, fun _ _ _ _ _ _ h => h⟩

theorem same_unwind (err : Exc) (f : Frame) : Same s (unwind s err f) := by
  have h0 : Same s { s with up := none } := same_up none
  cases f with
  | code => exact h0.trans (by exact same_push rfl)
  | exitTry a =>
    simp only [unwind]
    split
    · exact h0.trans (by exact same_push rfl)
    · exact .refl s
  | preflush l i =>
    simp only [unwind]
    split
    · exact h0.trans (by exact same_push2 rfl rfl)
    · exact .refl s
  | ctx ls =>
    simp only [unwind]
    split
    · exact h0.trans (by exact same_push2 rfl rfl)
    · exact .refl s
  | _ => exact .refl s

theorem Shape.grows (h : Shape s s') : Grows s s' := by cases h <;> assumption
theorem Shape.trace (h : Shape s s') : s.w.trace <+: s'.w.trace := by
  cases h with
  | quiet _ ht => rw [ht]; exact List.prefix_rfl
  | code o _ ht => rw [ht]; exact List.prefix_append ..
  | emit _ _ _ _ _ _ ht => rw [ht]; exact List.prefix_rfl

theorem shape_step (h : Inv env s) (x : Act) : Shape s (step env s x) := by
  simp only [Stack.step]
  split
  · rename_i hs _
    exact ((same_tail hs).trans (same_unwind _ _)).shape
  · exact shape_call h _
  · rename_i hs _
    exact (same_tail hs).shape
  · rename_i hs _
    exact ((same_tail hs).trans (same_up _)).shape
  · exact (Same.refl s).shape
  · rename_i hs _
    exact shape_resume h hs
  · exact (Same.refl s).shape


/-! ## The stack -/

theorem st_emit (s : St) (l : LogId) (k : Kind) (e : Event) : s.stack <:+ (emit s l k e).stack := by
  simp only [emit]; split
  · exact List.suffix_rfl
  · split
    · exact List.suffix_rfl
    · exact ⟨[_], rfl⟩

theorem st_begin (s : St) (a : ActId) (m : Option String) (f : List Val) (kw : Dict) : s.stack <:+ (begin_ env s a m f kw).stack := by
  simp only [begin_]; split
  · exact List.suffix_rfl
  · split
    · exact List.suffix_rfl
    · exact List.IsSuffix.trans (by exact List.suffix_rfl) (st_emit ..)

theorem st_endWith (s : St) (a : ActId) (st : Status) (m : String) (f : List Val) (t : Int) (exc : Option Exc) :
    s.stack <:+ (endWith s a st m f t exc).stack := by
  simp only [endWith]; split
  · exact List.suffix_rfl
  · split
    · exact List.suffix_rfl
    · exact List.IsSuffix.trans (by exact List.suffix_rfl) (st_emit ..)

theorem st_end (s : St) (a : ActId) (st : Status) (m : String) (f : List Val) (kw : Dict) (t : Option Int) (exc : Option Exc) :
    s.stack <:+ (end_ env s a st m f kw t exc).stack := by
  simp only [end_]; split
  · exact List.suffix_rfl
  · split
    · split
      · split
        · exact List.IsSuffix.trans (by exact List.suffix_rfl) (st_endWith ..)
        · exact List.IsSuffix.trans (by exact List.suffix_rfl) (st_endWith ..)
      · exact List.IsSuffix.trans (by exact List.suffix_rfl) (st_endWith ..)
    · exact List.IsSuffix.trans (by exact ⟨[_], rfl⟩) (st_begin ..)

theorem st_exception (s : St) (a : ActId) (cur : Option Exc) (m : Option String) (f : List Val) (kw : Dict) :
    s.stack <:+ (exception_ env s a cur m f kw).stack := by
  simp only [exception_]; split
  · exact List.suffix_rfl
  · split
    · exact List.suffix_rfl
    · split
      · exact List.suffix_rfl
      · simp only [emitExc]
        split
        · exact ⟨[_], rfl⟩
        · exact ⟨[_, _], rfl⟩

theorem st_flush (s : St) (l : LogId) : s.stack <:+ (flush s l).stack := by
  simp only [flush]; split
  · exact List.suffix_rfl
  · exact ⟨[_], rfl⟩

theorem st_setSinks (s : St) (l : LogId) (ss : List SinkId) : s.stack <:+ (setSinks env s l ss).stack := by
  simp only [setSinks]; split <;> exact List.suffix_rfl

theorem st_onAct {r : St} (a : ActId) (h : s.stack <:+ r.stack) : s.stack <:+ (onAct s a r).stack := by
  simp only [onAct]; split
  · exact h
  · exact List.suffix_rfl

theorem st_call (s : St) (it : Item) : s.stack <:+ (call env s it).stack := by
  cases it with
  | enter a =>
    refine st_onAct a ?_
    simp only [enter]; split
    · exact List.suffix_rfl
    · exact List.IsSuffix.trans (by exact List.suffix_rfl) (st_begin ..)
  | exit a exc =>
    refine st_onAct a ?_
    simp only [exit]; split
    · exact List.suffix_rfl
    · split
      · exact List.IsSuffix.trans (by exact ⟨[_, _], rfl⟩) (st_exception ..)
      · split
        · exact List.IsSuffix.trans (by exact ⟨[_], rfl⟩) (st_emit ..)
        · simp only [success]; split
          · exact ⟨[_], rfl⟩
          · exact List.IsSuffix.trans (by exact ⟨[_], rfl⟩) (st_end ..)
  | op o =>
    cases o with
    | begin a m f kw => exact st_onAct a (st_begin ..)
    | warn a m f kw =>
      refine st_onAct a ?_
      simp only [warn]; split
      · exact List.suffix_rfl
      · exact List.IsSuffix.trans (by exact List.suffix_rfl) (st_emit ..)
    | success a m f kw =>
      refine st_onAct a ?_
      simp only [success]; split
      · exact List.suffix_rfl
      · exact st_end ..
    | failure a m f kw =>
      refine st_onAct a ?_
      simp only [failure]; split
      · exact List.suffix_rfl
      · exact st_end ..
    | exception a cur m f kw => exact st_onAct a (st_exception ..)
    | comment l m f kw =>
      simp only [call, comment]; split
      · exact List.suffix_rfl
      · exact List.IsSuffix.trans (by exact List.suffix_rfl) (st_emit ..)
    | flush l => exact st_flush ..
    | ctxFlush => exact ⟨[_], rfl⟩
    | setSinks l ss => exact st_setSinks ..
    | clearSinks l => exact st_setSinks ..
    | disableAsync u => exact ⟨[_, _], rfl⟩
    | newLogger l ss as => exact List.suffix_rfl
    | newAction l lv nm kw => exact List.suffix_rfl
    | setItem a k v => exact List.suffix_rfl
    | setAsync l b => exact List.suffix_rfl
    | addSink l sk => exact List.suffix_rfl
    | addPreflush l hk => exact List.suffix_rfl
    | addNoteHandler hk => exact List.suffix_rfl
    | enableAsync u => exact List.suffix_rfl
    | addLogger l => exact List.suffix_rfl
    | removeLogger l => exact List.suffix_rfl

theorem st_resume (s : St) (f : Frame) : s.stack <:+ (resume env s f).stack := by
  cases f with
  | code => exact ⟨[_], rfl⟩
  | hooks l g k e i =>
    simp only [resume]; split
    · exact List.suffix_rfl
    · exact ⟨[_, _], rfl⟩
  | endRest a st m f exc =>
    simp only [resume]; split
    · exact List.suffix_rfl
    · exact st_endWith ..
  | excRest a m f kw t cur => exact st_end ..
  | exitTry a => exact List.suffix_rfl
  | exitRest a => simp only [resume]; split <;> exact List.suffix_rfl
  | notes nm i =>
    simp only [resume]; split
    · exact List.suffix_rfl
    · exact ⟨[_, _], rfl⟩
  | preflush l i =>
    simp only [resume]; split
    · exact List.suffix_rfl
    · split
      · exact ⟨[_], rfl⟩
      · exact ⟨[_, _], rfl⟩
  | preNote l i => exact ⟨[_], rfl⟩
  | drain l =>
    simp only [resume]; split
    · exact List.suffix_rfl
    · split
      · exact List.suffix_rfl
      · split <;> exact ⟨[_, _], rfl⟩
  | ctx ls =>
    cases ls with
    | nil => exact List.suffix_rfl
    | cons l ls => exact List.IsSuffix.trans (by exact ⟨[_], rfl⟩) (st_flush ..)
  | ctxNote ls => exact ⟨[_], rfl⟩
  | disable => exact List.suffix_rfl

theorem st_unwind (s : St) (err : Exc) (f : Frame) : s.stack <:+ (unwind s err f).stack := by
  cases f with
  | code => exact ⟨[_], rfl⟩
  | exitTry a =>
    simp only [unwind]; split
    · exact ⟨[_], rfl⟩
    · exact List.suffix_rfl
  | preflush l i =>
    simp only [unwind]; split
    · exact ⟨[_, _], rfl⟩
    · exact List.suffix_rfl
  | ctx ls =>
    simp only [unwind]; split
    · exact ⟨[_, _], rfl⟩
    · exact List.suffix_rfl
  | _ => exact List.suffix_rfl

/-- A step changes the top of the stack only. -/
theorem st_step {f : Frame} {fs : List Frame} (hs : s.stack = f :: fs) (x : Act) : fs <:+ (step env s x).stack := by
  have h0 : fs <:+ s.stack := by rw [hs]; exact ⟨[_], rfl⟩
  simp only [Stack.step]
  split
  · rename_i hs' _
    rw [hs] at hs'; cases hs'
    exact st_unwind { s with stack := fs } _ _
  · exact h0.trans (st_call ..)
  · rename_i hs' _
    rw [hs] at hs'; cases hs'
    exact List.suffix_rfl
  · rename_i hs' _
    rw [hs] at hs'; cases hs'
    exact List.suffix_rfl
  · exact h0
  · rename_i hs' _
    rw [hs] at hs'; cases hs'
    exact st_resume { s with stack := fs } _
  · exact h0

end Verif.Stack
