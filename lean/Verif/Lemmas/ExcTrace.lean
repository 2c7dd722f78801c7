import Verif.Lemmas.GotPub
import Verif.Lemmas.RecStep
import Verif.Lemmas.Parts
/-!
# Which calls reach the `on_exception` hooks
-/
namespace Verif
open scoped List
attribute [local irreducible] QUEUE_LIMIT

/-- Is the call one of an `on_exception` hook? -/
def Obs.excHook : Obs → Bool
  | .hook _ .exception _ => true
  | _ => false

/-- No `on_exception` hook is called on the way from `w` to `w'`. -/
def NoExc (w w' : World) : Prop := ∃ t, w'.trace = w.trace ++ t ∧ ∀ o ∈ t, o.excHook = false

namespace NoExc
theorem refl (w : World) : NoExc w w := ⟨[], by simp, by simp⟩
theorem ofEq {w w' : World} (h : w'.trace = w.trace) : NoExc w w' := ⟨[], by simp [h], by simp⟩
theorem trans {x y z : World} (h : NoExc x y) (g : NoExc y z) : NoExc x z := by
  obtain ⟨t, h1, h2⟩ := h
  obtain ⟨u, g1, g2⟩ := g
  refine ⟨t ++ u, by rw [g1, h1, List.append_assoc], ?_⟩
  intro o ho
  rcases List.mem_append.1 ho with ho | ho
  · exact h2 o ho
  · exact g2 o ho
theorem pre {x y z : World} (h : y.trace = x.trace) (g : NoExc y z) : NoExc x z := (ofEq h).trans g
end NoExc

section
variable {env : Env} {w : World}

theorem noExc_callAll (os : List Obs) (h : ∀ o ∈ os, o.excHook = false) : NoExc w (callAll env os w).1 := by
  rw [callAll_eq]
  exact ⟨_, rfl, fun o ho => h o ((ran_prefix env os w.trace).subset ho)⟩

theorem noExc_note (n : String) : NoExc w (noteAll env n w).1 := by
  refine noExc_callAll _ ?_
  intro o ho
  obtain ⟨h, _, rfl⟩ := List.mem_map.1 ho
  rfl

theorem hookCalls_noExc (L : Log) {k : Kind} (hk : k ≠ .exception) (e : Event) :
    ∀ o ∈ hookCalls L k e, o.excHook = false := by
  intro o ho
  obtain ⟨s, _, rfl⟩ := List.mem_map.1 ho
  cases k <;> first | rfl | exact absurd rfl hk

theorem noExc_publish (l : LogId) {k : Kind} (hk : k ≠ .exception) (e : Event) :
    NoExc w (publish env w l k e).1 := by
  simp only [publish]
  split
  · exact .ofEq rfl
  · split
    · exact .ofEq rfl
    · exact .pre (y := { w with pub := w.pub ++ [(k, e)] }) rfl (noExc_callAll _ (hookCalls_noExc _ hk e))

theorem noExc_begin (a : ActId) (m : Option String) (f : List Val) (kw : Dict) :
    NoExc w (begin_ env w a m f kw).1 := by
  simp only [begin_]
  split
  · exact .refl _
  · split
    · exact .ofEq rfl
    · exact .pre rfl (noExc_publish _ (by decide) _)

theorem noExc_warn (a : ActId) (m : String) (f : List Val) (kw : Dict) :
    NoExc w (warn env w a m f kw).1 := by
  simp only [warn]
  split
  · exact .refl _
  · exact .pre rfl (noExc_publish _ (by decide) _)

theorem noExc_endWith (a : ActId) (st : Status) (m : String) (f : List Val) (t : Int) (exc : Option Exc) :
    NoExc w (endWith env w a st m f t exc).1 := by
  simp only [endWith]
  split
  · exact .refl _
  · split
    · exact .ofEq rfl
    · exact .pre rfl (noExc_publish _ (by decide) _)

theorem noExc_andThen {r : World × Option Exc} {k : World → World × Option Exc} (h : NoExc w r.1)
    (g : NoExc r.1 (k r.1).1) : NoExc w (andThen r k).1 := by
  obtain ⟨w1, x⟩ := r
  cases x with
  | none => exact h.trans g
  | some x => exact h

theorem noExc_end (a : ActId) (st : Status) (m : String) (f : List Val) (kw : Dict) (t : Option Int)
    (exc : Option Exc) : NoExc w (end_ env w a st m f kw t exc).1 := by
  simp only [end_]
  split
  · exact .refl _
  · split
    · split
      · split
        · exact .pre rfl (noExc_endWith ..)
        · exact .pre rfl (noExc_endWith ..)
      · exact .pre rfl (noExc_endWith ..)
    · refine noExc_andThen (.pre rfl (noExc_begin ..)) ?_
      split
      · exact .refl _
      · exact noExc_endWith ..

theorem noExc_success (a : ActId) (m : Option String) (f : List Val) (kw : Dict) :
    NoExc w (success env w a m f kw).1 := by
  simp only [success]; split
  · exact .refl _
  · exact noExc_end ..

theorem noExc_failure (a : ActId) (m : Option String) (f : List Val) (kw : Dict) :
    NoExc w (failure env w a m f kw).1 := by
  simp only [failure]; split
  · exact .refl _
  · exact noExc_end ..

theorem noExc_enter (a : ActId) : NoExc w (enter env w a).1 := by
  simp only [enter]; split
  · exact .refl _
  · exact .pre rfl (noExc_begin ..)

theorem noExc_setActive {r : World} (h : NoExc w r) (l : LogId) (p : Option ActId) : NoExc w (r.setActive l p) :=
  h.trans (.ofEq rfl)

theorem noExc_exit_none (a : ActId) : NoExc w (exit env w a none).1 := by
  simp only [exit]
  split
  · exact .refl _
  · rename_i x hx
    have h : NoExc w (exitPublish env w a none).1 := by
      simp only [exitPublish, hx]
      split
      · exact .pre rfl (noExc_publish _ (by decide) _)
      · exact .pre rfl (noExc_success ..)
    split
    · rename_i w1 e he; rw [he] at h; exact h
    · rename_i w1 he; rw [he] at h; exact noExc_setActive h ..

theorem noExc_comment (l : LogId) (m : String) (f : List Val) (kw : Dict) :
    NoExc w (comment env w l m f kw).1 := by
  simp only [comment]
  split
  · exact .refl _
  · exact .pre rfl (noExc_publish _ (by decide) _)

theorem noHook_excHook {o : Obs} (h : o.isHook = false) : o.excHook = false := by
  cases o <;> first | rfl | simp [Obs.isHook] at h

theorem noExc_drain (l : LogId) (L : Log) (q : List (Kind × Event)) : NoExc w (drain env l L q w).1 := by
  induction q generalizing w with
  | nil => exact .ofEq rfl
  | cons p q ih =>
    obtain ⟨k, e⟩ := p
    have h : NoExc w (deliver env L k e (w.setLog l { L with queue := q })).1 := by
      refine .pre (y := w.setLog l { L with queue := q }) rfl ?_
      simp only [deliver]
      split
      · exact noExc_note ..
      · rename_i hk; exact noExc_callAll _ (hookCalls_noExc _ (fun h => hk h) e)
    simp only [drain]
    split
    · rename_i w1 he; rw [he] at h; exact h.trans ih
    · rename_i w1 x he; rw [he] at h; exact h

theorem noExc_flush (l : LogId) : NoExc w (flush env w l).1 := by
  simp only [flush]
  split
  · exact .refl _
  · rename_i L _
    have h : NoExc w (runPreflush env l L.preflush w).1 := by
      obtain ⟨t, h1, h2⟩ := runPreflush_noHook (env := env) l L.preflush w
      exact ⟨t, h1, fun o ho => noHook_excHook (h2 o ho)⟩
    split
    · rename_i w1 e he; rw [he] at h; exact h
    · rename_i w1 he
      rw [he] at h
      have g := noExc_drain (env := env) (w := w1) l L L.queue
      split
      · rename_i w2 e hd; rw [hd] at g; exact h.trans g
      · rename_i w2 hd; rw [hd] at g; exact (h.trans g).trans (.ofEq rfl)

theorem noExc_ctxFlush (ls : List LogId) : NoExc w (ctxFlush env ls w).1 := by
  induction ls generalizing w with
  | nil => exact .refl _
  | cons l ls ih =>
    have h := noExc_flush (env := env) (w := w) l
    simp only [ctxFlush]
    split
    · rename_i w1 he; rw [he] at h; exact h.trans ih
    · rename_i w1 e he
      rw [he] at h
      split
      · exact h
      · have g := noExc_note (env := env) (w := w1) "context_flush"
        split
        · rename_i w2 hn; rw [hn] at g; exact (h.trans g).trans ih
        · rename_i w2 x hn; rw [hn] at g; exact h.trans g

theorem setAsync_trace' (l : LogId) (b : Bool) : (setAsync w l b).trace = w.trace := by
  simp only [setAsync]; split <;> rfl

theorem foldl_setAsync_trace (ls : List LogId) (b : Bool) :
    (ls.foldl (fun w l => setAsync w l b) w).trace = w.trace := by
  induction ls generalizing w with
  | nil => rfl
  | cons l ls ih => simp only [List.foldl_cons, ih, setAsync_trace']

theorem noExc_disable (u : Bool) : NoExc w (disableAsync env w u).1 := by
  simp only [disableAsync]
  have h1 : NoExc w (if u = true then w.ctxLoggers.foldl (fun w l => setAsync w l false) w else w) := by
    split
    · exact .ofEq (foldl_setAsync_trace ..)
    · exact .refl _
  generalize (if u = true then w.ctxLoggers.foldl (fun w l => setAsync w l false) w else w) = w1 at *
  have h2 := noExc_ctxFlush (env := env) (w := w1) w1.ctxLoggers
  split
  · rename_i w2 e he; rw [he] at h2; exact h1.trans h2
  · rename_i w2 he; rw [he] at h2; exact (h1.trans h2).trans (.ofEq rfl)

theorem noExc_guard {a : ActId} {r : World × Option Exc} (h : NoExc w r.1) : NoExc w (guard w a r).1 := by
  simp only [guard]; split
  · exact h
  · exact .refl _

theorem onLog_trace (l : LogId) (f : Log → Log) : (onLog w l f).trace = w.trace := by
  simp only [onLog]; split <;> rfl

/-- Only `exception` and leaving a block by an exception call `on_exception` hooks. -/
theorem noExc_item (it : Item) (h1 : ∀ a c m f kw, it ≠ .op (.exception a c m f kw))
    (h2 : ∀ a e, it ≠ .exit a (some e)) : NoExc w (stepItem env w it) := by
  cases it with
  | enter a => exact noExc_guard (noExc_enter a)
  | exit a exc =>
    cases exc with
    | some e => exact absurd rfl (h2 a e)
    | none =>
      simp only [stepItem]; split
      · exact noExc_exit_none a
      · exact .refl _
  | op o =>
    cases o with
    | newLogger l ss as =>
      simp only [stepItem, step]; split
      · exact .refl _
      · refine .ofEq ?_; simp only [addLogger]; split <;> rfl
    | newAction l lv nm kw =>
      simp only [stepItem, step]; split
      · exact .refl _
      · exact .ofEq rfl
    | begin a m f kw => exact noExc_guard (noExc_begin ..)
    | warn a m f kw => exact noExc_guard (noExc_warn ..)
    | success a m f kw => exact noExc_guard (noExc_success ..)
    | failure a m f kw => exact noExc_guard (noExc_failure ..)
    | exception a c m f kw => exact absurd rfl (h1 a c m f kw)
    | setItem a k v =>
      refine noExc_guard (.ofEq ?_)
      simp only [setItem]; split <;> rfl
    | comment l m f kw => exact noExc_comment ..
    | flush l => exact noExc_flush l
    | setAsync l b => exact .ofEq (setAsync_trace' ..)
    | setSinks l ss => exact .ofEq (onLog_trace ..)
    | addSink l s => exact .ofEq (onLog_trace ..)
    | clearSinks l => exact .ofEq (onLog_trace ..)
    | addPreflush l h => exact .ofEq (onLog_trace ..)
    | addNoteHandler h => exact .ofEq rfl
    | ctxFlush => exact noExc_ctxFlush _
    | enableAsync u =>
      refine .ofEq ?_
      simp only [stepItem, step, enableAsync]; split
      · exact foldl_setAsync_trace ..
      · rfl
    | disableAsync u => exact noExc_disable u
    | addLogger l =>
      refine .ofEq ?_
      simp only [stepItem, step]; split
      · rfl
      · simp only [addLogger]; split <;> rfl
    | removeLogger l => exact .ofEq rfl

/-- Ending an action leaves its recorded exceptions alone. -/
def KeepExc (a : ActId) (w w' : World) : Prop :=
  ∀ x, w.acts a = some x → ∃ y, w'.acts a = some y ∧ y.excEvs = x.excEvs

theorem KeepExc.trans {a : ActId} {x y z : World} (h : KeepExc a x y) (g : KeepExc a y z) : KeepExc a x z := by
  intro v hv
  obtain ⟨u, h1, h2⟩ := h v hv
  obtain ⟨t, h3, h4⟩ := g u h1
  exact ⟨t, h3, h4.trans h2⟩

theorem KeepExc.ofEq {a : ActId} {w w' : World} (h : w'.acts = w.acts) : KeepExc a w w' :=
  fun x hx => ⟨x, by rw [h]; exact hx, rfl⟩

theorem keepExc_begin (a : ActId) (m : Option String) (f : List Val) (kw : Dict) :
    KeepExc a w (begin_ env w a m f kw).1 := by
  intro x hx
  simp only [begin_, hx]
  split
  · exact ⟨_, setAct_same .., rfl⟩
  · simp only [publish_acts]; exact ⟨_, setAct_same .., rfl⟩

theorem keepExc_endWith (a : ActId) (st : Status) (m : String) (f : List Val) (t : Int) (exc : Option Exc) :
    KeepExc a w (endWith env w a st m f t exc).1 := by
  intro x hx
  simp only [endWith, hx]
  split
  · exact ⟨_, setAct_same .., rfl⟩
  · simp only [publish_acts]; exact ⟨_, setAct_same .., rfl⟩

theorem keepExc_end (a : ActId) (st : Status) (m : String) (f : List Val) (kw : Dict) (t : Option Int)
    (exc : Option Exc) : KeepExc a w (end_ env w a st m f kw t exc).1 := by
  intro x hx
  simp only [end_, hx]
  have h0 : KeepExc a w (w.setAct a { x with data := x.data.update kw }) := by
    intro x' hx'
    rw [hx] at hx'; cases hx'
    exact ⟨_, setAct_same .., rfl⟩
  generalize w.setAct a { x with data := x.data.update kw } = w1 at h0
  refine KeepExc.trans h0 ?_ x hx
  split
  · split
    · split
      · exact .trans (y := w1.tick) (.ofEq rfl) (keepExc_endWith _ _ _ _ _ _)
      · exact keepExc_endWith _ _ _ _ _ _
    · exact .trans (y := w1.tick) (.ofEq rfl) (keepExc_endWith _ _ _ _ _ _)
  · have hb := keepExc_begin (env := env) (w := w1) a none [] []
    generalize begin_ env w1 a none [] [] = r at hb
    obtain ⟨w2, y⟩ := r
    cases y with
    | some y => exact hb
    | none =>
      refine hb.trans ?_
      simp only [andThen]
      split
      · exact .ofEq rfl
      · exact keepExc_endWith _ _ _ _ _ _

/-- What `exception` calls: the `on_exception` hooks first. -/
theorem exception_trace {a : ActId} {x : Act} {L : Log} (hx : w.acts a = some x) (hL : w.logs x.logger = some L)
    (cur : Option Exc) (m : Option String) (f : List Val) (kw : Dict) :
    (∃ err, excEarly env x cur m = some err ∧ exception_ env w a cur m f kw = (w.tick, some err)) ∨
    (excEarly env x cur m = none ∧ ∃ msg ev w1, ExcStarted env w a x cur f msg ev w1 ∧ ev.status = .exception ∧
      (∃ y, (exception_ env w a cur m f kw).1.acts a = some y ∧ y.excEvs = x.excEvs ++ [ev]) ∧
      ∃ t, (exception_ env w a cur m f kw).1.trace =
          w.trace ++ (ran env (hookCalls L .exception ev) w.trace).1 ++ t ∧
        (∀ o ∈ t, o.excHook = false) ∧ ((ran env (hookCalls L .exception ev) w.trace).2 ≠ none → t = [])) := by
  simp only [exception_, hx, excEarly]
  cases env.excInfoErr cur with
  | some err => exact .inl ⟨err, rfl, rfl⟩
  | none =>
    dsimp only
    cases hm : (if falsy m then env.excText cur x.name (!x.data.isEmpty) else Except.ok (m.getD "")) with
    | error err => exact .inl ⟨err, rfl, rfl⟩
    | ok msg =>
      right
      refine ⟨rfl, msg, mkEvent w.tick a x.logger .exception .exception (w.now env) msg f cur,
        w.tick.bump.setAct a { x with excEvs := x.excEvs ++
          [mkEvent w.tick a x.logger .exception .exception (w.now env) msg f cur] },
        ⟨rfl, rfl, rfl, rfl, rfl, rfl, rfl, by simp, rfl, rfl, rfl, ⟨rfl, rfl, rfl, rfl⟩, rfl⟩, rfl, ?_⟩
      dsimp only
      generalize mkEvent w.tick a x.logger .exception .exception (w.now env) msg f cur = ev
      have hl : (w.tick.bump.setAct a { x with excEvs := x.excEvs ++ [ev] }).logs x.logger = some L := hL
      have htr : (w.tick.bump.setAct a { x with excEvs := x.excEvs ++ [ev] }).trace = w.trace := rfl
      have hac : (w.tick.bump.setAct a { x with excEvs := x.excEvs ++ [ev] }).acts a =
          some { x with excEvs := x.excEvs ++ [ev] } := setAct_same ..
      generalize w.tick.bump.setAct a { x with excEvs := x.excEvs ++ [ev] } = w1 at hl htr hac ⊢
      simp only [publishExc, hl, callAll_eq, htr]
      cases hr : (ran env (hookCalls L .exception ev) w.trace).2 with
      | some err => exact ⟨⟨_, hac, rfl⟩, [], by simp [andThen, htr], by simp, by simp⟩
      | none =>
        obtain ⟨t, h1, h2⟩ := noExc_end (env := env) (w := w1.logged (ran env (hookCalls L .exception ev) w.trace).1)
          a .exception msg f kw (some (w.now env)) cur
        exact ⟨keepExc_end (env := env) (w := w1.logged (ran env (hookCalls L .exception ev) w.trace).1)
          a .exception msg f kw (some (w.now env)) cur _ hac, t, by simp [andThen, h1, htr], h2, by simp⟩

end
end Verif
