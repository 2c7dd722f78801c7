import Verif.Lemmas.ActSpec
import Verif.Spec.Actions
/-!
# One item, one action
-/
namespace Verif
attribute [local irreducible] QUEUE_LIMIT

/-- The effect of a piece of code on the record of one action: `warns` the warnings it adds, `kw` the data it
writes (if `maybe`, only in a calm environment for sure), `st` what it does to the status. -/
structure RecStep (env : Env) (w w' : World) (x x' : Act) (warns : List (String × List Val)) (kw : Dict)
    (st : Status → Status) (maybe : Bool) : Prop where
  fixed : x'.fixed = x.fixed
  warns : ∃ news, x'.warnEvs = x.warnEvs ++ news ∧ news.map (fun e => (e.msg, e.fargs)) = warns
  data : maybe = false → x'.data = x.data.update kw
  dataCalm : env.Calm → x'.data = x.data.update kw
  status : x'.status = x.status ∨ x'.status = st x.status
  statusCalm : env.Calm → x'.status = st x.status
  begun : ∀ b', x'.beginEv = some b' → x.beginEv = some b' ∨
    ∃ n, w.ticks ≤ n ∧ n < w'.ticks ∧ b'.etime = env.clock n
  beginKeep : ∀ b, x.beginEv = some b → x'.beginEv = some b
  ended : ∀ e', x'.endEv = some e' → x.endEv = some e' ∨
    ∃ b', x'.beginEv = some b' ∧ (e'.etime = b'.etime ∨
      (x'.isTrans = true ∧ x.beginEv = some b' ∧ ∃ n, w.ticks ≤ n ∧ n < w'.ticks ∧ e'.etime = env.clock n))
  ticks : w.ticks ≤ w'.ticks

theorem RecStep.same {env : Env} {w w' : World} {x : Act} {st : Status → Status} (m : Bool)
    (hst : env.Calm → st x.status = x.status) (ht : w.ticks ≤ w'.ticks) :
    RecStep env w w' x x [] [] st m :=
  ⟨rfl, ⟨[], by simp, rfl⟩, fun _ => rfl, fun _ => rfl, .inl rfl, fun h => (hst h).symm, fun _ h => .inl h,
    fun _ h => h, fun _ h => .inl h, ht⟩

/-- Setting the two with-block flags first makes no difference. -/
theorem RecStep.flags {env : Env} {w w1 w' : World} {x x' : Act} {t d : Bool}
    {ws : List (String × List Val)} {kw : Dict} {st : Status → Status} {m : Bool}
    (h : RecStep env w1 w' { x with isTrans := t, defer := d } x' ws kw st m) (ht : w1.ticks = w.ticks) :
    RecStep env w w' x x' ws kw st m :=
  ⟨h.fixed, h.warns, h.data, h.dataCalm, h.status, h.statusCalm, ht ▸ h.begun, h.beginKeep, ht ▸ h.ended,
    ht ▸ h.ticks⟩

theorem RecStep.re {env : Env} {w w' : World} {x x' : Act}
    {ws ws' : List (String × List Val)} {kw kw' : Dict} {st st' : Status → Status} {m m' : Bool}
    (h : RecStep env w w' x x' ws kw st m) (hw : ws = ws') (hk : kw = kw') (hs : ∀ s, st s = st' s)
    (hm : m = m') : RecStep env w w' x x' ws' kw' st' m' := by
  obtain rfl : st = st' := funext hs
  subst hw hk hm; exact h

theorem RecStep.post {env : Env} {w w1 w' : World} {x x' : Act}
    {ws : List (String × List Val)} {kw : Dict} {st : Status → Status} {m : Bool}
    (h : RecStep env w w1 x x' ws kw st m) (ht : w1.ticks = w'.ticks) :
    RecStep env w w' x x' ws kw st m :=
  ⟨h.fixed, h.warns, h.data, h.dataCalm, h.status, h.statusCalm, ht ▸ h.begun, h.beginKeep, ht ▸ h.ended,
    ht ▸ h.ticks⟩

section
variable {env : Env} {w : World} {a : ActId} {x : Act}

theorem rec_begin (hx : w.acts a = some x) (m : Option String) (f : List Val) (kw : Dict) :
    ∃ x', (begin_ env w a m f kw).1.acts a = some x' ∧
      RecStep env w (begin_ env w a m f kw).1 x x' [] kw id false := by
  rcases begin_spec (env := env) hx m f kw with ⟨b, hb, h⟩ | ⟨hb, b, _, _, _, h4, _, _, h7, _, h9⟩
  · rw [h]
    exact ⟨_, updAct_same .., rfl, ⟨[], by simp, rfl⟩, fun _ => rfl, fun _ => rfl, .inl rfl, fun _ => rfl,
      fun _ h => .inl h, fun _ h => h, fun _ h => .inl h, by simp⟩
  · rw [h7]
    refine ⟨_, updAct_same .., rfl, ⟨[], by simp, rfl⟩, fun _ => rfl, fun _ => rfl, .inl rfl, fun _ => rfl, ?_, by simp [hb],
      fun _ h => .inl h, by omega⟩
    intro b' hb'
    simp only [Option.some.injEq] at hb'; subst hb'
    exact .inr ⟨w.ticks, by omega, by omega, h4⟩

theorem rec_warn (hx : w.acts a = some x) (m : String) (f : List Val) (kw : Dict) :
    ∃ x', (warn env w a m f kw).1.acts a = some x' ∧
      RecStep env w (warn env w a m f kw).1 x x' [(m, f)] kw id false := by
  obtain ⟨e, _, _, _, _, h5, h6, h7, _, h9⟩ := warn_spec (env := env) hx m f kw
  rw [h7]
  exact ⟨_, updAct_same .., rfl, ⟨[e], rfl, by simp [h5, h6]⟩, fun _ => rfl, fun _ => rfl, .inl rfl, fun _ => rfl,
    fun _ h => .inl h, fun _ h => h, fun _ h => .inl h, by omega⟩

/-- The only exceptions out of `publish` and `begin` are those of callbacks. -/
theorem publish_quiet (h : env.Quiet) (l : LogId) (k : Kind) (e : Event) :
    (publish env w l k e).2 = none := by
  simp only [publish]; split
  · rfl
  · split
    · rfl
    · rw [callAll_quiet h]

theorem publishExc_quiet (h : env.Quiet) (l : LogId) (e : Event) :
    (publishExc env w l e).2 = none := by
  simp only [publishExc]; split
  · rfl
  · rw [callAll_quiet h]

theorem begin_quiet (h : env.Quiet) (m : Option String) (f : List Val) (kw : Dict) :
    (begin_ env w a m f kw).2 = none := by
  simp only [begin_]; split
  · rfl
  · split
    · rfl
    · exact publish_quiet h ..

theorem endWith_quiet (h : env.Quiet) (st : Status) (m : String) (f : List Val) (t : Int)
    (exc : Option Exc) : (endWith env w a st m f t exc).2 = none := by
  simp only [endWith]; split
  · rfl
  · split
    · rfl
    · exact publish_quiet h ..

theorem end_quiet (h : env.Quiet) (st : Status) (m : String) (f : List Val) (kw : Dict)
    (t : Option Int) (exc : Option Exc) : (end_ env w a st m f kw t exc).2 = none := by
  simp only [end_]; split
  · rfl
  · rename_i y _
    split
    · split
      · split <;> exact endWith_quiet h ..
      · exact endWith_quiet h ..
    · have hb := begin_quiet (w := w.setAct a { y with data := y.data.update kw }) (a := a) h none [] []
      cases hr : begin_ env (w.setAct a { y with data := y.data.update kw }) a none [] [] with
      | mk w1 r =>
        rw [hr] at hb; dsimp only at hb; subst hb
        simp only [andThen]
        split
        · rfl
        · exact endWith_quiet h ..

theorem rec_end (hx : w.acts a = some x) (ht : x.isTrans = true → x.beginEv.isSome) (st : Status)
    (m : String) (f : List Val) (kw : Dict) (et : Option Int) (exc : Option Exc) (k : Nat) (hk : k ≤ w.ticks)
    (het : ∀ t, et = some t → ∃ n, k ≤ n ∧ n < w.ticks ∧ t = env.clock n) :
    ∃ x', (end_ env w a st m f kw et exc).1.acts a = some x' ∧
      x'.fixed = x.fixed ∧ x'.warnEvs = x.warnEvs ∧ x'.data = x.data.update kw ∧
      (x'.status = st ∨ (¬ env.Quiet ∧ x'.status = x.status)) ∧
      (∀ b', x'.beginEv = some b' → x.beginEv = some b' ∨
        ∃ n, w.ticks ≤ n ∧ n < (end_ env w a st m f kw et exc).1.ticks ∧ b'.etime = env.clock n) ∧
      (∀ b, x.beginEv = some b → x'.beginEv = some b) ∧
      (∀ e', x'.endEv = some e' → x.endEv = some e' ∨
        ∃ b', x'.beginEv = some b' ∧ (e'.etime = b'.etime ∨
          (x'.isTrans = true ∧ x.beginEv = some b' ∧ ∃ n, k ≤ n ∧
            n < (end_ env w a st m f kw et exc).1.ticks ∧ e'.etime = env.clock n))) ∧
      w.ticks ≤ (end_ env w a st m f kw et exc).1.ticks := by
  rcases end_spec (env := env) hx ht st m f kw et exc with ⟨b, e, h⟩ | ⟨b, y, h, hy⟩
  · rw [h.acts]
    refine ⟨_, updAct_same .., rfl, rfl, rfl, .inl (by simp [Act.status, h.estatus]), ?_, ?_, ?_, h.ticks⟩
    · intro b' hb'
      simp only [Option.some.injEq] at hb'; subst hb'
      rcases h.begun with hb | ⟨hb, _, hbt, _⟩
      · exact .inl hb
      · exact .inr ⟨w.ticks, Nat.le_refl _, h.ticksB hb, hbt⟩
    · intro b' hb'
      rcases h.begun with hb | ⟨hb, _⟩
      · rw [hb] at hb'; cases hb'; rfl
      · rw [hb] at hb'; cases hb'
    · intro e' he'
      simp only [Option.some.injEq] at he'; subst he'
      refine .inr ⟨b, rfl, ?_⟩
      by_cases htr : x.isTrans = true
      · rcases h.begun with hb | ⟨_, hf, _⟩
        · refine .inr ⟨htr, hb, ?_⟩
          rw [h.etime]; simp only [endTimeOf, htr, if_true]
          cases et with
          | none => exact ⟨w.ticks, by omega, h.ticksE htr (.inl rfl), rfl⟩
          | some t =>
            dsimp only
            split
            · rename_i h0
              exact ⟨w.ticks, by omega, h.ticksE htr (.inr (by rw [h0])), rfl⟩
            · obtain ⟨n, n1, n2, n3⟩ := het t rfl
              exact ⟨n, n1, Nat.lt_of_lt_of_le n2 h.ticks, n3⟩
        · rw [htr] at hf; cases hf
      · left; rw [h.etime]; simp [endTimeOf, htr]
  · rw [h.acts]
    refine ⟨_, updAct_same .., rfl, rfl, rfl, .inr ⟨?_, rfl⟩, ?_, by simp [h.none], fun _ h => .inl h,
      by have := h.ticks; omega⟩
    · intro hq; rw [end_quiet hq] at hy; cases hy
    · intro b' hb'
      simp only [Option.some.injEq] at hb'; subst hb'
      exact .inr ⟨w.ticks, Nat.le_refl _, by rw [h.ticks]; omega, h.btime⟩

theorem rec_status (hx : w.acts a = some x) (ht : x.isTrans = true → x.beginEv.isSome) (st : Status)
    (m : String) (f : List Val) (kw : Dict) :
    ∃ x', (end_ env w a st m f kw none none).1.acts a = some x' ∧
      RecStep env w (end_ env w a st m f kw none none).1 x x' [] kw (fun _ => st) false := by
  obtain ⟨x', h0, h1, h2, h3, h4, h5, h6, h7, h8⟩ :=
    rec_end (env := env) hx ht st m f kw none none w.ticks (Nat.le_refl _) (by simp)
  refine ⟨x', h0, h1, ⟨[], by simp [h2], rfl⟩, fun _ => h3, fun _ => h3, ?_, ?_, h5, h6, h7, h8⟩
  · rcases h4 with h | ⟨_, h⟩
    · exact .inr h
    · exact .inl h
  · intro hc
    rcases h4 with h | ⟨hq, _⟩
    · exact h
    · exact absurd hc.quiet hq

theorem rec_success (hx : w.acts a = some x) (ht : x.isTrans = true → x.beginEv.isSome)
    (m : Option String) (f : List Val) (kw : Dict) :
    ∃ x', (success env w a m f kw).1.acts a = some x' ∧
      RecStep env w (success env w a m f kw).1 x x' [] kw (fun _ => .success) false := by
  simp only [success, hx]
  exact rec_status hx ht ..

theorem rec_failure (hx : w.acts a = some x) (ht : x.isTrans = true → x.beginEv.isSome)
    (m : Option String) (f : List Val) (kw : Dict) :
    ∃ x', (failure env w a m f kw).1.acts a = some x' ∧
      RecStep env w (failure env w a m f kw).1 x x' [] kw (fun _ => .failure) false := by
  simp only [failure, hx]
  exact rec_status hx ht ..

theorem excEarly_calm (hc : env.Calm) (e : Exc) (m : Option String) :
    excEarly env x (some e) m = none := by
  simp only [excEarly, hc.info]
  obtain ⟨s, hs⟩ := hc.text (some e) x.name (!x.data.isEmpty)
  rw [hs]
  by_cases hf : falsy m = true <;> simp [hf]

theorem excEarly_none (hc : env.Calm) (m : Option String) : excEarly env x none m ≠ none := by
  simp only [excEarly]
  obtain ⟨y, hy⟩ := Option.ne_none_iff_exists'.1 hc.noInfo
  rw [hy]; simp

/-- What `exception` writes, and the status it leads to. -/
def excWrites (cur : Option Exc) (kw : Dict) : Dict := if cur.isSome then kw else []
def excStatus (cur : Option Exc) (st : Status) : Status := if cur.isSome then .exception else st

theorem rec_exception (hx : w.acts a = some x) (ht : x.isTrans = true → x.beginEv.isSome)
    (cur : Option Exc) (m : Option String) (f : List Val) (kw : Dict)
    (hcur : env.excInfoErr none = none → cur ≠ none) :
    ∃ x', (exception_ env w a cur m f kw).1.acts a = some x' ∧
      RecStep env w (exception_ env w a cur m f kw).1 x x' [] (excWrites cur kw) (excStatus cur) true := by
  rcases exception_spec (env := env) hx cur m f kw with ⟨err, he, hr⟩ | ⟨he, msg, ev, w1, hs, hr⟩
  · rw [hr]
    cases cur with
    | none => exact ⟨x, hx, RecStep.same _ (fun _ => rfl) (by simp)⟩
    | some e =>
      refine ⟨x, hx, rfl, ⟨[], by simp, rfl⟩, by simp, ?_, .inl rfl, ?_, fun _ h => .inl h,
        fun _ h => h, fun _ h => .inl h, by simp⟩
      · intro hc; rw [excEarly_calm hc] at he; cases he
      · intro hc; rw [excEarly_calm hc] at he; cases he
  · obtain ⟨e, rfl⟩ : ∃ e, cur = some e := by
      cases cur with
      | some e => exact ⟨e, rfl⟩
      | none =>
        refine absurd rfl (hcur ?_)
        simp only [excEarly] at he
        split at he
        · cases he
        · assumption
    rcases hr with ⟨err, hp, hr⟩ | ⟨hp, hr⟩
    · rw [hr]
      refine ⟨{ x with excEvs := x.excEvs ++ [ev] }, by rw [publishExc_acts', hs.acts]; simp, rfl,
        ⟨[], by simp, rfl⟩, by simp, ?_, .inl rfl, ?_, fun _ h => .inl h, fun _ h => h, fun _ h => .inl h, ?_⟩
      · intro hc; rw [publishExc_quiet hc.quiet] at hp; cases hp
      · intro hc; rw [publishExc_quiet hc.quiet] at hp; cases hp
      · rw [publishExc_ticks, hs.ticks]; omega
    · rw [hr]
      obtain ⟨x', h0, h1, h2, h3, h4, h5, h6, h7, h8⟩ :=
        rec_end (env := env) (w := (publishExc env w1 x.logger ev).1) (a := a)
          (x := { x with excEvs := x.excEvs ++ [ev] }) (by rw [publishExc_acts', hs.acts]; simp) ht
          .exception msg f kw (some (w.now env)) (some e) w.ticks (by rw [publishExc_ticks, hs.ticks]; omega)
          (by intro t h; cases h; exact ⟨w.ticks, Nat.le_refl _, by rw [publishExc_ticks, hs.ticks]; simp, rfl⟩)
      have htk : (publishExc env w1 x.logger ev).1.ticks = w.ticks + 1 := by
        rw [publishExc_ticks, hs.ticks]
      refine ⟨x', h0, h1, ⟨[], by simp [h2], rfl⟩, fun _ => h3, fun _ => h3, ?_, ?_, ?_, h6, h7, by omega⟩
      · rcases h4 with h | ⟨_, h⟩
        · exact .inr h
        · exact .inl h
      · intro hc
        rcases h4 with h | ⟨hq, _⟩
        · exact h
        · exact absurd hc.quiet hq
      · intro b' hb'
        rcases h5 b' hb' with h | ⟨n, h, h'⟩
        · exact .inl h
        · exact .inr ⟨n, by omega, h'⟩

theorem rec_enter (hx : w.acts a = some x) :
    ∃ x', (enter env w a).1.acts a = some x' ∧
      RecStep env w (enter env w a).1 x x' [] [] id false := by
  simp only [enter, hx]
  obtain ⟨x', h, h'⟩ := rec_begin (env := env)
    (w := (w.setAct a { x with isTrans := true, defer := true }).setActive x.logger (some a)) (a := a)
    (x := { x with isTrans := true, defer := true }) (by simp) none [] []
  exact ⟨x', h, h'.flags rfl⟩

/-- The status `__exit__` leads to. -/
def exitStatus (exc : Option Exc) (st : Status) : Status :=
  if exc.isSome then .exception else if st = .begin then .success else st

theorem noteAll_acts (n : String) : (noteAll env n w).1.acts = w.acts := by rw [noteAll_eq]; rfl
theorem noteAll_ticks (n : String) : (noteAll env n w).1.ticks = w.ticks := by rw [noteAll_eq]; rfl
theorem noteAll_pub (n : String) : (noteAll env n w).1.pub = w.pub := by rw [noteAll_eq]; rfl

theorem exitPublish_exc (hx : w.acts a = some x) (e : Exc) :
    exitPublish env w a (some e) =
      (match exception_ env (w.setAct a { x with defer := false }) a (some e) none [] [] with
      | (w, none) => (w, none)
      | (w, some err) =>
        match err.cls with
        | .ordinary => noteAll env "action_exit" w
        | .baseOnly => (w, some err)) := by
  simp only [exitPublish, hx]
  rfl

theorem exitPublish_open (hx : w.acts a = some x) (he : x.endEv = none) :
    exitPublish env w a none = success env (w.setAct a { x with defer := false }) a none [] [] := by
  simp only [exitPublish, hx]
  split
  · rename_i h; rw [he] at h; cases h
  · rfl

theorem exitPublish_ended (hx : w.acts a = some x) {ev : Event} (he : x.endEv = some ev) :
    exitPublish env w a none = publish env (w.setAct a { x with defer := false }) x.logger .end_ ev := by
  simp only [exitPublish, hx]
  split
  · rename_i h; rw [he] at h; cases h; rfl
  · rename_i h; rw [he] at h; cases h

theorem rec_exitPublish (hx : w.acts a = some x) (ht : x.isTrans = true → x.beginEv.isSome)
    (hend : ∀ e, x.endEv = some e → e.status ≠ .begin) (exc : Option Exc) :
    ∃ x', (exitPublish env w a exc).1.acts a = some x' ∧
      RecStep env w (exitPublish env w a exc).1 x x' [] [] (exitStatus exc) true := by
  cases exc with
  | some e =>
    rw [exitPublish_exc hx]
    obtain ⟨x', h, h'⟩ := rec_exception (env := env) (w := w.setAct a { x with defer := false }) (a := a)
      (x := { x with defer := false }) (by simp) ht (some e) none [] [] (by simp)
    refine ⟨x', ?_⟩
    cases hr : exception_ env (w.setAct a { x with defer := false }) a (some e) none [] [] with
    | mk w1 r =>
      rw [hr] at h h'; dsimp only at h h'
      have h'' : RecStep env w w1 x x' [] [] (exitStatus (some e)) true := h'.flags (t := x.isTrans) rfl
      cases r with
      | none => exact ⟨h, h''⟩
      | some err =>
        dsimp only
        cases err.cls with
        | ordinary => exact ⟨by rw [noteAll_acts]; exact h, h''.post (by rw [noteAll_ticks])⟩
        | baseOnly => exact ⟨h, h''⟩
  | none =>
    by_cases he : x.endEv = none
    · rw [exitPublish_open hx he]
      obtain ⟨x', h, h'⟩ := rec_success (env := env) (w := w.setAct a { x with defer := false }) (a := a)
        (x := { x with defer := false }) (by simp) ht none [] []
      have hst : x.status = .begin := by simp [Act.status, he]
      have h'' := h'.flags (w := w) (x := x) (t := x.isTrans) (d := false) rfl
      refine ⟨x', h, h''.fixed, h''.warns, fun _ => h''.data rfl, h''.dataCalm, ?_, ?_, h''.begun,
        h''.beginKeep, h''.ended, h''.ticks⟩
      · simpa [hst, exitStatus] using h''.status
      · simpa [hst, exitStatus] using h''.statusCalm
    · obtain ⟨ev, he⟩ := Option.ne_none_iff_exists'.1 he
      have hst : x.status ≠ .begin := by simpa [Act.status, he] using hend ev he
      rw [exitPublish_ended hx he]
      refine ⟨{ x with defer := false }, by simp, ?_⟩
      refine RecStep.flags (t := x.isTrans) (d := false) (w1 := w) (RecStep.same _ (fun _ => ?_) (by simp)) rfl
      exact if_neg hst

theorem rec_exit (hx : w.acts a = some x) (ht : x.isTrans = true → x.beginEv.isSome)
    (hend : ∀ e, x.endEv = some e → e.status ≠ .begin) (exc : Option Exc) :
    ∃ x', (exit env w a exc).1.acts a = some x' ∧
      RecStep env w (exit env w a exc).1 x x' [] [] (exitStatus exc) true := by
  obtain ⟨x', h, h'⟩ := rec_exitPublish (env := env) hx ht hend exc
  refine ⟨x', ?_⟩
  simp only [exit, hx]
  cases hr : exitPublish env w a exc with
  | mk w1 r =>
    rw [hr] at h h'; dsimp only at h h'
    cases r with
    | none => exact ⟨h, h'.post rfl⟩
    | some e => exact ⟨h, h'⟩

/-- Leaving a block writes no data. -/
theorem exit_data (hx : w.acts a = some x) (ht : x.isTrans = true → x.beginEv.isSome) (exc : Option Exc) :
    ∃ y, (exit env w a exc).1.acts a = some y ∧ y.data = x.data := by
  suffices h : ∃ y, (exitPublish env w a exc).1.acts a = some y ∧ y.data = x.data by
    obtain ⟨y, hy, hd⟩ := h
    refine ⟨y, ?_, hd⟩
    simp only [exit, hx]
    cases hr : exitPublish env w a exc with
    | mk w1 r => rw [hr] at hy; cases r <;> exact hy
  cases exc with
  | none =>
    by_cases he : x.endEv = none
    · rw [exitPublish_open hx he]
      obtain ⟨x', h, h'⟩ := rec_success (env := env) (w := w.setAct a { x with defer := false }) (a := a)
        (x := { x with defer := false }) (by simp) ht none [] []
      exact ⟨x', h, h'.data rfl⟩
    · obtain ⟨ev, he⟩ := Option.ne_none_iff_exists'.1 he
      rw [exitPublish_ended hx he]
      exact ⟨{ x with defer := false }, by rw [publish_acts]; exact setAct_same .., rfl⟩
  | some e =>
    rw [exitPublish_exc hx]
    have main : ∃ y, (exception_ env (w.setAct a { x with defer := false }) a (some e) none [] []).1.acts a
        = some y ∧ y.data = x.data := by
      rcases exception_spec (env := env) (w := w.setAct a { x with defer := false }) (a := a)
        (x := { x with defer := false }) (by simp) (some e) none [] [] with
        ⟨err, he, hr⟩ | ⟨he, msg, ev, w1, hs, ⟨err, hp, hr⟩ | ⟨hp, hr⟩⟩
      · rw [hr]; exact ⟨{ x with defer := false }, setAct_same .., rfl⟩
      · rw [hr]
        exact ⟨{ x with defer := false, excEvs := x.excEvs ++ [ev] },
          by rw [publishExc_acts', hs.acts]; exact updAct_same .., rfl⟩
      · rw [hr]
        obtain ⟨x', h0, h1, h2, h3, _⟩ :=
          rec_end (env := env) (w := (publishExc env w1 x.logger ev).1) (a := a)
            (x := { x with defer := false, excEvs := x.excEvs ++ [ev] })
            (by rw [publishExc_acts', hs.acts]; simp) ht
            .exception msg [] [] (some (w.now env)) (some e) w.ticks
            (by rw [publishExc_ticks, hs.ticks]; simp)
            (by intro t h; cases h; exact ⟨w.ticks, Nat.le_refl _, by rw [publishExc_ticks, hs.ticks]; simp, rfl⟩)
        exact ⟨x', h0, h3⟩
    obtain ⟨y, hy, hd⟩ := main
    refine ⟨y, ?_, hd⟩
    cases hr : exception_ env (w.setAct a { x with defer := false }) a (some e) none [] [] with
    | mk w1 r =>
      rw [hr] at hy; dsimp only at hy
      cases r with
      | none => exact hy
      | some err =>
        dsimp only
        cases err.cls with
        | ordinary => rw [noteAll_acts]; exact hy
        | baseOnly => exact hy

theorem rec_setItem (hx : w.acts a = some x) (k : String) (v : Val) :
    ∃ x', (setItem w a k v).acts a = some x' ∧
      RecStep env w (setItem w a k v) x x' [] [(k, v)] id false := by
  simp only [setItem, hx]
  exact ⟨_, setAct_same .., rfl, ⟨[], by simp, rfl⟩, fun _ => rfl, fun _ => rfl, .inl rfl, fun _ => rfl,
    fun _ h => .inl h, fun _ h => h, fun _ h => .inl h, by simp⟩
end

/-- Calls on one action leave the others alone. -/
structure OnlyAct (a : ActId) (w w' : World) : Prop where
  acts : ∀ b, b ≠ a → w'.acts b = w.acts b
  ticks : w.ticks ≤ w'.ticks

namespace OnlyAct
variable {a : ActId}
theorem refl (w : World) : OnlyAct a w w := ⟨fun _ _ => rfl, Nat.le_refl _⟩
theorem trans {x y z : World} (h : OnlyAct a x y) (g : OnlyAct a y z) : OnlyAct a x z :=
  ⟨fun b hb => (g.acts b hb).trans (h.acts b hb), Nat.le_trans h.ticks g.ticks⟩
theorem setAct (w : World) (x : Act) : OnlyAct a w (w.setAct a x) :=
  ⟨fun _ hb => by simp [updAct_ne _ _ hb], Nat.le_refl _⟩
theorem ofEq {w w' : World} (h : w'.acts = w.acts) (h' : w'.ticks = w.ticks) : OnlyAct a w w' :=
  ⟨fun b _ => by rw [h], by rw [h']; exact Nat.le_refl _⟩
theorem tick (w : World) : OnlyAct a w w.tick := ⟨fun _ _ => rfl, by simp⟩
theorem bump (w : World) : OnlyAct a w w.bump := ⟨fun _ _ => rfl, by simp⟩
end OnlyAct

section
variable {env : Env} {w : World} {a : ActId}

theorem only_publish (l : LogId) (k : Kind) (e : Event) : OnlyAct a w (publish env w l k e).1 :=
  .ofEq (by simp) (by simp)
theorem only_publishExc (l : LogId) (e : Event) : OnlyAct a w (publishExc env w l e).1 :=
  .ofEq (by simp) (by simp)
theorem only_andThen {r : World × Option Exc} {k : World → World × Option Exc} (h : OnlyAct a w r.1)
    (g : ∀ w', OnlyAct a w' (k w').1) : OnlyAct a w (andThen r k).1 := by
  obtain ⟨w', x⟩ := r
  cases x with
  | none => exact h.trans (g w')
  | some e => exact h
theorem only_begin (m : Option String) (f : List Val) (kw : Dict) :
    OnlyAct a w (begin_ env w a m f kw).1 := by
  simp only [begin_]; split
  · exact .refl _
  · split
    · exact .setAct ..
    · exact ((OnlyAct.tick _).trans ((OnlyAct.bump _).trans (.setAct ..))).trans (only_publish ..)
theorem only_warn (m : String) (f : List Val) (kw : Dict) : OnlyAct a w (warn env w a m f kw).1 := by
  simp only [warn]; split
  · exact .refl _
  · exact ((OnlyAct.tick _).trans ((OnlyAct.bump _).trans (.setAct ..))).trans (only_publish ..)
theorem only_endWith (st : Status) (m : String) (f : List Val) (t : Int) (exc : Option Exc) :
    OnlyAct a w (endWith env w a st m f t exc).1 := by
  simp only [endWith]; split
  · exact .refl _
  · split
    · exact (OnlyAct.bump _).trans (.setAct ..)
    · exact ((OnlyAct.bump _).trans (.setAct ..)).trans (only_publish ..)
theorem only_end (st : Status) (m : String) (f : List Val) (kw : Dict) (t : Option Int)
    (exc : Option Exc) : OnlyAct a w (end_ env w a st m f kw t exc).1 := by
  simp only [end_]; split
  · exact .refl _
  · rename_i x _
    refine OnlyAct.trans (.setAct w { x with data := x.data.update kw }) ?_
    split
    · split
      · split
        · exact (OnlyAct.tick _).trans (only_endWith ..)
        · exact only_endWith ..
      · exact (OnlyAct.tick _).trans (only_endWith ..)
    · refine only_andThen (only_begin ..) fun w' => ?_
      split
      · exact .refl _
      · exact only_endWith ..
theorem only_success (m : Option String) (f : List Val) (kw : Dict) :
    OnlyAct a w (success env w a m f kw).1 := by
  simp only [success]; split
  · exact .refl _
  · exact only_end ..
theorem only_failure (m : Option String) (f : List Val) (kw : Dict) :
    OnlyAct a w (failure env w a m f kw).1 := by
  simp only [failure]; split
  · exact .refl _
  · exact only_end ..
theorem only_exception (cur : Option Exc) (m : Option String) (f : List Val) (kw : Dict) :
    OnlyAct a w (exception_ env w a cur m f kw).1 := by
  simp only [exception_]; split
  · exact .refl _
  · refine OnlyAct.trans (.tick w) ?_
    split
    · exact .refl _
    · split
      · exact .refl _
      · exact only_andThen (((OnlyAct.bump _).trans (.setAct ..)).trans (only_publishExc ..))
          fun w' => only_end ..
theorem only_enter : OnlyAct a w (enter env w a).1 := by
  simp only [enter]; split
  · exact .refl _
  · rename_i x _
    exact ((OnlyAct.setAct w { x with isTrans := true, defer := true }).trans
      (.ofEq (by simp) (by simp))).trans (only_begin ..)
theorem only_note (n : String) : OnlyAct a w (noteAll env n w).1 := by
  rw [noteAll_eq]; exact .ofEq rfl rfl
theorem only_exitPublish (exc : Option Exc) : OnlyAct a w (exitPublish env w a exc).1 := by
  simp only [exitPublish]; split
  · exact .refl _
  · rename_i x _
    refine OnlyAct.trans (.setAct w { x with defer := false }) ?_
    split
    · rename_i e
      have h := only_exception (env := env) (w := w.setAct a { x with defer := false }) (a := a) (some e) none [] []
      cases hr : exception_ env (w.setAct a { x with defer := false }) a (some e) none [] [] with
      | mk w1 r =>
        rw [hr] at h; dsimp only at h
        cases r with
        | none => exact h
        | some err =>
          dsimp only
          cases err.cls with
          | ordinary => exact h.trans (only_note _)
          | baseOnly => exact h
    · split
      · exact only_publish ..
      · exact only_success ..
theorem only_exit (exc : Option Exc) : OnlyAct a w (exit env w a exc).1 := by
  simp only [exit]; split
  · exact .refl _
  · have h := only_exitPublish (env := env) (w := w) (a := a) exc
    cases hr : exitPublish env w a exc with
    | mk w1 r =>
      rw [hr] at h; dsimp only at h
      cases r with
      | none => exact h.trans (.ofEq rfl rfl)
      | some e => exact h
theorem only_setItem (k : String) (v : Val) : OnlyAct a w (setItem w a k v) := by
  simp only [setItem]; split
  · exact .refl _
  · exact .setAct ..
end

/-- The action an item is a call on. -/
def Item.target : Item → Option ActId
  | .op (.begin a ..) | .op (.warn a ..) | .op (.success a ..) | .op (.failure a ..)
  | .op (.exception a ..) | .op (.setItem a ..) | .enter a | .exit a _ => some a
  | _ => none

theorem guard_held {w : World} {a : ActId} (h : w.held a = true) (r : World × Option Exc) :
    (guard w a r).1 = r.1 := by simp [guard, h, ret]

theorem only_guard {w : World} {a : ActId} {r : World × Option Exc} (h : OnlyAct a w r.1) :
    OnlyAct a w (guard w a r).1 := by
  simp only [guard]; split
  · exact h
  · exact .refl _

/-- An item that is not a call on `a` leaves its record alone. -/
theorem rec_other {env : Env} {w : World} {a : ActId} {x : Act} (hx : w.acts a = some x)
    (hf : w.acts w.nextId = none) (it : Item) (ht : it.target ≠ some a) :
    (stepItem env w it).acts a = some x ∧ w.ticks ≤ (stepItem env w it).ticks := by
  have hne : a ≠ w.nextId := by rintro rfl; rw [hf] at hx; cases hx
  have fl : ∀ {w' : World}, FlushLike w w' → w'.acts a = some x ∧ w.ticks ≤ w'.ticks :=
    fun h => ⟨by rw [h.core.acts]; exact hx, h.ticks⟩
  have only : ∀ {b : ActId} {w' : World}, OnlyAct b w w' → b ≠ a →
      w'.acts a = some x ∧ w.ticks ≤ w'.ticks :=
    fun h hb => ⟨by rw [h.acts a (fun e => hb e.symm)]; exact hx, h.ticks⟩
  cases it with
  | enter b =>
    exact only (only_guard only_enter) (by simpa [Item.target] using ht)
  | exit b exc =>
    have hb : b ≠ a := by simpa [Item.target] using ht
    simp only [stepItem]; split
    · exact only (only_exit exc) hb
    · exact ⟨hx, Nat.le_refl _⟩
  | op o =>
    cases o with
    | begin b m f kw => exact only (only_guard (only_begin ..)) (by simpa [Item.target] using ht)
    | warn b m f kw => exact only (only_guard (only_warn ..)) (by simpa [Item.target] using ht)
    | success b m f kw => exact only (only_guard (only_success ..)) (by simpa [Item.target] using ht)
    | failure b m f kw => exact only (only_guard (only_failure ..)) (by simpa [Item.target] using ht)
    | exception b c m f kw => exact only (only_guard (only_exception ..)) (by simpa [Item.target] using ht)
    | setItem b k v => exact only (only_guard (only_setItem ..)) (by simpa [Item.target] using ht)
    | newLogger l ss async =>
      simp only [stepItem, step]; split
      · exact ⟨hx, Nat.le_refl _⟩
      · simp only [addLogger]; split
        · exact ⟨hx, by simp⟩
        · exact ⟨hx, by simp⟩
    | newAction l lv nm kw =>
      simp only [stepItem, step]; split
      · exact ⟨hx, Nat.le_refl _⟩
      · exact ⟨by simp only [newAction, setAct_acts]; rw [updAct_ne _ _ hne]; exact hx, Nat.le_refl _⟩
    | comment l m f kw =>
      simp only [stepItem, step, ret, comment]; split
      · exact ⟨hx, Nat.le_refl _⟩
      · exact ⟨by simp [updAct_ne _ _ hne, hx], by simp⟩
    | flush l => exact fl (flush_flushLike ..)
    | setAsync l b => exact fl (setAsync_flushLike ..)
    | setSinks l ss => exact fl (onLog_flushLike ..)
    | addSink l ss => exact fl (onLog_flushLike ..)
    | clearSinks l => exact fl (onLog_flushLike ..)
    | addPreflush l h => exact fl (onLog_flushLike ..)
    | addNoteHandler h => exact ⟨hx, Nat.le_refl _⟩
    | ctxFlush => exact fl (ctxFlush_flushLike ..)
    | enableAsync u =>
      simp only [stepItem, step, enableAsync]
      split
      · have := foldl_setAsync_flushLike w.ctxLoggers false { w with ctxAsync := true }
        exact ⟨by rw [this.core.acts]; exact hx, this.ticks⟩
      · exact ⟨hx, Nat.le_refl _⟩
    | disableAsync u =>
      simp only [stepItem, step, ret, disableAsync]
      have h : FlushLike w (if u then w.ctxLoggers.foldl (fun w l => setAsync w l false) w else w) := by
        split
        · exact foldl_setAsync_flushLike ..
        · exact .refl _
      generalize (if u then w.ctxLoggers.foldl (fun w l => setAsync w l false) w else w) = w1 at h ⊢
      have h2 := h.trans (ctxFlush_flushLike env w1.ctxLoggers w1)
      cases hr : ctxFlush env w1.ctxLoggers w1 with
      | mk w2 r =>
        rw [hr] at h2; dsimp only at h2
        cases r with
        | none => exact ⟨(fl h2).1, (fl h2).2⟩
        | some e => exact fl h2
    | addLogger l =>
      simp only [stepItem, step]; split
      · exact ⟨hx, Nat.le_refl _⟩
      · simp only [addLogger]; split <;> exact ⟨hx, Nat.le_refl _⟩
    | removeLogger l => 
      simp only [stepItem, step, removeLogger]; exact ⟨hx, Nat.le_refl _⟩

/-- What one item does to the record of a held action. -/
theorem rec_item {env : Env} (hno : env.NeedsExc) {w : World} {a : ActId} {x : Act}
    (hx : w.acts a = some x) (hh : x.handle = true) (hf : w.acts w.nextId = none)
    (ht : x.isTrans = true → x.beginEv.isSome) (hend : ∀ e, x.endEv = some e → e.status ≠ .begin)
    (it : Item) :
    ∃ x', (stepItem env w it).acts a = some x' ∧
      RecStep env w (stepItem env w it) x x' (it.warnsOn a) (it.writesOn a) (it.statusOn a)
        (it.isExceptionOn a) := by
  have hheld : w.held a = true := held_iff.2 ⟨x, hx, hh⟩
  by_cases htg : it.target = some a
  · cases it with
    | enter b =>
      simp only [Item.target, Option.some.injEq] at htg; subst htg
      simp only [stepItem, guard_held hheld]
      exact rec_enter hx
    | exit b exc =>
      simp only [Item.target, Option.some.injEq] at htg; subst htg
      simp only [stepItem, hheld, if_true]
      obtain ⟨x', h, h'⟩ := rec_exit (env := env) hx ht hend exc
      have hst : (fun st => (Item.exit b exc).statusOn b st) = exitStatus exc := by
        funext st; cases exc <;> simp [Item.statusOn, exitStatus]
      refine ⟨x', h, ?_⟩
      show RecStep env w _ x x' [] [] (fun st => (Item.exit b exc).statusOn b st) false
      rw [hst]
      refine ⟨h'.fixed, h'.warns, fun _ => ?_, h'.dataCalm, h'.status, h'.statusCalm, h'.begun, h'.beginKeep,
        h'.ended, h'.ticks⟩
      obtain ⟨y, hy, hd⟩ := exit_data (env := env) hx ht exc
      rw [h] at hy; cases hy; exact hd
    | op o =>
      cases o with
      | begin b m f kw =>
        simp only [Item.target, Option.some.injEq] at htg; subst htg
        simp only [stepItem, step, guard_held hheld, Item.writesOn, if_true]
        exact rec_begin hx m f kw
      | warn b m f kw =>
        simp only [Item.target, Option.some.injEq] at htg; subst htg
        simp only [stepItem, step, guard_held hheld, Item.writesOn, Item.warnsOn, if_true]
        exact rec_warn hx m f kw
      | success b m f kw =>
        simp only [Item.target, Option.some.injEq] at htg; subst htg
        simp only [stepItem, step, guard_held hheld, Item.writesOn, if_true]
        obtain ⟨x', h, h'⟩ := rec_success (env := env) hx ht m f kw
        exact ⟨x', h, h'.re rfl rfl (by simp [Item.statusOn]) rfl⟩
      | failure b m f kw =>
        simp only [Item.target, Option.some.injEq] at htg; subst htg
        simp only [stepItem, step, guard_held hheld, Item.writesOn, if_true]
        obtain ⟨x', h, h'⟩ := rec_failure (env := env) hx ht m f kw
        exact ⟨x', h, h'.re rfl rfl (by simp [Item.statusOn]) rfl⟩
      | exception b c m f kw =>
        simp only [Item.target, Option.some.injEq] at htg; subst htg
        simp only [stepItem, step, guard_held hheld]
        obtain ⟨x', h, h'⟩ := rec_exception (env := env) hx ht c m f kw (fun h => absurd h hno)
        refine ⟨x', h, ?_⟩
        cases c <;>
          exact h'.re rfl (by simp [Item.writesOn, excWrites]) (by simp [Item.statusOn, excStatus])
            (by simp [Item.isExceptionOn])
      | setItem b k v =>
        simp only [Item.target, Option.some.injEq] at htg; subst htg
        simp only [stepItem, step, guard_held hheld, Item.writesOn, if_true]
        exact rec_setItem hx k v
      | _ => simp [Item.target] at htg
  · obtain ⟨h, h'⟩ := rec_other (env := env) hx hf it htg
    refine ⟨x, h, ?_⟩
    have e1 : it.warnsOn a = [] := by
      cases it with
      | op o => cases o <;> simp_all [Item.warnsOn, Item.target]
      | _ => rfl
    have e2 : it.writesOn a = [] := by
      cases it with
      | op o =>
        cases o with
        | exception b c => cases c <;> simp_all [Item.writesOn, Item.target]
        | _ => simp_all [Item.writesOn, Item.target]
      | _ => rfl
    have e3 : it.statusOn a x.status = x.status := by
      cases it with
      | op o =>
        cases o with
        | exception b c => cases c <;> simp_all [Item.statusOn, Item.target]
        | _ => simp_all [Item.statusOn, Item.target]
      | exit b c => cases c <;> simp_all [Item.statusOn, Item.target]
      | enter b => rfl
    rw [e1, e2]
    exact .same _ (fun _ => e3) h'
end Verif
