import Verif.Lemmas.Objects
import Verif.Lemmas.ActSpec
import Verif.Spec.Samples
import Verif.Spec.Lifecycle
import Verif.Spec.Defaults
/-!
# C147: names and messages may be any object
-/
namespace Verif.Objects
variable {env : Env} {w : World} {a : ActId} {x : Act}

/-- **C147, strings.**  With strings and None for names and messages these are the calls all other properties are about. -/
theorem C147_text (env : Env) (w : World) (l : LogId) (a : ActId) (v : Int) (s : String) (te : Exc) (cur : Option Exc) (f : List Val)
    (kw : Dict) :
    call env w (.newAction l (.ok v) (text s) kw) = step env w (.newAction l v s kw) ∧
    call env w (.begin a (text s) f kw) = step env w (.begin a (some s) f kw) ∧
    call env w (.begin a (nothing te) f kw) = step env w (.begin a none f kw) ∧
    call env w (.warn a (text s) f kw) = step env w (.warn a s f kw) ∧
    call env w (.success a (text s) f kw) = step env w (.success a (some s) f kw) ∧
    call env w (.success a (nothing te) f kw) = step env w (.success a none f kw) ∧
    call env w (.failure a (text s) f kw) = step env w (.failure a (some s) f kw) ∧
    call env w (.failure a (nothing te) f kw) = step env w (.failure a none f kw) ∧
    call env w (.exception a cur (text s) f kw) = step env w (.exception a cur (some s) f kw) ∧
    call env w (.exception a cur (nothing te) f kw) = step env w (.exception a cur none f kw) ∧
    call env w (.comment l (text s) f kw) = step env w (.comment l s f kw) := by
  refine ⟨?_, ?_, ?_, ?_, ?_, ?_, ?_, ?_, ?_, ?_, ?_⟩
  · simp only [call, step, newAction, nameOf, text]; cases w.logs l <;> rfl
  · simp only [call, step]; congr 1
    simp only [begin_, Verif.begin_, text]
    cases w.acts a with
    | none => rfl
    | some x =>
      obtain ⟨lg, lv, nm, d, rr, p, b, en, wv, ev, t, df, hd⟩ := x
      cases b <;> by_cases h : s = "" <;> simp [h, falsy]
  · simp only [call, step]; congr 1
  · simp only [call, step, warn, text]; congr 1
    cases h : w.acts a with
    | none => simp [Verif.warn, h]
    | some x => rfl
  · simp only [call, step]; congr 1
    simp only [success, finish, Verif.success, endMsg, text]
    cases w.acts a with
    | none => rfl
    | some x => by_cases h : s = "" <;> simp [h, end_, Verif.endMsg, falsy]
  · simp only [call, step]; congr 1
  · simp only [call, step]; congr 1
    simp only [failure, finish, Verif.failure, endMsg, text]
    cases w.acts a with
    | none => rfl
    | some x => by_cases h : s = "" <;> simp [h, end_, Verif.endMsg, falsy]
  · simp only [call, step]; congr 1
  · simp only [call, step]; congr 1
    simp only [exception_, Verif.exception_, excMsg, text]
    cases w.acts a with
    | none => rfl
    | some x =>
      simp only
      cases env.excInfoErr cur with
      | some e => rfl
      | none =>
        by_cases h : s = ""
        · simp only [h, falsy]; cases env.excText cur x.name (!x.data.isEmpty) <;> simp
        · simp [h, falsy]
  · simp only [call, step]; congr 1
    simp only [exception_, Verif.exception_, excMsg, nothing]
    cases w.acts a with
    | none => rfl
    | some x =>
      simp only
      cases env.excInfoErr cur with
      | some e => rfl
      | none => simp only [falsy]; cases env.excText cur x.name (!x.data.isEmpty) <;> simp
  · simp only [call, step]; congr 1

/-- **C147, names.**  The name of a new action is the text of the object, or its `repr` if the text cannot be had; only if neither
can, or the level cannot be looked up, the call raises, and then nothing has happened. -/
theorem C147_name {L : Log} {l : LogId} (hl : w.logs l = some L) (o : Obj) (kw : Dict) (v : Int) :
    (∀ s, o.text = .ok s → call env w (.newAction l (.ok v) o kw) = step env w (.newAction l v s kw)) ∧
    (∀ e s, o.text = .error e → e.cls = .ordinary → o.repr = .ok s →
      call env w (.newAction l (.ok v) o kw) = step env w (.newAction l v s kw)) ∧
    (∀ e e', o.text = .error e → e.cls = .ordinary → o.repr = .error e' →
      (call env w (.newAction l (.ok v) o kw)).2 = .exc e' ∧ Same w (call env w (.newAction l (.ok v) o kw)).1) ∧
    (∀ e, o.text = .error e → e.cls = .baseOnly →
      (call env w (.newAction l (.ok v) o kw)).2 = .exc e ∧ Same w (call env w (.newAction l (.ok v) o kw)).1) ∧
    (∀ e, (call env w (.newAction l (.error e) o kw)).2 = .exc e ∧ Same w (call env w (.newAction l (.error e) o kw)).1) := by
  refine ⟨?_, ?_, ?_, ?_, ?_⟩
  · intro s h; simp [call, step, hl, newAction, nameOf, h]
  · intro e s h h1 h2; simp [call, step, hl, newAction, nameOf, h, h1, h2]
  · intro e e' h h1 h2; simp only [call, hl, newAction, nameOf, h, h1, h2]; exact ⟨trivial, rfl⟩
  · intro e h h1; simp only [call, hl, newAction, nameOf, h, h1]; exact ⟨trivial, rfl⟩
  · intro e; simp only [call, hl, newAction]; exact ⟨trivial, rfl⟩

/-- **C147, shown.**  What is published is the text of the object, or the default message for an object that is false. -/
theorem C147_begin (hx : w.acts a = some x) (hh : x.handle = true) (hb : x.beginEv = none) (m : Obj) (f : List Val) (kw : Dict)
    {s : String} (hs : m.given (.ok (x.name ++ " beginning")) = .ok s) :
    ∃ e, e.msg = s ∧ e.fargs = f ∧ e.act = a ∧ (call env w (.begin a m f kw)).1.pub = w.pub ++ [(.begin, e)] ∧
      (call env w (.begin a m f kw)).1.acts a = some { x with data := x.data.update kw, beginEv := some e } := by
  have hheld : w.held a = true := held_iff.2 ⟨x, hx, hh⟩
  simp only [call, guard, hheld, if_true, ret, begin_, hx, hb]
  unfold Obj.given at hs
  cases ht : m.truth with
  | error e => rw [ht] at hs; cases hs
  | ok b =>
    rw [ht] at hs
    cases b with
    | true =>
      simp only at hs
      simp only [hs, if_true]
      refine ⟨mkEvent w a x.logger .begin .begin (w.now env) s f none, rfl, rfl, rfl, by rw [publish_pub]; rfl, by simp⟩
    | false =>
      simp only [Except.ok.injEq] at hs
      simp only [Bool.false_eq_true, if_false, hs]
      refine ⟨mkEvent w a x.logger .begin .begin (w.now env) s f none, rfl, rfl, rfl, by rw [publish_pub]; rfl, by simp⟩

theorem C147_warn (hx : w.acts a = some x) (hh : x.handle = true) (m : Obj) (f : List Val) (kw : Dict) {s : String} (hs : m.text = .ok s) :
    ∃ e, e.msg = s ∧ e.fargs = f ∧ e.act = a ∧ (call env w (.warn a m f kw)).1.pub = w.pub ++ [(.warn, e)] := by
  have hheld : w.held a = true := held_iff.2 ⟨x, hx, hh⟩
  obtain ⟨e, h1, _, _, _, h5, h6, _, h8, _⟩ := warn_spec (env := env) hx s f kw
  refine ⟨e, h6, h5, h1, ?_⟩
  simp only [call, guard, hheld, if_true, ret, warn, hx, hs]
  exact h8

/-- Ending: if the call returns, the end event is that text's. -/
theorem C147_end (hr : ReachableAny env w) (hx : w.acts a = some x) (hh : x.handle = true) (m : Obj) (f : List Val) (kw : Dict)
    {s : String} :
    (m.given (.ok (plainEnd x.name "succeeded" x.data)) = .ok s → (call env w (.success a m f kw)).2 = .ok →
      ∃ y e, (call env w (.success a m f kw)).1.acts a = some y ∧ y.endEv = some e ∧ e.msg = s ∧ e.fargs = f ∧ e.status = .success) ∧
    (m.given (.ok (plainEnd x.name "failed" x.data)) = .ok s → (call env w (.failure a m f kw)).2 = .ok →
      ∃ y e, (call env w (.failure a m f kw)).1.acts a = some y ∧ y.endEv = some e ∧ e.msg = s ∧ e.fargs = f ∧ e.status = .failure) := by
  have hheld : w.held a = true := held_iff.2 ⟨x, hx, hh⟩
  have ht := hr.all.good.trans a x hx
  have main : ∀ st verb, m.given (.ok (Verif.endMsg x none verb)) = .ok s → (guard w a (finish env w a st verb m f kw)).2 = .ok →
      ∃ y e, (guard w a (finish env w a st verb m f kw)).1.acts a = some y ∧ y.endEv = some e ∧ e.msg = s ∧ e.fargs = f ∧
        e.status = st := by
    intro st verb hs hok
    have hf : finish env w a st verb m f kw = Verif.end_ env w a st s f kw none none := by
      unfold Obj.given at hs
      simp only [finish, hx, endMsg]
      cases hm : m.truth with
      | error e => rw [hm] at hs; cases hs
      | ok b =>
        rw [hm] at hs
        cases b with
        | true => simp only at hs; simp only [hs, end_]
        | false => simp only [Except.ok.injEq] at hs; simp only [hs, end_]
    simp only [guard, hheld, if_true, ret, hf] at hok ⊢
    rcases end_spec (env := env) hx (ht) st s f kw none none with ⟨b, e, h⟩ | ⟨b, y, _, h⟩
    · refine ⟨{ x with data := x.data.update kw, beginEv := some b, endEv := some e }, e, by rw [h.acts, updAct_same], rfl, h.emsg,
        h.efargs, h.estatus⟩
    · rw [h] at hok; simp [Res.ofExc] at hok
  simp only [← endMsg_plain (.inl rfl : Unsaid none)]
  exact ⟨main .success " succeeded", main .failure " failed"⟩

/-- An exception that is logged, and a comment, have that text too. -/
theorem C147_others (hr : ReachableAny env w) (hx : w.acts a = some x) (hh : x.handle = true) (m : Obj) (f : List Val) (kw : Dict)
    {s : String} :
    (∀ cur, env.excInfoErr cur = none → m.given (env.excText cur x.name (!x.data.isEmpty)) = .ok s →
      ∃ y e, (call env w (.exception a cur m f kw)).1.acts a = some y ∧ y.excEvs = x.excEvs ++ [e] ∧ e.msg = s ∧ e.excInfo = cur) ∧
    (∀ l, (w.logs l).isSome → (∀ t, ∃ u, m.plus t = .ok (.ok u)) → m.text = .ok s →
      ∃ e, e.msg = s ∧ e.fargs = f ∧ (call env w (.comment l m f kw)).1.pub = w.pub ++ [(.comment, e)]) := by
  have hheld : w.held a = true := held_iff.2 ⟨x, hx, hh⟩
  constructor
  · intro cur hc hs
    have hm : excMsg env x cur m = .ok (.ok s) := by
      unfold Obj.given at hs
      unfold excMsg
      cases hm : m.truth with
      | error e => rw [hm] at hs; cases hs
      | ok b =>
        rw [hm] at hs
        cases b with
        | true => simp only at hs; simp only [hs]
        | false => simp only at hs; simp only [hs]
    simp only [call, guard, hheld, if_true, ret, exception_, hx, hc, hm]
    cases hp : publishExc env (w.tick.bump.setAct a { x with excEvs := x.excEvs ++
        [mkEvent w.tick a x.logger .exception .exception (w.now env) s f cur] }) x.logger
        (mkEvent w.tick a x.logger .exception .exception (w.now env) s f cur) with
    | mk w1 r =>
      have h1 := (publishExc_core (env := env) (w := w.tick.bump.setAct a { x with excEvs := x.excEvs ++
        [mkEvent w.tick a x.logger .exception .exception (w.now env) s f cur] }) (l := x.logger)
        (e := mkEvent w.tick a x.logger .exception .exception (w.now env) s f cur)).acts
      rw [hp] at h1
      simp only at h1
      have hx1 : w1.acts a = some { x with excEvs := x.excEvs ++
        [mkEvent w.tick a x.logger .exception .exception (w.now env) s f cur] } := by rw [h1]; simp
      cases r with
      | some err => exact ⟨_, _, hx1, rfl, rfl, rfl⟩
      | none =>
        simp only [andThen]
        rcases end_spec (env := env) hx1 (by exact hr.all.good.trans a x hx) .exception s f kw (some (w.now env)) cur with
          ⟨b, e, h⟩ | ⟨b, y, h, _⟩
        · exact ⟨_, _, by rw [h.acts, updAct_same], rfl, rfl, rfl⟩
        · exact ⟨_, _, by rw [h.acts, updAct_same], rfl, rfl, rfl⟩
  · intro l hl hp hs
    obtain ⟨L, hL⟩ := Option.isSome_iff_exists.1 hl
    obtain ⟨u, hu⟩ := hp " (begin comment)"
    obtain ⟨v, hv⟩ := hp " (end comment)"
    simp only [call, ret, comment, hL, hu, hv, hs]
    exact ⟨mkEvent w.bump.tick.bump.bump w.nextId l .comment .comment (w.now env) s f none, rfl, rfl, by rw [publish_pub]; rfl⟩

/-- **C147, failing.**  If the object cannot be turned into text, the call raises just that exception.  A warning, a comment, or an
exception that is logged has then not been published or recorded, and nor has a begin; the action may have got the data of the
call. -/
theorem C147_fails_partial (hx : w.acts a = some x) (hh : x.handle = true) (m : Obj) (f : List Val) (kw : Dict) (e : Exc) :
    (x.beginEv = none → (m.truth = .error e ∨ m.truth = .ok true ∧ m.text = .error e) →
      (call env w (.begin a m f kw)).2 = .exc e ∧ Same (withData w a kw) (call env w (.begin a m f kw)).1) ∧
    (m.text = .error e → (call env w (.warn a m f kw)).2 = .exc e ∧ Same (withData w a kw) (call env w (.warn a m f kw)).1) ∧
    (∀ cur, env.excInfoErr cur = none → (m.truth = .error e ∨ m.truth = .ok true ∧ m.text = .error e) →
      (call env w (.exception a cur m f kw)).2 = .exc e ∧ Same w (call env w (.exception a cur m f kw)).1) ∧
    (∀ l, (w.logs l).isSome → m.text = .error e →
      (∃ e', (call env w (.comment l m f kw)).2 = .exc e') ∧ Same w (call env w (.comment l m f kw)).1) := by
  have hheld : w.held a = true := held_iff.2 ⟨x, hx, hh⟩
  refine ⟨?_, ?_, ?_, ?_⟩
  · intro hb hm
    obtain ⟨lg, lv, nm, d, rr, p, b, en, wv, ev, t, df, hd⟩ := x
    simp only at hb; subst hb
    simp only [call, guard, hheld, if_true, ret, begin_, hx]
    rw [← setAct_data hx]
    rcases hm with hm | ⟨hm, ht⟩
    · simp only [hm]; exact ⟨rfl, rfl⟩
    · simp only [hm, ht, if_true]; exact ⟨rfl, rfl⟩
  · intro hm
    simp only [call, guard, hheld, if_true, ret, warn, hx, hm]
    rw [← setAct_data hx]
    exact ⟨rfl, rfl⟩
  · intro cur hc hm
    simp only [call, guard, hheld, if_true, ret, exception_, hx, hc, excMsg]
    rcases hm with hm | ⟨hm, ht⟩
    · simp only [hm]; exact ⟨rfl, rfl⟩
    · simp only [hm, ht]; exact ⟨rfl, rfl⟩
  · intro l hl hm
    obtain ⟨L, hL⟩ := Option.isSome_iff_exists.1 hl
    simp only [call, ret, comment, hL]
    split
    · exact ⟨⟨_, rfl⟩, rfl⟩
    · exact ⟨⟨_, rfl⟩, rfl⟩
    · split
      · exact ⟨⟨_, rfl⟩, rfl⟩
      · exact ⟨⟨_, rfl⟩, rfl⟩
      · simp only [hm]; exact ⟨⟨_, rfl⟩, rfl⟩

/-- The same for calls that end an action: nothing has happened if already asking whether the object is false fails; if making its
text fails, the action may have got the data of the call, and it has begun, as if `begin` had been called without a message, but it
has not ended. -/
theorem C147_end_fails_partial (hx : w.acts a = some x) (hh : x.handle = true) (m : Obj) (f : List Val) (kw : Dict)
    (e : Exc) (c : Call) (hc : c = .success a m f kw ∨ c = .failure a m f kw) :
    (m.truth = .error e → call env w c = (w, .exc e)) ∧
    (m.truth = .ok true → m.text = .error e → x.isTrans = true →
      (call env w c).2 = .exc e ∧ Same (withData w a kw) (call env w c).1) ∧
    (m.truth = .ok true → m.text = .error e → x.isTrans = false →
      ((step env w (.begin a none [] kw)).2 = .ok → (call env w c).2 = .exc e) ∧
      Same (step env w (.begin a none [] kw)).1 (call env w c).1) := by
  have hheld : w.held a = true := held_iff.2 ⟨x, hx, hh⟩
  have main : ∀ st verb, (m.truth = .error e → guard w a (finish env w a st verb m f kw) = (w, .exc e)) ∧
    (m.truth = .ok true → m.text = .error e → x.isTrans = true →
      (guard w a (finish env w a st verb m f kw)).2 = .exc e ∧ Same (withData w a kw) (guard w a (finish env w a st verb m f kw)).1) ∧
    (m.truth = .ok true → m.text = .error e → x.isTrans = false →
      ((step env w (.begin a none [] kw)).2 = .ok → (guard w a (finish env w a st verb m f kw)).2 = .exc e) ∧
      Same (step env w (.begin a none [] kw)).1 (guard w a (finish env w a st verb m f kw)).1) := by
    intro st verb
    simp only [step, guard, hheld, if_true, ret, finish, hx, endMsg]
    refine ⟨?_, ?_, ?_⟩
    · intro hm; simp only [hm]; rfl
    · intro hm ht htr
      obtain ⟨lg, lv, nm, d, rr, p, b, en, wv, ev, t, df, hd⟩ := x
      simp only at htr; subst htr
      simp only [hm, ht, end_, hx, if_true]
      rw [← setAct_data hx]
      exact ⟨rfl, rfl⟩
    · intro hm ht htr
      obtain ⟨lg, lv, nm, d, rr, p, b, en, wv, ev, t, df, hd⟩ := x
      simp only at htr; subst htr
      have hs : ∀ (w : World) (y z : Act), (w.setAct a y).setAct a z = w.setAct a z := by
        intro w y z
        simp only [World.setAct]; congr 1; funext b; split <;> rfl
      have hb : Verif.begin_ env (w.setAct a ⟨lg, lv, nm, d.update kw, rr, p, b, en, wv, ev, false, df, hd⟩) a none [] [] =
          Verif.begin_ env w a none [] kw := by
        simp only [Verif.begin_, setAct_acts, updAct_same, hx, update_nil]
        cases b with
        | some b => simp only [hs]
        | none =>
          simp only
          congr 1
          exact hs w.tick.bump _ _
      simp only [hm, ht, end_, hx, Bool.false_eq_true, if_false, hb]
      cases hr : Verif.begin_ env w a none [] kw with
      | mk w1 r =>
        cases r with
        | none => exact ⟨fun _ => rfl, rfl⟩
        | some e => exact ⟨fun h => by simp [Res.ofExc] at h, rfl⟩
  rcases hc with rfl | rfl
  · exact main .success " succeeded"
  · exact main .failure " failed"

/-- **C147, afterwards.**  Whatever was logged, and whatever of it failed: ids stay unique; no sink hears of an action's begin twice,
or of an event that was not published; no end is published before the begin of its action; and an action's warnings are those
published. -/
theorem C147_kept (hr : ReachableAny env w) :
    (∀ e f, w.HasEvent e → w.HasEvent f → e.id = f.id → e = f) ∧
    (∀ s a, (got s .begin a w.trace).length ≤ 1) ∧
    (∀ s k e, k ≠ .exception → (k, e) ∈ received s w.trace → (k, e) ∈ w.pub) ∧
    (∀ pre e post, w.pub = pre ++ (Kind.end_, e) :: post → ∃ b, (Kind.begin, b) ∈ pre ∧ b.act = e.act) ∧
    (∀ a x, w.acts a = some x → pubsOf w.pub .warn a = x.warnEvs) := by
  have h := hr.all
  have hrec : ∀ s k e, k ≠ .exception → (k, e) ∈ received s w.trace → (k, e) ∈ w.pub := by
    intro s k e hk hm
    have hc := h.count s e.logger (k, e)
    have h1 : 0 < (ofLogger e.logger (received s w.del.trace)).count (k, e) :=
      List.count_pos_iff.2 (mem_ofLogger.2 ⟨hm, hk, rfl⟩)
    rw [List.count_append] at hc
    have h2 : 0 < (ofLogger e.logger w.del.pub).count (k, e) := by omega
    exact (mem_ofLogger.1 (List.count_pos_iff.1 h2)).1
  have hle : ∀ a, (pubsOf w.pub .begin a).length ≤ 1 := by
    intro a
    cases hx : w.acts a with
    | none => rw [show pubsOf w.pub .begin a = [] from h.pub.none a .begin hx]; simp
    | some x =>
      cases hh : x.handle with
      | true =>
        rw [show pubsOf w.pub .begin a = x.beginEv.toList from h.pub.begin a x hx hh]
        cases x.beginEv <;> simp
      | false => rw [show pubsOf w.pub .begin a = [] from h.pub.noBegin a x hx hh .begin (by decide)]; simp
  refine ⟨h.good.id.uniq, ?_, hrec, h.ord, h.pub.warn⟩
  intro s a
  rw [got_eq]
  have hall : ∀ e ∈ pubsOf (received s w.trace) .begin a, e ∈ pubsOf w.pub .begin a := by
    intro e he
    rw [mem_pubsOf] at he ⊢
    exact ⟨hrec _ _ _ (by decide) he.1, he.2⟩
  cases hg : pubsOf (received s w.trace) .begin a with
  | nil => simp
  | cons e es =>
    rw [← hg]
    have he : e ∈ pubsOf (received s w.trace) .begin a := by rw [hg]; simp
    have hea : e.act = a := (mem_pubsOf.1 he).2
    refine length_le_one_of_count (x := e) ?_ ?_
    · intro y hy
      exact nodup_mem_eq (hle a) (hall y hy) (hall e he)
    · have hc := h.count s e.logger (.begin, e)
      rw [List.count_append] at hc
      have h1 : (ofLogger e.logger (received s w.del.trace)).count (Kind.begin, e) =
          (received s w.trace).count (Kind.begin, e) := by
        simp only [ofLogger]; rw [List.count_filter (by simp)]; rfl
      have h2 : (ofLogger e.logger w.del.pub).count (Kind.begin, e) =
          w.pub.count (Kind.begin, e) := by
        simp only [ofLogger]; rw [List.count_filter (by simp)]; rfl
      have h3 := count_pubsOf (received s w.trace) .begin e
      have h4 := count_pubsOf w.pub .begin e
      rw [hea] at h3 h4
      have h5 : (pubsOf w.pub .begin a).count e ≤ 1 :=
        Nat.le_trans List.count_le_length (hle a)
      omega

/-! ## Cases -/

open Sample

/-- An object whose `__str__` raises. -/
def mute : Obj := ⟨.ok true, .error boom, .ok "<mute>", fun _ => .error boom⟩

/-- An exception without arguments: true, and its text is empty. -/
def bare : Obj := ⟨.ok true, .ok "", .ok "ValueError()", fun _ => .error boom⟩

/-- A number. -/
def seven : Obj := ⟨.ok true, .ok "7", .ok "7", fun _ => .error boom⟩

def history : List (Item ⊕ Call) := (setup.map .inl) ++ [.inr (.newAction 0 (.ok 20) mute []), .inr (.begin 0 seven [] []),
  .inr (.warn 0 mute [] [("k", .other 1)]), .inr (.warn 0 bare [] []), .inr (.comment 0 seven [] []), .inr (.success 0 seven [] [])]

example : (runAny quiet World.init history).pub.map (fun q => (q.1, q.2.msg)) =
    [(.begin, "7"), (.warn, ""), (.end_, "7")] := by decide +kernel
example : ((runAny quiet World.init history).acts 0).map (fun x => (x.name, x.data)) = some ("<mute>", [("k", .other 1)]) := by
  decide +kernel
example := C147_kept (env := quiet) ⟨history, rfl⟩

/-- A logger and an action that has not begun. -/
def job : World := runAny quiet World.init ((setup.map .inl) ++ [.inl (mk "job")])

theorem job_spec : ∃ x, job.acts 0 = some x ∧ x.handle = true ∧ x.beginEv = none ∧ x.isTrans = false ∧ x.name = "job" := by
  have h : (job.acts 0).map (fun x => (x.handle, x.beginEv, x.isTrans, x.name)) = some (true, none, false, "job") := by decide +kernel
  cases hx : job.acts 0 with
  | none => rw [hx] at h; cases h
  | some x => rw [hx] at h; simp only [Option.map_some, Option.some.injEq, Prod.mk.injEq] at h; exact ⟨x, rfl, h⟩

example := C147_text quiet job 0 0 20 "job" boom none [] []
example := C147_name (env := quiet) (w := job) (l := 0) (Option.get_mem (o := job.logs 0) (by decide +kernel)) mute [] 20
example : ∃ e, e.msg = "7" ∧ (call quiet job (.begin 0 seven [] [])).1.pub = job.pub ++ [(.begin, e)] := by
  obtain ⟨x, hx, hh, hb, _⟩ := job_spec
  obtain ⟨e, h1, _, _, h2, _⟩ := C147_begin (env := quiet) hx hh hb seven [] [] (s := "7") rfl
  exact ⟨e, h1, h2⟩
example : ∃ e, e.msg = "job beginning" ∧ (call quiet job (.begin 0 (nothing boom) [] [])).1.pub = job.pub ++ [(.begin, e)] := by
  obtain ⟨x, hx, hh, hb, _, hn⟩ := job_spec
  obtain ⟨e, h1, _, _, h2, _⟩ := C147_begin (env := quiet) hx hh hb (nothing boom) [] [] (s := "job beginning") (by rw [hn]; rfl)
  exact ⟨e, h1, h2⟩
example : ∃ e, e.msg = "" ∧ (call quiet job (.warn 0 bare [] [])).1.pub = job.pub ++ [(.warn, e)] := by
  obtain ⟨x, hx, hh, _⟩ := job_spec
  obtain ⟨e, h1, _, _, h2⟩ := C147_warn (env := quiet) hx hh bare [] [] (s := "") rfl
  exact ⟨e, h1, h2⟩
example : ∃ y e, (call quiet job (.failure 0 bare [] [])).1.acts 0 = some y ∧ y.endEv = some e ∧ e.msg = "" := by
  obtain ⟨x, hx, hh, _⟩ := job_spec
  obtain ⟨y, e, h1, h2, h3, _⟩ := (C147_end (env := quiet) ⟨_, rfl⟩ hx hh bare [] [] (s := "")).2 rfl (by decide +kernel)
  exact ⟨y, e, h1, h2, h3⟩
example : ∃ y e, (call quiet job (.exception 0 (some boom) bare [] [])).1.acts 0 = some y ∧ e ∈ y.excEvs ∧ e.msg = "" := by
  obtain ⟨x, hx, hh, _⟩ := job_spec
  obtain ⟨y, e, h1, h2, h3, _⟩ := (C147_others (env := quiet) ⟨_, rfl⟩ hx hh bare [] [] (s := "")).1 (some boom) rfl rfl
  exact ⟨y, e, h1, by simp [h2], h3⟩
example : (call quiet job (.warn 0 mute [] [("k", .other 1)])).2 = .exc boom ∧
    Same (withData job 0 [("k", .other 1)]) (call quiet job (.warn 0 mute [] [("k", .other 1)])).1 := by
  obtain ⟨x, hx, hh, _⟩ := job_spec
  exact (C147_fails_partial hx hh mute [] [("k", .other 1)] boom).2.1 rfl
example : Same (step quiet job (.begin 0 none [] [])).1 (call quiet job (.failure 0 mute [] [])).1 := by
  obtain ⟨x, hx, hh, _, ht, _⟩ := job_spec
  exact ((C147_end_fails_partial (env := quiet) hx hh mute [] [] boom _ (.inr rfl)).2.2 rfl rfl ht).2

/-- C147 fails: a call that raises is not without effect.  Whenever a call to end an action that has not begun fails for its message,
in an environment where nothing else fails, the action has begun, and all sinks hear of it. -/
theorem C147_violated : ∃ (h : List (Item ⊕ Call)) (c : Call) (e : Exc), (call quiet (runAny quiet World.init h) c).2 = .exc e ∧
    (call quiet (runAny quiet World.init h) c).1.pub ≠ (runAny quiet World.init h).pub ∧
    ((call quiet (runAny quiet World.init h) c).1.acts 0).map (·.data) ≠ ((runAny quiet World.init h).acts 0).map (·.data) :=
  ⟨(setup.map .inl) ++ [.inl (mk "job")], .failure 0 mute [] [("k", .other 1)], boom, by decide +kernel, by decide +kernel,
    by decide +kernel⟩

end Verif.Objects
