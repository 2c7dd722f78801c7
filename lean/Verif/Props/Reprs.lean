import Verif.Model.Reprs
import Verif.Props.SinkValues
import Verif.Props.Rates
import Verif.Props.Decimal
import Verif.Props.Emitter
/-!
# C143: showing sinks and loggers
-/
namespace Verif.Reprs

open Verif.Dec Verif.Sinks Verif.Emit Verif.Dct
open Verif.Spec.Dec (digits number)

/-! ## Aggregates -/

/-- How many of `n` things are kept under a limit. -/
def kept (limit : Option Nat) (n : Nat) : Nat := match limit with | none => n | some k => min k n

theorem length_emit_lastN {X : Type} (limit : Option Nat) (l : List X) : (Emit.lastN limit l).length = kept limit l.length := by
  cases limit with
  | none => rfl
  | some k => simp only [Emit.lastN, kept, List.length_drop]; omega

/-- A text shows a limit: as `None`, or in decimal. -/
def ShowsLimit (l : List Nat) (limit : Option Nat) : Prop := match limit with | none => l = txt "None" | some n => digits l = n

theorem shows_limit (limit : Option Nat) : ShowsLimit (limitText limit) limit := by
  cases limit with
  | none => rfl
  | some n => exact digits_dec n

/-- C143: the `repr` of an `AggregateSink` shows, for each kind, the number of events received, or the limit if that is less. -/
theorem C143_aggregate_sink {E : Type} (cn : List Nat) (limit : Option Nat) (evs : List (Hook × E)) :
    ∃ l b e w c, aggSink cn limit (AggSink.run limit evs) = txt "<" ++ cn ++ txt " limit=" ++ l ++
        txt " begins=" ++ b ++ txt " ends=" ++ e ++ txt " warns=" ++ w ++ txt " comments=" ++ c ++ txt ">" ∧ ShowsLimit l limit ∧
      digits b = kept limit (evs.countP fun x => x.1 = .begin) ∧ digits e = kept limit (evs.countP fun x => x.1 = .end') ∧
      digits w = kept limit (evs.countP fun x => x.1 = .warn) ∧
      digits c = kept limit (evs.countP fun x => x.1 = .comment) := by
  have h : ∀ k, ((AggSink.run limit evs).deque k).length = kept limit (evs.countP fun x => x.1 = k) := fun k => by
    rw [C41_aggregate_sink, length_emit_lastN, List.length_map, List.countP_eq_length_filter]
  refine ⟨_, _, _, _, _, rfl, shows_limit limit, ?_, ?_, ?_, ?_⟩ <;> rw [digits_dec]
  exacts [h .begin, h .end', h .warn, h .comment]

/-- C143: the `repr` of an `AggregateEmitter` shows the number of entries it holds. -/
theorem C143_aggregate_emitter {E S : Type} (cn : List Nat) (limit : Option Nat) (ops : List (AggOp E S)) :
    ∃ l c, aggEmitter cn limit (aggRun limit ops) = txt "<" ++ cn ++ txt " limit=" ++ l ++ txt " entry_count=" ++ c ++
        txt ">" ∧ ShowsLimit l limit ∧
      digits c = (getEntries (aggRun limit ops)).length ∧ digits c = kept limit (sinceClear ops).length := by
  refine ⟨_, _, rfl, shows_limit limit, ?_, ?_⟩ <;> rw [digits_dec]
  · simp [getEntries]
  · have := congrArg List.length (C41_aggregate_emitter limit ops)
    rw [List.length_map, length_emit_lastN] at this
    rw [← this]; simp [getEntries]

example : aggSink (txt "AggregateSink") (some 2) (AggSink.run (some 2) [(.begin, 1), (.end', 2), (.begin, 3), (.begin, 4)]) =
    txt "<AggregateSink limit=2 begins=2 ends=1 warns=0 comments=0>" := by
  simp [AggSink.run, AggSink.on, push, aggSink, limitText, dec, txt]

/-! ## Rates -/

section Rates

variable {K : Type} [Field K] [LinearOrder K] [IsStrictOrderedRing K] [FloorRing K]

/-- C143: the `repr` of a `RateAccumulator` made at `creation` shows the number of events and, to four places, that number per second
since its creation; it raises exactly if there are events and no time has passed. -/
theorem C143_rate_accumulator (cn : List Nat) (size : Option Nat) (hsize : size ≠ some 0) (creation now : K) (ts : List K) :
    (ts = [] ∨ now ≠ creation → ∃ r c, rateAcc cn (ts.foldl rateAdd (rateInit size creation)) now =
        .text (txt "<" ++ cn ++ txt " rate=" ++ r ++ txt " count=" ++ c ++ txt ">") ∧
      |number r - (ts.length : K) / (now - creation)| ≤ 1 / 20000 ∧ digits c = ts.length) ∧
    (ts ≠ [] → now = creation → rateAcc cn (ts.foldl rateAdd (rateInit size creation)) now = .exc) := by
  obtain ⟨h1, h2, h3, -⟩ := C56_tracked size creation ts
  have hne : ts ≠ [] → (ts.foldl rateAdd (rateInit size creation)).times ≠ [] := by
    intro hts h
    rw [h1] at h
    have hl : 0 < ts.length := List.length_pos_of_ne_nil hts
    cases size with
    | none => exact hts h
    | some k =>
      have : k ≠ 0 := fun h => hsize (by rw [h])
      have := congrArg List.length h
      simp only [Sinks.lastN, List.length_drop, List.length_nil] at this
      omega
  have hb : ∀ x : K, |number (fixed 4 x) - x| ≤ 1 / 20000 := fun x => by
    have := C97_fixed 4 x; norm_num at this ⊢; exact this
  constructor
  · intro h
    by_cases hts : ts = []
    · subst hts
      refine ⟨fixed 4 (0 : K), dec 0, ?_, ?_, ?_⟩
      · unfold rateAcc; rw [C56_empty _ _ _ _ rfl]; rfl
      · simpa using hb 0
      · rw [digits_dec]; rfl
    · refine ⟨fixed 4 ((ts.length : K) / (now - creation)), dec ts.length, ?_, hb _, digits_dec _⟩
      unfold rateAcc
      rw [C56_default _ _ (hne hts) (by rw [h3]; exact h.resolve_left hts), h2, h3]
  · intro hts hn
    obtain ⟨x, y, hx, hy⟩ := heads (hne hts)
    unfold rateAcc getRate
    simp only [hx, hy, orElse, le_refl, if_true, h3, hn, sub_self]

variable {L : Type} [DecidableEq L]

/-- The accumulators of a sink whose clock did not go back. -/
theorem accs_run (size : Option Nat) (hsize : size ≠ some 0) (evs : List (Ev L K)) (start : K) (hnow : ∀ e ∈ evs, start ≤ e.now)
    (a : RateAcc K) (ha : a ∈ accs (evs.foldl (rateOnEnd size) [])) : a.times ≠ [] ∧ start ≤ a.creation := by
  have ha' := (values1 (lg := Ev.logger) (nm := Ev.name) (st := Ev.status) (mk := fun e : Ev L K => rateInit size e.now)
    (ad := fun a e => rateAdd a e.value) evs).subset ha
  unfold below1 below2 below3 at ha'
  simp only [List.mem_flatMap, List.mem_filterMap] at ha'
  obtain ⟨l, _, n, _, s, _, hp⟩ := ha'
  obtain ⟨h1, h2, h3⟩ := C71_parts size evs l n s a hp
  cases hf : evs.filter fun e => decide (e.logger = l ∧ e.name = n ∧ e.status = s) with
  | nil => rw [hf] at h3; cases h3
  | cons e es =>
    rw [hf] at h1 h3
    constructor
    · rw [h1]
      cases size with
      | none => simp [Sinks.lastN]
      | some k =>
        have : k ≠ 0 := fun h => hsize (by rw [h])
        unfold Sinks.lastN
        intro hd
        have := congrArg List.length hd
        simp only [List.length_drop, List.length_map, List.length_cons, List.length_nil] at this
        omega
    · simp only [List.head?_cons, Option.map_some, Option.some.injEq] at h3
      rw [← h3]
      exact hnow e (List.mem_of_mem_filter (p := fun e => decide (e.logger = l ∧ e.name = n ∧ e.status = s))
        (by rw [hf]; exact List.mem_cons_self))

theorem accs_ne_nil (size : Option Nat) (evs : List (Ev L K)) (hne : evs ≠ []) : accs (evs.foldl (rateOnEnd size) []) ≠ [] := by
  intro h
  have h1 := sum1_run Ev.logger Ev.name Ev.status (fun e : Ev L K => rateInit size e.now) (fun a e => rateAdd a e.value)
    RateAcc.total (fun _ => 1) (fun _ => rfl) (fun _ _ => rfl) evs
  change sum1 RateAcc.total (evs.foldl (rateOnEnd size) []) = _ at h1
  rw [sum1_eq, h, map_one_sum] at h1
  exact hne (List.length_eq_zero_iff.1 h1.symm)

/-- C143: the `repr` of a `RateSink` made at `creation` shows the number of all events it received and, to four places, that number
per second since its creation; it raises exactly if there are events and no time has passed.  What is missing for the full claim:
it should not raise, and a clock that is set back (see `C143_violated`). -/
theorem C143_rate_sink_partial (lname : L → String) (cn : List Nat) (size : Option Nat) (hsize : size ≠ some 0)
    (evs : List (Ev L K)) (creation now : K) (hc : 0 < creation) (hn : 0 < now) (hnow : ∀ e ∈ evs, creation ≤ e.now) :
    (evs = [] ∨ now ≠ creation → ∃ r c, rateSink lname cn creation (evs.foldl (rateOnEnd size) []) now =
        .text (txt "<" ++ cn ++ txt " total_rate=" ++ r ++ txt " total_count=" ++ c ++ txt ">") ∧
      |number r - (evs.length : K) / (now - creation)| ≤ 1 / 20000 ∧ digits c = evs.length) ∧
    (evs ≠ [] → now = creation → rateSink lname cn creation (evs.foldl (rateOnEnd size) []) now = .exc) := by
  have hb : ∀ x : K, |number (fixed 4 x) - x| ≤ 1 / 20000 := fun x => by
    have := C97_fixed 4 x; norm_num at this ⊢; exact this
  constructor
  · intro h
    by_cases hev : evs = []
    · subst hev
      refine ⟨fixed 4 (0 : K), dec 0, rfl, by simpa using hb 0, by rw [digits_dec]; rfl⟩
    · obtain ⟨t, h1, h2⟩ := C71_lifetime lname size hsize evs creation now now hc.ne' hn.ne' (Ne.symm (h.resolve_left hev)) hnow
      refine ⟨_, _, ?_, hb _, digits_dec _⟩
      unfold rateSink
      rw [h1]
      simp only [ALL, h2]
      have := C57_grand_total lname size evs
      unfold ALL at this
      rw [this]
  · intro hne he
    obtain ⟨a, ha⟩ := List.exists_mem_of_ne_nil _ (accs_ne_nil size evs hne)
    obtain ⟨hat, hac⟩ := accs_run size hsize evs creation hnow a ha
    have hr : getRate a (some creation) (some now) now = none := by
      obtain ⟨x, y, hx, hy⟩ := heads hat
      subst he
      unfold getRate
      simp only [hx, hy, orElse, if_neg hc.ne', if_pos hac, sub_self, if_true]
    have : ¬ (accs (evs.foldl (rateOnEnd size) [])).all (fun a => (getRate a (some creation) (some now) now).isSome) = true := by
      rw [List.all_eq_true]; intro h; have := h a ha; rw [hr] at this; cases this
    unfold rateSink getRates
    rw [if_neg this]

end Rates

example : ∃ r c, rateSink (fun n : Nat => if n = 0 then "app" else "db") (txt "RateSink") 5
      (sampleEvs.foldl (rateOnEnd (some 128)) []) 20 =
    .text (txt "<" ++ txt "RateSink" ++ txt " total_rate=" ++ r ++ txt " total_count=" ++ c ++ txt ">") ∧
    |number r - (1 / 5 : ℚ)| ≤ 1 / 20000 ∧ digits c = 3 := by
  obtain ⟨r, c, h1, h2, h3⟩ := (C143_rate_sink_partial (fun n : Nat => if n = 0 then "app" else "db") (txt "RateSink") (some 128)
    (by simp) sampleEvs 5 20 (by norm_num) (by norm_num) (by simp [sampleEvs]; norm_num)).1 (.inr (by norm_num))
  exact ⟨r, c, h1, by norm_num [sampleEvs] at h2 ⊢; exact h2, h3⟩

/-- C143 fails for a clock that is set back between the making of the sink and its first event: the `repr` raises
ZeroDivisionError although time has passed. -/
theorem C143_violated : ∃ (evs : List (Ev Nat ℚ)) (creation now : ℚ), 0 < creation ∧ creation < now ∧ evs.length = 1 ∧
    rateSink (fun _ => "app") (txt "RateSink") creation (evs.foldl (rateOnEnd (some 128)) []) now = .exc := by
  refine ⟨[⟨0, "load", "success", 8, 8⟩], 10, 12, by norm_num, by norm_num, rfl, ?_⟩
  have hg : getRates (K := ℚ) (fun _ => "app")
      ([⟨0, "load", "success", 8, 8⟩].foldl (rateOnEnd (L := Nat) (some 128)) []) 10 12 12 = none := by
    unfold getRates
    rw [if_neg]
    have hl : Bis.rightLoop (fun y => decide ((10 : ℚ) ≤ y)) [8] 0 1 = 1 := by
      rw [Bis.rightLoop]
      norm_num
      rw [Bis.rightLoop]
      norm_num
    norm_num [accs, rateOnEnd, onEnd, upd, get?, Dct.set, values, rateAdd, rateInit, getRate, append, orElse, Bis.left, Bis.right, hl]
  unfold rateSink
  rw [hg]

/-! ## Loggers -/

/-- What showing a list of sinks does: the texts, or what the first one that fails raises. -/
theorem sinksText_cases (l : List Shown) :
    (∃ ts : List (List Nat), l = ts.map .text ∧ sinksText l = .text ((txt ", ").intercalate ts)) ∨
    ∃ (ts : List (List Nat)) (x : Shown) (rest : List Shown), l = ts.map .text ++ x :: rest ∧ (x = .exc ∨ x = .base) ∧
      sinksText l = x := by
  induction l with
  | nil => exact .inl ⟨[], rfl, rfl⟩
  | cons x l ih =>
    cases x with
    | exc => exact .inr ⟨[], .exc, l, rfl, .inl rfl, rfl⟩
    | base => exact .inr ⟨[], .base, l, rfl, .inr rfl, rfl⟩
    | text s =>
      rcases ih with ⟨ts, hl, h⟩ | ⟨ts, x, rest, hl, hx, h⟩
      · refine .inl ⟨s :: ts, by rw [hl]; rfl, ?_⟩
        unfold sinksText
        rw [h]
        cases ts with
        | nil => subst hl; simp [List.intercalate]
        | cons t ts => subst hl; simp [List.intercalate, List.intersperse]
      · refine .inr ⟨s :: ts, x, rest, by rw [hl]; rfl, hx, ?_⟩
        unfold sinksText
        rw [h]
        rcases hx with rfl | rfl <;> rfl

/-- C143: the `repr` of a logger never raises an Exception, whatever its sinks do; it shows its sinks in order if all of them can
be shown, and is the plain one if the first that cannot raises an Exception. -/
theorem C143_logger (cn name plain : List Nat) (sinks : List Shown) :
    logger cn name plain sinks ≠ .exc ∧
    (∀ ts : List (List Nat), sinks = ts.map .text → logger cn name plain sinks =
      .text (txt "<" ++ cn ++ txt " name=" ++ name ++ txt " sinks=[" ++ (txt ", ").intercalate ts ++ txt "]>")) ∧
    (∀ (ts : List (List Nat)) rest, sinks = ts.map .text ++ .exc :: rest → logger cn name plain sinks = .text plain) ∧
    (∀ (ts : List (List Nat)) rest, sinks = ts.map .text ++ .base :: rest → logger cn name plain sinks = .base) := by
  have hsame : ∀ (ts us : List (List Nat)) (x y : Shown) (r s : List Shown), (x = .exc ∨ x = .base) → (y = .exc ∨ y = .base) →
      ts.map Shown.text ++ x :: r = us.map .text ++ y :: s → x = y := by
    intro ts
    induction ts with
    | nil =>
      intro us x y r s hx hy h
      cases us with
      | nil => exact (List.cons.inj h).1
      | cons u us => have := (List.cons.inj h).1; rcases hx with rfl | rfl <;> cases this
    | cons t ts ih =>
      intro us x y r s hx hy h
      cases us with
      | nil => have := (List.cons.inj h).1; rcases hy with rfl | rfl <;> cases this
      | cons u us => exact ih us x y r s hx hy (List.cons.inj h).2
  have hall : ∀ (ts us : List (List Nat)) (x : Shown) (r : List Shown), (x = .exc ∨ x = .base) →
      ts.map Shown.text ≠ us.map .text ++ x :: r := by
    intro ts us x r hx h
    have : x ∈ ts.map Shown.text := by rw [h]; simp
    obtain ⟨t, _, ht⟩ := List.mem_map.1 this
    rcases hx with rfl | rfl <;> cases ht
  unfold logger
  rcases sinksText_cases sinks with ⟨ts, hl, h⟩ | ⟨ts, x, rest, hl, hx, h⟩
  · rw [h]
    refine ⟨by simp, ?_, ?_, ?_⟩
    · intro us hu
      rw [hl] at hu
      have : ts = us := List.map_injective_iff.2 (fun _ _ h => by injection h) hu
      rw [this]
    · intro us r hu; exact absurd (hl.symm.trans hu) (hall _ _ _ _ (.inl rfl))
    · intro us r hu; exact absurd (hl.symm.trans hu) (hall _ _ _ _ (.inr rfl))
  · rw [h]
    refine ⟨?_, ?_, ?_, ?_⟩
    · rcases hx with rfl | rfl <;> simp
    · intro us hu; exact absurd (hu.symm.trans hl) (hall _ _ _ _ hx)
    · intro us r hu; rw [hsame _ _ _ _ _ _ hx (.inl rfl) (hl.symm.trans hu)]
    · intro us r hu; rw [hsame _ _ _ _ _ _ hx (.inr rfl) (hl.symm.trans hu)]

example : logger (txt "Logger") (txt "'app'") (txt "<object>") [.text (txt "<A>"), .text (txt "<B>")] =
    .text (txt "<Logger name='app' sinks=[<A>, <B>]>") := by decide +kernel
example : logger (txt "Logger") (txt "'app'") (txt "<object>") [.text (txt "<A>"), .exc, .base] = .text (txt "<object>") := by
  decide +kernel

end Verif.Reprs
