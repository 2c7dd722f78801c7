import Verif.Props.Message
import Verif.Props.Note
import Verif.Props.Emitter
import Verif.Props.Quantile
import Mathlib.Logic.Equiv.List
/-!
# C31, C35, C40, C44, C51: what happens exactly, also where the property fails
-/

/-! ## C31 -/

namespace Verif.Note

/-- C31, exactly: if handler `k` is the first that raises, the handlers up to and including it are called, in order and each
with the formatted message, the others are not, and the exception reaches the caller; and if none raises all are called. -/
theorem C31_exact {M A : Type} (fmt : M → List A → Option M) (handlers : Nat) (raises : Nat → Bool) (name : String)
    (message : M) (args : List A) :
    (∀ k < handlers, raises k = true → (∀ j < k, raises j = false) →
      note fmt handlers raises name message args =
        ((List.range (k + 1)).map fun h =>
          ⟨h, name, match args, fmt message args with | _ :: _, some m => m | _, _ => message⟩, true)) ∧
    ((∀ k < handlers, raises k = false) →
      note fmt handlers raises name message args =
        ((List.range handlers).map fun h =>
          ⟨h, name, match args, fmt message args with | _ :: _, some m => m | _, _ => message⟩, false)) := by
  have hm : (if args.isEmpty then message else (fmt message args).getD message) =
      match args, fmt message args with | _ :: _, some m => m | _, _ => message := by
    cases args with
    | nil => rfl
    | cons a as => cases fmt message (a :: as) <;> rfl
  refine ⟨fun k hk hr hj => ?_, fun hq => ?_⟩
  · have key : ∀ (msg : M) (l r : List Nat), (∀ x ∈ l, raises x = false) →
        callAll raises name msg (l ++ k :: r) = ((l ++ [k]).map fun h => ⟨h, name, msg⟩, true) := by
      intro msg l r hl
      induction l with
      | nil => simp [callAll, hr]
      | cons x l ih =>
        simp only [List.cons_append, callAll, hl x (by simp)]
        rw [ih (fun y hy => hl y (by simp [hy]))]
        simp
    have hsplit : List.range handlers = List.range k ++ k :: (List.range (handlers - (k + 1))).map (· + (k + 1)) := by
      have h1 : handlers = (k + 1) + (handlers - (k + 1)) := by omega
      conv_lhs => rw [h1, List.range_add]
      rw [List.range_succ]
      simp [Nat.add_comm]
    simp only [note, if_neg (show handlers ≠ 0 by omega)]
    rw [hsplit, key _ _ _ (fun x hx => hj x (by simpa using hx)), ← List.range_succ, hm]
  · simp only [note]
    split
    · rename_i h; subst h; rfl
    · rw [callAll_quiet (fun h hh => hq h (by simpa using hh)), hm]

/-- Three handlers, the second raises. -/
example : note (fun (_ : String) (_ : List Nat) => some "x = 1") 3 (fun h => h == 1) "n" "x = %d" [1] =
    ([⟨0, "n", "x = 1"⟩, ⟨1, "n", "x = 1"⟩], true) :=
  (C31_exact _ 3 _ "n" "x = %d" [1]).1 1 (by decide) (by decide) (by decide)

end Verif.Note

/-! ## C35 -/

namespace Verif.Sens

open Verif.Lvl

/-- What a setting means to a filter: 0 and the empty string mean what None means. -/
def Means (lower upper : String → String) (regs : List Level) (arg : LevelArg) (l : Level) : Prop :=
  if arg = none ∨ arg = some (.num 0) ∨ arg = some (.str "") then l = MAX_LEVEL else StandsFor lower upper regs arg l

theorem argLevel_means {lower upper : String → String} {regs : List Level} (h : regs.Pairwise (NoClash lower upper))
    (hM : MAX_LEVEL ∈ regs) {arg : LevelArg} {l : Level} (hs : Means lower upper regs arg l) :
    argLevel (table lower upper regs) arg = l ∧ l ∈ regs := by
  have hmax : getLevel (table lower upper regs) (.level MAX_LEVEL) = MAX_LEVEL := (C33_get_level h _ _).1 _ hM rfl
  unfold Means at hs
  split at hs
  · rename_i hz
    subst hs
    refine ⟨?_, hM⟩
    rcases hz with rfl | rfl | rfl
    · exact hmax
    · simpa [argLevel, truthy] using hmax
    · simpa [argLevel, truthy] using hmax
  · rename_i hz
    exact ⟨argLevel_eq h hM hs ⟨fun e => hz (.inr (.inl e)), fun e => hz (.inr (.inr e))⟩, standsFor_mem hM hs⟩

/-- C35, exactly: an event other than a comment passes iff its action's level is at or above the level that its setting means,
or the verbose check holds, where 0 and `''` mean the highest level, like None.  The settings of other events do not matter. -/
theorem C35_exact {lower upper : String → String} {regs : List Level}
    (h : regs.Pairwise (NoClash lower upper)) (hM : MAX_LEVEL ∈ regs) (a : FilterArgs) (ev : Ev)
    (hev : ev ≠ .comment) {thr : Level} (hthr : Means lower upper regs (setting a ev) thr) (level : Level)
    (verbose : Bool) :
    passes (mkFilter (table lower upper regs) a) level verbose ev = true ↔
      level.value ≥ thr.value ∨ verbose = true := by
  have key : ∀ x : Option LevelArg, x.getD a.base = setting a ev →
      argLevel (table lower upper regs) (x.getD (some (.level (argLevel (table lower upper regs) a.base)))) = thr := by
    intro x hx
    obtain ⟨h1, h2⟩ := argLevel_means h hM hthr
    cases x with
    | none =>
      simp only [Option.getD_none] at hx ⊢
      rw [hx, h1]
      exact argLevel_eq h hM (arg := some (.level thr)) ⟨h2, rfl⟩ ⟨by simp, by simp⟩
    | some y =>
      simp only [Option.getD_some] at hx ⊢
      rw [hx, h1]
  cases ev with
  | comment => exact absurd rfl hev
  | begin =>
    simp only [passes, mkFilter, key _ rfl]
    have := ge_iff level thr
    cases hg : ge level thr <;> cases verbose <;> simp_all
  | warn =>
    simp only [passes, mkFilter, key _ rfl]
    have := ge_iff level thr
    cases hg : ge level thr <;> cases verbose <;> simp_all
  | success =>
    simp only [passes, mkFilter, key _ rfl]
    have := ge_iff level thr
    cases hg : ge level thr <;> cases verbose <;> simp_all
  | failure =>
    simp only [passes, mkFilter, key _ rfl]
    have := ge_iff level thr
    cases hg : ge level thr <;> cases verbose <;> simp_all
  | exception =>
    simp only [passes, mkFilter, key _ rfl]
    have := ge_iff level thr
    cases hg : ge level thr <;> cases verbose <;> simp_all

/-- A base of `''`, and 0 for failures: neither lets CRITICAL pass. -/
example : passes (mkFilter (table lowerS upperS builtins) { base := some (.str ""), failure := some (some (.num 0)) })
      CRITICAL false .failure = false ∧
    passes (mkFilter (table lowerS upperS builtins) { base := some (.str ""), failure := some (some (.num 0)) })
      CRITICAL false .begin = false := by
  constructor <;> rw [← Bool.not_eq_true]
  · rw [C35_exact (thr := MAX_LEVEL) builtins_noClash (by decide) _ .failure (by decide)
      (by simp [Means, setting]) CRITICAL false]
    decide
  · rw [C35_exact (thr := MAX_LEVEL) builtins_noClash (by decide) _ .begin (by decide)
      (by simp [Means, setting]) CRITICAL false]
    decide

end Verif.Sens

/-! ## C40 -/

namespace Verif.Msg

/-- A read that gave some text. -/
def Shown (r : Option String) : Bool := match r with | some m => m ≠ "" | none => false

theorem reads_cached {V : Type} (f : Fmt V) {m : String} (hm : m ≠ "") (nows : List (Now V)) :
    ∀ e : Ev V, e.cache = some m → reads f e nows = nows.map fun _ => some m := by
  induction nows with
  | nil => intro e _; rfl
  | cons now rest ih =>
    intro e he
    have h1 : message f e now = (some m, e) := by simp [message, he, hm]
    simp only [reads, h1, List.map_cons]
    rw [ih e he]

theorem reads_eq {V : Type} (f : Fmt V) (raw : Option String) (fargs : List V) (nows : List (Now V)) :
    ∀ c : Option String, (c = none ∨ c = some "") → ∀ i : Nat,
      (reads f ⟨raw, fargs, c⟩ nows)[i]? = nows[i]?.map fun now =>
        (((nows.take i).map fun n => (message f ⟨raw, fargs, none⟩ n).1).find? Shown).getD
          (message f ⟨raw, fargs, none⟩ now).1 := by
  induction nows with
  | nil => intro c _ i; simp [reads]
  | cons now rest ih =>
    intro c hc i
    have hm : (message f ⟨raw, fargs, c⟩ now).1 = (message f ⟨raw, fargs, none⟩ now).1 ∧
        ∃ c', (message f ⟨raw, fargs, c⟩ now).2 = ⟨raw, fargs, c'⟩ ∧
          ((c' = none ∨ c' = some "") ∧ Shown (message f ⟨raw, fargs, none⟩ now).1 = false ∨
            c' = (message f ⟨raw, fargs, none⟩ now).1 ∧ Shown c' = true) := by
      cases raw with
      | none =>
        rcases hc with rfl | rfl <;> exact ⟨by simp [message], some "", by simp [message], .inl ⟨.inr rfl, by simp [message, Shown]⟩⟩
      | some raw =>
        by_cases hb : '{' ∈ raw.toList
        · cases hr : render f raw fargs now with
          | none =>
            rcases hc with rfl | rfl
            · exact ⟨rfl, none, by simp [message, hb, hr], .inl ⟨.inl rfl, by simp [message, hb, hr, Shown]⟩⟩
            · exact ⟨by simp [message, hb, hr], some "", by simp [message, hb, hr],
                .inl ⟨.inr rfl, by simp [message, hb, hr, Shown]⟩⟩
          | some m =>
            refine ⟨by rcases hc with rfl | rfl <;> simp [message, hb, hr], some m,
              by rcases hc with rfl | rfl <;> simp [message, hb, hr], ?_⟩
            by_cases he : m = ""
            · subst he; exact .inl ⟨.inr rfl, by simp [message, hb, hr, Shown]⟩
            · exact .inr ⟨by simp [message, hb, hr], by simp [Shown, he]⟩
        · refine ⟨by rcases hc with rfl | rfl <;> simp [message, hb], some raw,
            by rcases hc with rfl | rfl <;> simp [message, hb], ?_⟩
          by_cases he : raw = ""
          · subst he; exact .inl ⟨.inr rfl, by simp [message, Shown]⟩
          · exact .inr ⟨by simp [message, hb], by simp [Shown, he]⟩
    obtain ⟨h1, c', h2, h3⟩ := hm
    cases i with
    | zero => simp [reads, h1]
    | succ i =>
      simp only [reads, List.getElem?_cons_succ, h2, List.take_succ_cons, List.map_cons, List.find?_cons]
      rcases h3 with ⟨hc', hs⟩ | ⟨hc', hs⟩
      · rw [ih c' hc' i, hs]
      · rw [← hc', hs]
        cases c' with
        | none => simp [Shown] at hs
        | some m =>
          have hm : m ≠ "" := by simpa [Shown] using hs
          rw [reads_cached f hm rest _ rfl]
          simp only [List.getElem?_map, Option.getD_some]

/-- C40, exactly: the reads of an event's message, at any moments, with the data maps and getters of those moments.  Each read
gives what the first read that gave some text has given; while there is none, it gives (or fails with) what a new event with the
same text and arguments gives at that moment. -/
theorem C40_exact {V : Type} (f : Fmt V) (raw : Option String) (fargs : List V) (nows : List (Now V)) (i : Nat) :
    (reads f ⟨raw, fargs, none⟩ nows)[i]? = nows[i]?.map fun now =>
      (((nows.take i).map fun n => (message f ⟨raw, fargs, none⟩ n).1).find? Shown).getD
        (message f ⟨raw, fargs, none⟩ now).1 :=
  reads_eq f raw fargs nows none (.inl rfl) i

/-- Nothing to show at first, then `a`, and `a` ever after. -/
example : (reads sampleFmt ⟨some "{x}", [], none⟩ [sampleNow "", sampleNow "a", sampleNow "b"])[2]? = some (some "a") := by
  rw [C40_exact]; decide

end Verif.Msg

/-! ## C44 -/

namespace Verif.Emit

/-- C44, exactly: an event is given a priority unless it is a comment or its level is none of DEBUG, INFO and CRITICAL. -/
theorem C44_exact (h : String → Nat) (hh : Function.Injective h) (l : Lvl.Level) (hook : Hook) {st : String}
    (hst : st ∈ statuses) :
    (∃ p, syslogEmit h defaultPriorityMap hook l st = some p) ↔
      hook ≠ .comment ∧ ∃ u ∈ userLevels, u.name = l.name := by
  have hfind : ∀ u : Lvl.Level, (decide (Lvl.hash h u = Lvl.hash h l ∧ Lvl.eq u l = true)) = decide (u.name = l.name) := by
    intro u
    simp only [Lvl.hash, hh.eq_iff]
    by_cases e : u.name = l.name
    · simp [e, Lvl.eq]
    · simp [e]
  simp only [statuses, List.mem_cons, List.not_mem_nil, or_false] at hst
  simp only [userLevels, List.mem_cons, List.not_mem_nil, or_false, exists_eq_or_imp, exists_eq_left]
  have hmap : ∀ s, ((defaultPriorityMap.find? fun p => Lvl.hash h p.1 = Lvl.hash h l ∧ Lvl.eq p.1 l).bind fun p => p.2.lookup s) =
      ((defaultPriorityMap.find? fun p => decide (p.1.name = l.name)).bind fun p => p.2.lookup s) := by
    intro s
    simp only [hfind]
  have hsome : ∀ s ∈ ["begin", "success", "failure", "warn", "exception"],
      (∃ p, ((defaultPriorityMap.find? fun p => decide (p.1.name = l.name)).bind fun p => p.2.lookup s) = some p) ↔
        (Lvl.DEBUG.name = l.name ∨ Lvl.INFO.name = l.name ∨ Lvl.CRITICAL.name = l.name) := by
    intro s hs
    simp only [defaultPriorityMap, List.find?_cons]
    by_cases h1 : Lvl.DEBUG.name = l.name
    · simp only [h1]
      revert s; simp [List.lookup_cons]
    · by_cases h2 : Lvl.INFO.name = l.name
      · simp only [h2, h1]
        revert s; simp [List.lookup_cons]
      · by_cases h3 : Lvl.CRITICAL.name = l.name
        · simp only [h3, h1, h2]
          revert s; simp [List.lookup_cons]
        · simp [h1, h2, h3]
  cases hook with
  | comment => simp [syslogEmit]
  | begin => simp only [syslogEmit, priority]; rw [hmap, hsome _ (by simp)]; simp
  | warn => simp only [syslogEmit, priority]; rw [hmap, hsome _ (by simp)]; simp
  | end' =>
    simp only [syslogEmit, priority]
    rw [hmap, hsome _ (by rcases hst with rfl | rfl | rfl <;> simp)]
    simp

example := C44_exact (fun s => Encodable.encode (s.toList.map Char.toNat))
  (fun a b e => by
    have h := Encodable.encode_injective e
    exact String.toList_inj.1 ((List.map_injective_iff.2 fun x y h => Char.toNat_inj.1 h) h))
  Lvl.INFO .warn (st := "success") (by decide)

end Verif.Emit

/-! ## C51 -/

namespace Verif.Quant

open Verif.Accum (Ext negInf posInf)
open scoped List

variable {K : Type} [Field K] [LinearOrder K] [IsStrictOrderedRing K] [FloorRing K]

/-- The values that a reservoir of `c` values takes in, of those added after `n` others: the first `c`, and of the later ones
those for which the number drawn is below `c`. -/
def taken (c : Int) : Nat → List (Op K) → List K
  | _, [] => []
  | n, .add v rnd :: ops => if (n : Int) < c ∨ (rnd : Int) < c then v :: taken c (n + 1) ops else taken c (n + 1) ops
  | n, _ :: ops => taken c n ops

theorem taken_append (c : Int) (a b : List (Op K)) :
    ∀ n, taken c n (a ++ b) = taken c n a ++ taken c (n + (added a).length) b := by
  induction a with
  | nil => intro n; simp [taken, added]
  | cons o a ih =>
    intro n
    cases o with
    | add v rnd =>
      simp only [List.cons_append, taken, added, List.length_cons]
      rw [ih, show n + 1 + (added a).length = n + ((added a).length + 1) by omega]
      split <;> simp
    | quantile q => simpa [taken, added] using ih n
    | iter => simpa [taken, added] using ih n

theorem inv_taken (store : K → K) (c : Int) (ops : List (Op K)) :
    Inv store (some c) (added ops) (taken c 0 ops) (run store (some c) ops) := by
  induction ops using List.reverseRecOn with
  | nil => exact inv_init store (some c)
  | append_singleton ops o ih =>
    have hr : run store (some c) (ops ++ [o]) = step store (run store (some c) ops) o := by simp [run]
    rw [hr, added_append, taken_append]
    cases o with
    | add v rnd =>
      obtain ⟨r', acc', h1, h2, h3⟩ := inv_add ih v rnd
      have : acc' = taken c 0 ops ++ taken c (0 + (added ops).length) [.add v rnd] := by
        have hl := ih.sub.length_le
        rw [h3]
        simp only [taken, below, decide_eq_true_eq, Bool.or_eq_true]
        have : ((taken c 0 ops).length : Int) < c ↔ ((0 + (added ops).length : Nat) : Int) < c := by
          rcases ih.full c rfl with e | e
          · rw [e]; simp
          · omega
        by_cases hk : ((taken c 0 ops).length : Int) < c ∨ (rnd : Int) < c
        · rw [if_pos hk, if_pos (by rw [← this]; exact hk)]
        · rw [if_neg hk, if_neg (by rw [← this]; exact hk)]; simp
      rw [← this]
      simpa [step, h1, added] using h2
    | quantile q => simpa [step, added, taken] using inv_quantile ih q
    | iter => simpa [step, added, taken, resIter] using inv_sort ih

/-- C51, exactly: whatever is drawn and whatever is read in between, `count`, `min` and `max` of a capped accumulator are those
of the values taken in, and so are the values held. -/
theorem C51_exact (store : K → K) (c : Int) (ops : List (Op K)) :
    (run store (some c) ops).base.count = (taken c 0 ops).length ∧
    Extremes (taken c 0 ops) (run store (some c) ops).base.min (run store (some c) ops).base.max ∧
    (run store (some c) ops).data <+~ (taken c 0 ops).map store :=
  have h := inv_taken store c ops
  ⟨h.count, h.extremes, h.data_sub⟩

/-- The second value is not taken in, the third is. -/
example : (run (id : ℚ → ℚ) (some 1) [.add 5 0, .add 9 1, .quantile (1 / 2), .add 3 0]).base.count = 2 := by
  rw [(C51_exact _ _ _).1]; simp [taken]

end Verif.Quant
