import Verif.Model.SinkRepr
import Verif.Props.Reprs
import Verif.Props.PyRepr
/-!
# C155: showing sensible sinks, formatters and stream emitters
-/
namespace Verif.SinkRepr

open Reprs (txt Shown sinksText sinksText_cases logger C143_logger)
open PyRepr (reprText C154_text)
open PyLit (literal)

/-- The text of a sensible sink all of whose parts can be shown. -/
def sinkText (cn : List Nat) (filters : List (List Nat)) (formatter emitter : List Nat) : List Nat :=
  txt "<" ++ cn ++ txt " filters=[" ++ (txt ", ").intercalate filters ++ txt "] formatter=" ++ formatter ++ txt " emitter=" ++
    emitter ++ txt ">"

/-- The text of a stream emitter whose stream can be shown. -/
def emitterText (cn stream : List Nat) : List Nat := txt "<" ++ cn ++ txt " stream=" ++ stream ++ txt ">"

theorem texts_inj {ts us : List (List Nat)} (h : ts.map Shown.text = us.map .text) : ts = us :=
  List.map_injective_iff.2 (fun _ _ h => Shown.text.inj h) h

/-- What a list is, and what showing it does, if a part cannot be shown. -/
theorem sinksText_bad (ts : List (List Nat)) (x : Shown) (rest : List Shown) (hx : x = .exc ∨ x = .base) :
    sinksText (ts.map .text ++ x :: rest) = x := by
  induction ts with
  | nil => rcases hx with rfl | rfl <;> rfl
  | cons t ts ih =>
    simp only [List.map_cons, List.cons_append, sinksText, ih]
    rcases hx with rfl | rfl <;> rfl

theorem sinksText_good (ts : List (List Nat)) : sinksText (ts.map .text) = .text ((txt ", ").intercalate ts) := by
  rcases sinksText_cases (ts.map .text) with ⟨us, hl, h⟩ | ⟨us, x, rest, hl, hx, h⟩
  · rw [h, texts_inj hl]
  · have : x ∈ ts.map Shown.text := by rw [hl]; simp
    obtain ⟨t, _, ht⟩ := List.mem_map.1 this
    rcases hx with rfl | rfl <;> cases ht

/-- **C155, sinks.**  The `repr` of a sensible sink shows its filters in order, its formatter and its emitter, if all of them can be
shown; otherwise it raises what the first that cannot raises. -/
theorem C155_sink (cn : List Nat) (filters : List Shown) (fmt emitter : Shown) :
    (∀ (fs : List (List Nat)) g e, filters = fs.map .text → fmt = .text g → emitter = .text e →
      sensibleSink cn filters fmt emitter = .text (sinkText cn fs g e)) ∧
    (∀ (ts : List (List Nat)) (x : Shown) rest, filters ++ [fmt, emitter] = ts.map .text ++ x :: rest → (x = .exc ∨ x = .base) →
      sensibleSink cn filters fmt emitter = x) := by
  constructor
  · rintro fs g e rfl rfl rfl
    unfold sensibleSink
    rw [sinksText_good]
    rfl
  · intro ts x rest h hx
    have hnot : ∀ t, x ≠ .text t := fun t ht => by rcases hx with rfl | rfl <;> cases ht
    unfold sensibleSink
    rcases List.append_eq_append_iff.1 h with ⟨as, h1, h2⟩ | ⟨bs, h1, h2⟩
    · -- the filters are all shown
      obtain ⟨fs, us, rfl, hfs, hus⟩ := List.map_eq_append_iff.1 h1
      subst hfs; subst hus
      rw [sinksText_good]
      cases us with
      | nil =>
        simp only [List.map_nil, List.nil_append, List.cons.injEq] at h2
        rw [h2.1]
        rcases hx with rfl | rfl <;> rfl
      | cons u us =>
        simp only [List.map_cons, List.cons_append, List.cons.injEq] at h2
        rw [h2.1]
        cases us with
        | nil =>
          simp only [List.map_nil, List.nil_append, List.cons.injEq] at h2
          rw [h2.2.1]
          rcases hx with rfl | rfl <;> rfl
        | cons v us =>
          exfalso
          have := congrArg List.length h2.2
          simp at this
    · cases bs with
      | nil =>
        rw [List.append_nil] at h1
        rw [h1, sinksText_good]
        simp only [List.nil_append, List.cons.injEq] at h2
        rw [← h2.1]
        rcases hx with rfl | rfl <;> rfl
      | cons b bs =>
        simp only [List.cons_append, List.cons.injEq] at h2
        rw [h1, ← h2.1, sinksText_bad ts x bs hx]
        rcases hx with rfl | rfl <;> rfl

/-- **C155, emitters.**  The `repr` of a stream emitter shows its stream, and raises what showing the stream raises. -/
theorem C155_emitter (cn : List Nat) (stream : Shown) :
    (∀ s, stream = .text s → streamEmitter cn stream = .text (emitterText cn s)) ∧
    (stream = .exc ∨ stream = .base → streamEmitter cn stream = stream) := by
  constructor
  · rintro s rfl; rfl
  · rintro (rfl | rfl) <;> rfl

/-- **C155, formatters.**  The `repr` of a message formatter is its class and, in brackets, a literal that reads as its template; two
formatters of one class are shown alike exactly if their templates are the same. -/
theorem C155_formatter (printable : Nat → Bool) (cn template : List Nat) (h : ∀ c ∈ template, c < 0x110000) :
    (∃ lit, formatter printable cn template = cn ++ txt "(" ++ lit ++ txt ")" ∧ ∀ t, literal (lit ++ t) = some (template, t)) ∧
    ∀ other : List Nat, (∀ c ∈ other, c < 0x110000) →
      (formatter printable cn template = formatter printable cn other ↔ template = other) := by
  refine ⟨⟨_, rfl, C154_text printable template h⟩, fun other ho => ⟨fun he => ?_, fun he => by rw [he]⟩⟩
  unfold formatter at he
  simp only [List.append_assoc, List.append_cancel_left_eq] at he
  have h1 := C154_text printable template h (txt ")")
  rw [he, C154_text printable other ho] at h1
  simp only [Option.some.injEq, Prod.mk.injEq] at h1
  exact h1.1.symm

/-- A sensible sink over a stream emitter, by what showing its parts does. -/
structure Parts where
  cn : List Nat
  filters : List Shown
  fmt : Shown
  emitterCn : List Nat
  stream : Shown

/-- What showing it does. -/
def Parts.shown (p : Parts) : Shown := sensibleSink p.cn p.filters p.fmt (streamEmitter p.emitterCn p.stream)

/-- Its parts, in the order in which they are shown. -/
def Parts.all (p : Parts) : List Shown := p.filters ++ [p.fmt, p.stream]

theorem firstBad (l : List Shown) :
    (∃ ts : List (List Nat), l = ts.map .text) ∨
    ∃ (ts : List (List Nat)) (x : Shown) (rest : List Shown), l = ts.map .text ++ x :: rest ∧ (x = .exc ∨ x = .base) := by
  rcases sinksText_cases l with ⟨ts, hl, _⟩ | ⟨ts, x, rest, hl, hx, _⟩
  · exact .inl ⟨ts, hl⟩
  · exact .inr ⟨ts, x, rest, hl, hx⟩

/-- What showing a sensible sink over a stream emitter does. -/
theorem parts_shown (p : Parts) :
    (∃ s, p.shown = .text s ∧ ∀ x ∈ p.all, ∃ t, x = .text t) ∨
    ∃ (ts : List (List Nat)) (x : Shown) (rest : List Shown), p.all = ts.map .text ++ x :: rest ∧ (x = .exc ∨ x = .base) ∧ p.shown = x := by
  have key : ∀ (ts : List (List Nat)) (x : Shown) rest, p.all = ts.map .text ++ x :: rest → (x = .exc ∨ x = .base) → p.shown = x := by
    intro ts x rest h hx
    cases hs : p.stream with
    | text s =>
      -- then the first is among the others
      have hl : p.filters ++ [p.fmt, Shown.text (emitterText p.emitterCn s)] =
          ts.map .text ++ x :: (rest.dropLast ++ [.text (emitterText p.emitterCn s)]) := by
        have hne : rest ≠ [] := by
          rintro rfl
          have := congrArg List.getLast? h
          simp only [Parts.all, hs, List.getLast?_append, List.getLast?_cons_cons, List.getLast?_singleton, Option.some_or] at this
          rcases hx with rfl | rfl <;> cases this
        have := congrArg List.dropLast h
        unfold Parts.all at this
        rw [List.dropLast_append_of_ne_nil (by simp), List.dropLast_append_of_ne_nil (by simp),
          List.dropLast_cons_of_ne_nil hne] at this
        have h3 := congrArg (· ++ [Shown.text (emitterText p.emitterCn s)]) this
        simpa using h3
      unfold Parts.shown
      rw [(C155_emitter p.emitterCn p.stream).1 s hs]
      exact (C155_sink _ _ _ _).2 ts x _ hl hx
    | exc =>
      unfold Parts.shown
      rw [(C155_emitter p.emitterCn p.stream).2 (.inl hs)]
      exact (C155_sink _ _ _ _).2 ts x rest h hx
    | base =>
      unfold Parts.shown
      rw [(C155_emitter p.emitterCn p.stream).2 (.inr hs)]
      exact (C155_sink _ _ _ _).2 ts x rest h hx
  rcases firstBad p.all with ⟨ts, hl⟩ | ⟨ts, x, rest, hl, hx⟩
  · left
    have hall : ∀ x ∈ p.all, ∃ t, x = Shown.text t := by
      intro x hx
      rw [hl] at hx
      obtain ⟨t, _, rfl⟩ := List.mem_map.1 hx
      exact ⟨t, rfl⟩
    obtain ⟨g, hg⟩ := hall p.fmt (by simp [Parts.all])
    obtain ⟨s, hs⟩ := hall p.stream (by simp [Parts.all])
    obtain ⟨fs, hfs⟩ : ∃ fs : List (List Nat), p.filters = fs.map .text := by
      rcases firstBad p.filters with h | ⟨us, x, rest, h, hx⟩
      · exact h
      · obtain ⟨t, ht⟩ := hall x (by simp [Parts.all, h])
        rcases hx with rfl | rfl <;> cases ht
    exact ⟨_, (C155_sink p.cn _ _ _).1 fs g _ hfs hg ((C155_emitter p.emitterCn p.stream).1 s hs), hall⟩
  · exact .inr ⟨ts, x, rest, hl, hx, key ts x rest hl hx⟩

/-- **C155, loggers.**  If showing the filters, formatters and streams of a logger's sensible sinks raises nothing but Exceptions, showing
the logger raises nothing: it shows every sink if all these parts can be shown, and is the plain `repr` if one of them cannot. -/
theorem C155_logger (cn name plain : List Nat) (sinks : List Parts) (h : ∀ p ∈ sinks, ∀ x ∈ p.all, x ≠ .base) :
    ((∀ p ∈ sinks, ∀ x ∈ p.all, ∃ t, x = .text t) → ∃ ts : List (List Nat), sinks.map Parts.shown = ts.map .text ∧
      logger cn name plain (sinks.map Parts.shown) =
        .text (txt "<" ++ cn ++ txt " name=" ++ name ++ txt " sinks=[" ++ (txt ", ").intercalate ts ++ txt "]>")) ∧
    ((∃ p ∈ sinks, ∃ x ∈ p.all, x = .exc) → logger cn name plain (sinks.map Parts.shown) = .text plain) := by
  obtain ⟨-, h2, h3, -⟩ := C143_logger cn name plain (sinks.map Parts.shown)
  have hbase : ∀ x ∈ sinks.map Parts.shown, x ≠ .base := by
    intro x hx
    obtain ⟨p, hp, rfl⟩ := List.mem_map.1 hx
    rcases parts_shown p with ⟨s, hs, _⟩ | ⟨ts, x, rest, hl, _, hs⟩
    · rw [hs]; simp
    · rw [hs]; exact h p hp x (by rw [hl]; simp)
  rcases firstBad (sinks.map Parts.shown) with ⟨ts, hl⟩ | ⟨ts, x, rest, hl, hx⟩
  · refine ⟨fun _ => ⟨ts, hl, h2 ts hl⟩, fun ⟨p, hp, x, hx, he⟩ => ?_⟩
    exfalso
    have hm : p.shown ∈ ts.map Shown.text := hl ▸ List.mem_map_of_mem hp
    obtain ⟨t, _, ht⟩ := List.mem_map.1 hm
    rcases parts_shown p with ⟨s, _, ha⟩ | ⟨us, y, rest, _, hy, hs⟩
    · obtain ⟨u, hu⟩ := ha x hx; rw [he] at hu; cases hu
    · rw [hs] at ht; rcases hy with rfl | rfl <;> cases ht
  · have hxe : x = .exc := hx.resolve_right (hbase x (by rw [hl]; simp))
    subst hxe
    refine ⟨fun ha => ?_, fun _ => h3 ts rest hl⟩
    exfalso
    have hm : Shown.exc ∈ sinks.map Parts.shown := by rw [hl]; simp
    obtain ⟨p, hp, he⟩ := List.mem_map.1 hm
    rcases parts_shown p with ⟨s, hs, _⟩ | ⟨us, y, rest, hl', hy, _⟩
    · rw [hs] at he; cases he
    · obtain ⟨t, ht⟩ := ha p hp y (by rw [hl']; simp)
      rcases hy with rfl | rfl <;> cases ht

/-! ## The hypotheses can be met -/

/-- A sink with one filter, a formatter for `{name}'s` and a file. -/
example : (Parts.mk (txt "SensibleSink") [.text (txt "f")] (.text (formatter (fun _ => true) (txt "F") (txt "{name}'s")))
    (txt "StreamEmitter") (.text (txt "<file>"))).shown =
    .text (txt "<SensibleSink filters=[f] formatter=F(\"{name}'s\") emitter=<StreamEmitter stream=<file>>>") := by decide +kernel

/-- A stream that cannot be shown: the plain `repr` of the logger. -/
example : logger (txt "Logger") (txt "'x'") (txt "plain") ([Parts.mk (txt "S") [] (.text []) (txt "E") .exc].map Parts.shown) =
    .text (txt "plain") := (C155_logger _ _ _ _ (by simp [Parts.all])).2 ⟨_, List.mem_singleton.2 rfl, .exc, by simp [Parts.all], rfl⟩

/-- An interruption in a filter comes before an error in the formatter. -/
example : sensibleSink (txt "S") [.text (txt "f"), .base] .exc (.text []) = .base :=
  (C155_sink _ _ _ _).2 [txt "f"] .base [.exc, .text []] rfl (.inr rfl)

end Verif.SinkRepr
