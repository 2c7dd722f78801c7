import Verif.Props.Files
import Verif.Props.Utf8
import Verif.Props.Entry
import Verif.Props.Emitter
/-!
# C92: from events to the log file and back
-/
namespace Verif.LogFile

open Verif.Sens Verif.Tmpl Verif.Files

/-- An event as a formatter sees it: the fields' getters give what they give for this event, and its arguments, keyword
arguments and data map. -/
structure Ev (V : Type) where
  conf : Conf V
  kwargs : String → Option V
  dataMap : String → Option V
  args : List V

/-- The entry of an event: `SensibleFormatter` with the default defaulter and quoter. -/
def Ev.entry {V : Type} (e : Ev V) (ps : List Part) : Res String :=
  formatAll e.conf defaultDefaulter (defaultQuoter e.conf jsonQuoter) (write (spaced ps)) e.kwargs e.dataMap e.args

/-- What the fields of an event are. -/
def Ev.readings {V : Type} (e : Ev V) (ps : List Part) : List Reading :=
  (numbered 0 ps).map (Part.reading e.conf e.kwargs e.dataMap e.args)

/-- Reading a log file: split at line breaks, decode each line, read its fields. -/
def readFile (quoted : List Bool) (file : List Nat) : List (Option (List Reading)) :=
  (Emit.split [10] [] file).dropLast.map fun line => (Utf8.decode line).map (readEntry quoted)

theorem points_scalar (s : String) : ∀ c ∈ points s, Utf8.Scalar c := by
  intro n hn
  simp only [points, List.mem_map] at hn
  obtain ⟨ch, -, rfl⟩ := hn
  have := ch.valid
  simp only [UInt32.isValidChar, Nat.isValidChar] at this
  have h2 : ch.toNat = ch.val.toNat := rfl
  unfold Utf8.Scalar
  omega

/-- Reading one line. -/
theorem read_line {V : Type} (ps : List Part) (hok : ∀ p ∈ ps, p.Ok) (hsolid : ∀ p ∈ ps, p.Solid) (e : Ev V)
    (hc : e.conf.Calm)
    (hu : ∀ p ∈ ps, p.quoted e.conf = false → ∀ s, p.text e.conf e.kwargs e.dataMap e.args = .ok s → ' ' ∉ s.toList)
    (line : String) (h : e.entry ps = .ok line) :
    (Utf8.decode (Utf8.encode (points line))).map (readEntry (ps.map (Part.quoted e.conf))) = some (e.readings ps) := by
  rw [Utf8.C91_decode_partial _ (points_scalar line), Option.map_some,
    C89_read_back hc ps hok hsolid e.kwargs e.dataMap e.args hu line h]
  rfl

theorem written_emits (i : Nat) (sep : List Nat) (l : List (Option (List Nat))) (hi : l[i]? = some (some sep)) :
    ∀ lines : List (List Nat), written l (lines.map fun x => .emit i x) = lines.map (· ++ sep) := by
  intro lines
  induction lines with
  | nil => rfl
  | cons x lines ih => simp only [List.map_cons, written, hi, ih]

/-- **C92.**  End to end: events are formatted with a template of fields separated by spaces, encoded as UTF-8 and appended
to a new log file.  Then the file can be read: it has one line per event, in order, and each line gives back the fields
of its event.  As long as, for each event, what its unquoted fields show has no space or line break. -/
theorem C92_read_log {V : Type} (ps : List Part) (hok : ∀ p ∈ ps, p.Ok) (hsolid : ∀ p ∈ ps, p.Solid)
    (evs : List (Ev V)) (quoted : List Bool) (hq : ∀ e ∈ evs, ps.map (Part.quoted e.conf) = quoted)
    (hc : ∀ e ∈ evs, e.conf.Calm)
    (hu : ∀ e ∈ evs, ∀ p ∈ ps, p.quoted e.conf = false → ∀ s, p.text e.conf e.kwargs e.dataMap e.args = .ok s →
      ' ' ∉ s.toList ∧ '\n' ∉ s.toList)
    (hnl : ∀ p ∈ ps, '\n' ∉ p.write)
    (lines : List String) (hl : lines.map Res.ok = evs.map (Ev.entry · ps)) :
    readFile quoted ((run 0 (⟨none, []⟩ : St Nat)
        (.make false true [10] :: lines.map fun l => .emit 0 (Utf8.encode (points l)))).file.getD []) =
      evs.map fun e => some (e.readings ps) := by
  have hfile : (run 0 (⟨none, []⟩ : St Nat)
        (.make false true [10] :: lines.map fun l => .emit 0 (Utf8.encode (points l)))).file.getD [] =
      ((lines.map fun l => Utf8.encode (points l)).map (· ++ [10])).flatten := by
    rw [C90_append_partial 0 none]
    · have := written_emits 0 [10] [some [10]] rfl (lines.map fun l => Utf8.encode (points l))
      simp only [List.map_map] at this
      simp only [written, live, Option.getD_none, List.nil_append, if_true, List.map_map]
      rw [← this]; rfl
    · intro v sep
      simp
  rw [hfile]
  have hclean : ∀ l ∈ lines, 10 ∉ points l := by
    intro l hlm
    have : Res.ok l ∈ evs.map (Ev.entry · ps) := by rw [← hl]; exact List.mem_map.2 ⟨l, hlm, rfl⟩
    obtain ⟨e, he, hee⟩ := List.mem_map.1 this
    have hline := hee
    simp only [Ev.entry] at hline
    rw [C89_entry (hc e he) jsonQuoter_ne_base _ (spaced_ok ps hok), Res.ok.injEq,
      numbered_spaced ps 0 fun p hp => (hsolid p hp).1] at hline
    subst hline
    have hw : ∀ p ∈ numbered 0 ps, '\n' ∉ p.write ∧ (p.quoted e.conf = false → ∀ s, p.text e.conf e.kwargs e.dataMap e.args =
        .ok s → '\n' ∉ s.toList) := by
      have hu' := hu e he
      clear hee this hlm hl hfile hq hu hok hsolid
      generalize 0 = n
      induction ps generalizing n with
      | nil => simp [numbered]
      | cons p ps ih =>
        have ih' := fun n => ih (fun p hp => hnl p (by simp [hp])) (fun p hp => hu' p (by simp [hp])) n
        have hp1 := hnl p (by simp)
        have hp2 := hu' p (by simp)
        have hd : ∀ m, '\n' ∉ dec m := by
          intro m h; have := dec_digits m _ h; revert this; decide
        cases p with
        | auto cv s =>
          simp only [numbered, List.mem_cons, forall_eq_or_imp]
          refine ⟨⟨?_, by simp [Part.quoted]⟩, ih' (n + 1)⟩
          simp only [Part.write, field, List.append_nil, List.mem_append, not_or] at hp1 ⊢
          exact ⟨⟨⟨⟨hp1.1.1.1, hd n⟩, hp1.1.1.2⟩, hp1.1.2⟩, hp1.2⟩
        | _ =>
          simp only [numbered, List.mem_cons, forall_eq_or_imp]
          exact ⟨⟨hp1, fun h s hs => (hp2 h s hs).2⟩, ih' n⟩
    have hpart : ∀ p ∈ numbered 0 ps, 10 ∉ points (p.entry e.conf jsonQuoter e.kwargs e.dataMap e.args) := by
      intro p hp
      have nl : ∀ s : List Char, '\n' ∉ s → 10 ∉ points (String.ofList s) := by
        intro s hs
        simp only [points, String.toList_ofList, List.mem_map, not_exists, not_and]
        intro ch hch he
        apply hs
        have : ch = '\n' := by apply Char.ext; apply UInt32.toNat_inj.1; exact he
        exact this ▸ hch
      obtain ⟨h1, h2⟩ := hw p hp
      have hwr := nl _ h1
      unfold Part.entry
      split
      · rename_i s hs
        split
        · obtain ⟨y, hy1, hy2⟩ := points_jsonQuoter s
          rw [hy1]; simp only [orWritten]; rw [hy2]
          intro h; have := Json.C39_printable _ _ h; omega
        · rename_i hqf
          have := nl _ (h2 (by simpa using hqf) s hs)
          rwa [String.ofList_toList] at this
      · exact hwr
    clear hw
    generalize numbered 0 ps = qs at hpart
    induction qs with
    | nil => simp [spaced, points]
    | cons p qs ih =>
      have ih' := ih fun p hp => hpart p (by simp [hp])
      have hp := hpart p (by simp)
      cases qs with
      | nil => simpa [spaced] using hp
      | cons p' qs =>
        simp only [spaced, List.map_cons, String.join_cons, points_append, List.mem_append, not_or] at ih' ⊢
        refine ⟨hp, ?_, ih'⟩
        simp [Part.entry, Part.text, Part.quoted, points]
  have hsplit := Emit.C43_split_partial (Emit.unbordered_singleton 10) (lines.map fun l => Utf8.encode (points l)) (by
    intro s hs
    obtain ⟨l, hlm, rfl⟩ := List.mem_map.1 hs
    intro hin
    have : 10 ∈ Utf8.encode (points l) := hin.subset (by simp)
    exact hclean l hlm ((Utf8.C91_ascii _ 10 (by decide) (points_scalar l)).1 this))
  rw [readFile, hsplit, List.dropLast_concat, List.map_map]
  clear hfile hsplit hclean
  induction evs generalizing lines with
  | nil =>
    have : lines = [] := by simpa using hl
    subst this; rfl
  | cons e evs ih =>
    cases lines with
    | nil => simp at hl
    | cons l lines =>
      simp only [List.map_cons, List.cons.injEq] at hl
      rw [List.map_cons, List.map_cons, ih (fun e he => hq e (by simp [he])) (fun e he => hc e (by simp [he]))
        (fun e he => hu e (by simp [he])) lines hl.2]
      congr 1
      simp only [Function.comp]
      rw [← hq e (by simp)]
      exact read_line ps hok hsolid e (hc e (by simp)) (fun p hp h s hs => (hu e (by simp) p hp h s hs).1) l hl.1.symm

/-- Two events with line breaks, quotes and braces in their data. -/
def sampleEvs : List (Ev String) :=
  [⟨sampleConf, fun _ => none, fun k => if k = "who" then some "x\nsuccess \"y\"" else none, ["7", "é"]⟩,
   ⟨sampleConf, fun _ => none, fun k => if k = "who" then some "{}" else none, ["\r\n"]⟩]

example : readFile [false, true, true, true] ((run 0 (⟨none, []⟩ : St Nat)
      (.make false true [10] :: ["success \"x\\nsuccess \\\"y\\\"\" \"7\" \"'\\u00e9'\"", "success \"{}\" {0:d} {1!r}"].map
        fun l => .emit 0 (Utf8.encode (points l)))).file.getD []) =
    [some [.plain (points "success"), .text (points "x\nsuccess \"y\""), .text (points "7"), .text (points "'é'")],
     some [.plain (points "success"), .text (points "{}"), .plain (points "{0:d}"), .plain (points "{1!r}")]] := by
  rw [C92_read_log entryPs entryPs_ok entryPs_solid sampleEvs [false, true, true, true]
    (by intro e he
        simp only [sampleEvs, List.mem_cons, List.not_mem_nil, or_false] at he
        rcases he with rfl | rfl <;> decide +kernel)
    (by intro e he
        simp only [sampleEvs, List.mem_cons, List.not_mem_nil, or_false] at he
        rcases he with rfl | rfl <;> exact sampleConf_calm)
    (by intro e he p hp hq s hs
        simp only [sampleEvs, List.mem_cons, List.not_mem_nil, or_false] at he
        rcases he with rfl | rfl <;> (rw [entryPs_text _ _ p hp hq s hs]; decide))
    (by intro p hp
        simp only [entryPs, List.mem_cons, List.not_mem_nil, or_false] at hp
        rcases hp with rfl | rfl | rfl | rfl <;> decide +kernel)]
  · decide +kernel
  · decide +kernel

end Verif.LogFile
