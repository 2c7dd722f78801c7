import Verif.Spec.Story
import Verif.Props.Script
import Verif.Props.LogFile
import Verif.Props.Fields
/-!
# C115: the log file of a program tells what happened
-/
namespace Verif.Story

open Verif.LineOf Verif.Tmpl Verif.LogFile
open scoped List

theorem lines_kind (text : Exc → String → Bool → String) (p : Script) :
    ∀ b, ∀ ln ∈ (p.lines text b).1, ln.kind ≠ .exception := by
  induction p with
  | skip => intro b ln h; simp [Script.lines] at h
  | raise e => intro b ln h; simp [Script.lines] at h
  | seq p q ihp ihq =>
    intro b ln h
    have h1 := ihp b
    simp only [Script.lines] at h
    rcases hp : p.lines text b with ⟨ls, b', x⟩
    rw [hp] at h h1
    cases x with
    | some e => exact h1 ln h
    | none =>
      rcases List.mem_append.1 h with h | h
      · exact h1 ln h
      · exact ihq b' ln h
  | «catch» p q ihp ihq =>
    intro b ln h
    have h1 := ihp b
    simp only [Script.lines] at h
    rcases hp : p.lines text b with ⟨ls, b', x⟩
    rw [hp] at h h1
    cases x with
    | none => exact h1 ln h
    | some e =>
      rcases List.mem_append.1 h with h | h
      · exact h1 ln h
      · exact ihq b' ln h
  | warn m =>
    intro b ln h
    simp only [Script.lines, List.mem_map] at h
    obtain ⟨b', -, rfl⟩ := h
    simp
  | set k v => intro b ln h; simp [Script.lines] at h
  | finish good m => intro b ln h; simp [Script.lines] at h
  | comment m =>
    intro b ln h
    simp only [Script.lines, List.mem_singleton] at h
    subst h; simp
  | block level name data swallow p ih =>
    intro b ln h
    simp only [Script.lines, List.cons_append, List.mem_cons, List.mem_append, List.not_mem_nil, or_false] at h
    rcases h with rfl | h | rfl
    · simp
    · exact ih _ ln h
    · simp

theorem read_ne_base (n : Fields.Names) (w : World) (e : Event) (f : Fields.Field) : Fields.read n w e f ≠ .base := by
  unfold Fields.read
  cases w.acts e.act with
  | none => simp
  | some x =>
    cases f <;> simp only [Fields.getter, Fields.attr] <;> first | (simp; done) | (split <;> simp)

theorem value_ne_base {r : Render} (hr : Sound r) (w : World) {v : Sens.Res Fields.FVal} (hv : v ≠ .base) : r.value w v ≠ .base := by
  unfold Render.value
  split <;> try simp
  · rename_i e
    split <;> try simp
    rename_i h
    exact absurd h (hr.message w e)
  · exact absurd rfl hv

theorem conf_calm {r : Render} (hr : Sound r) (w : World) (e : Event) : (r.conf w e).Calm where
  fmt := hr.fmt
  getter := by
    intro k f h
    simp only [Render.conf, builtinMap, Option.map_eq_some_iff] at h
    obtain ⟨b, -, rfl⟩ := h
    simp only [mkDef, ne_eq, Option.some.injEq]
    split
    · exact value_ne_base hr w (read_ne_base _ _ _ _)
    · simp
  numbers := by
    intro i
    by_contra h
    obtain ⟨f, hf⟩ := Option.ne_none_iff_exists'.1 h
    have := (builtin_names _ (r.conf w e).nothing r.fmt _ f hf).1
    rw [String.toList_ofList] at this
    rw [List.all_eq_true.2 (dec_digits i)] at this
    cases this

theorem parts_ok : ∀ p ∈ parts, p.Ok := by
  intro p hp
  simp only [parts, List.mem_cons, List.not_mem_nil, or_false] at hp
  rcases hp with rfl | rfl | rfl <;> simp [Part.Ok, Ordinary, Tmpl.Balanced]

theorem parts_solid : ∀ p ∈ parts, p.Solid := by
  intro p hp
  simp only [parts, List.mem_cons, List.not_mem_nil, or_false] at hp
  rcases hp with rfl | rfl | rfl <;> exact ⟨by simp, by decide +kernel⟩

/-- An event in the state it is rendered in, as in C92. -/
def ev (r : Render) (at_ : Kind × Event → World) (q : Kind × Event) : LogFile.Ev V :=
  ⟨r.conf (at_ q) q.2, fun _ => none, fun k => ((at_ q).dataOf q.2.act k).map .data, []⟩

theorem def_status (r : Render) (w : World) (e : Event) : (r.conf w e).defs "status_str" =
    some ⟨['s'], false, some (r.value w (Fields.read r.names w e .statusStr))⟩ := by
  rfl

theorem def_name (r : Render) (w : World) (e : Event) : (r.conf w e).defs "action_name" =
    some ⟨['s'], true, some (r.value w (Fields.read r.names w e .actionName))⟩ := by
  rfl

theorem def_message (r : Render) (w : World) (e : Event) : (r.conf w e).defs "event_message" =
    some ⟨['s'], true, some (r.value w (Fields.read r.names w e .eventMessage))⟩ := by
  rfl

theorem text_known {c : Conf V} {dataMap : String → Option V} {k : String} {q : Bool} {v : V} (hd : dataMap k = none)
    (hk : c.defs k = some ⟨['s'], q, some (.ok v)⟩) :
    Part.text c (fun _ => none) dataMap [] (.name k.toList none []) = c.fmt [] none ['s'] [] v := by
  simp only [Part.text, String.ofList_toList, named, hd, hk, if_true, Option.map_some, Option.getD_some]

theorem word_eq (s : Status) : Fields.statusText s = word s := by cases s <;> rfl

theorem text_status {r : Render} (hr : Sound r) (at_ : Kind × Event → World) (q : Kind × Event) {x : Act}
    (hx : (at_ q).acts q.2.act = some x) (hn : (at_ q).dataOf q.2.act "status_str" = none) :
    Part.text (ev r at_ q).conf (fun _ => none) (ev r at_ q).dataMap [] (.name "status_str".toList none []) =
      .ok (word q.2.status) := by
  rw [text_known (by simp only [ev, hn, Option.map_none]) (q := false) (v := .text (word q.2.status))]
  · exact hr.text _
  · change (r.conf (at_ q) q.2).defs "status_str" = _
    rw [def_status, Fields.read, hx]
    simp only [Fields.getter, Render.value, word_eq]

/-- What the three fields of an event show. -/
theorem readings_eq {r : Render} (hr : Sound r) (at_ : Kind × Event → World) (q : Kind × Event) {x : Act}
    (hx : (at_ q).acts q.2.act = some x)
    (hn : ∀ k ∈ ["status_str", "action_name", "event_message"], (at_ q).dataOf q.2.act k = none) :
    ∃ m, (ev r at_ q).readings parts = [.plain (points (word q.2.status)), .text (points x.name), m] ∧
      ('{' ∉ q.2.msg.toList → m = .text (points q.2.msg)) ∧
      (∀ text, r.message (at_ q) q.2 = .ok text → m = .text (points text)) ∧
      (r.message (at_ q) q.2 = .exc → m = .plain (points "{event_message}")) := by
  have hraise : r.message (at_ q) q.2 = .exc →
      Part.reading (ev r at_ q).conf (fun _ => none) (ev r at_ q).dataMap [] (.name "event_message".toList none []) =
        .plain (points "{event_message}") := by
    intro hm
    have h3 : Part.text (ev r at_ q).conf (fun _ => none) (ev r at_ q).dataMap [] (.name "event_message".toList none []) =
        .exc := by
      have hk : (ev r at_ q).conf.defs "event_message" = some ⟨['s'], true, some .exc⟩ := by
        change (r.conf (at_ q) q.2).defs "event_message" = _
        rw [def_message, Fields.read, hx]
        simp only [Fields.getter, Render.value, hm]
      have hz : (ev r at_ q).dataMap "event_message" = none := by
        simp only [ev, hn "event_message" (by simp), Option.map_none]
      simp only [Part.text, String.ofList_toList, named, hz, hk]
    simp only [Part.reading, h3]
    congr 1
  have hd : ∀ k ∈ ["status_str", "action_name", "event_message"], (ev r at_ q).dataMap k = none := by
    intro k hk
    simp only [ev, hn k hk, Option.map_none]
  suffices hs : ∀ text, r.message (at_ q) q.2 = .ok text →
      Part.reading (ev r at_ q).conf (fun _ => none) (ev r at_ q).dataMap [] (.name "event_message".toList none []) =
        .text (points text) by
    refine ⟨Part.reading (ev r at_ q).conf (fun _ => none) (ev r at_ q).dataMap [] (.name "event_message".toList none []), ?_,
      fun hm => hs _ (hr.plain _ _ hm), hs, hraise⟩
    clear hs
    have h1 := text_status hr at_ q hx (hn _ (by simp))
    have h2 : Part.text (ev r at_ q).conf (fun _ => none) (ev r at_ q).dataMap [] (.name "action_name".toList none []) =
        .ok x.name := by
      rw [text_known (hd _ (by simp)) (q := true) (v := .text x.name)]
      · exact hr.text _
      · change (r.conf (at_ q) q.2).defs "action_name" = _
        rw [def_name, Fields.read, hx]
        simp only [Fields.getter, Render.value]
    have q1 : Part.quoted (ev r at_ q).conf (.name "status_str".toList none []) = false := by
      simp only [Part.quoted, String.ofList_toList]
      change (match (r.conf (at_ q) q.2).defs "status_str" with | some f => f.quote | none => true) = _
      rw [def_status]
    have q2 : Part.quoted (ev r at_ q).conf (.name "action_name".toList none []) = true := by
      simp only [Part.quoted, String.ofList_toList]
      change (match (r.conf (at_ q) q.2).defs "action_name" with | some f => f.quote | none => true) = _
      rw [def_name]
    simp only [Ev.readings, parts, numbered, List.map_cons, List.map_nil]
    have e1 : Part.reading (ev r at_ q).conf (ev r at_ q).kwargs (ev r at_ q).dataMap (ev r at_ q).args
        (.name "status_str".toList none []) = .plain (points (word q.2.status)) := by
      change Part.reading (ev r at_ q).conf (fun _ => none) (ev r at_ q).dataMap [] _ = _
      simp only [Part.reading, h1, q1]
      rfl
    have e2 : Part.reading (ev r at_ q).conf (ev r at_ q).kwargs (ev r at_ q).dataMap (ev r at_ q).args
        (.name "action_name".toList none []) = .text (points x.name) := by
      change Part.reading (ev r at_ q).conf (fun _ => none) (ev r at_ q).dataMap [] _ = _
      simp only [Part.reading, h2, q2, if_true]
    rw [e1, e2]
    rfl
  · intro text hm
    have h3 : Part.text (ev r at_ q).conf (fun _ => none) (ev r at_ q).dataMap [] (.name "event_message".toList none []) =
        .ok text := by
      rw [text_known (hd _ (by simp)) (q := true) (v := .text text)]
      · exact hr.text _
      · change (r.conf (at_ q) q.2).defs "event_message" = _
        rw [def_message, Fields.read, hx]
        simp only [Fields.getter, Render.value, hm]
    have q3 : Part.quoted (ev r at_ q).conf (.name "event_message".toList none []) = true := by
      simp only [Part.quoted, String.ofList_toList]
      change (match (r.conf (at_ q) q.2).defs "event_message" with | some f => f.quote | none => true) = _
      rw [def_message]
    simp only [Part.reading, h3, q3, if_true]

theorem quoted_eq (r : Render) (at_ : Kind × Event → World) (q : Kind × Event) :
    parts.map (Part.quoted (ev r at_ q).conf) = [false, true, true] := by
  simp only [parts, List.map_cons, List.map_nil, Part.quoted, String.ofList_toList]
  change [match (r.conf (at_ q) q.2).defs "status_str" with | some f => f.quote | none => true,
    match (r.conf (at_ q) q.2).defs "action_name" with | some f => f.quote | none => true,
    match (r.conf (at_ q) q.2).defs "event_message" with | some f => f.quote | none => true] = _
  rw [def_status, def_name, def_message]

/-- What the formatter makes of an event. -/
theorem entry_ok {r : Render} (hr : Sound r) (at_ : Kind × Event → World) (q : Kind × Event) :
    ∃ t, r.entry template (at_ q) q.2 = some t ∧ (ev r at_ q).entry parts = .ok t := by
  have he : (ev r at_ q).entry parts =
      .ok (String.join ((numbered 0 (spaced parts)).map (Part.entry (ev r at_ q).conf jsonQuoter (ev r at_ q).kwargs
        (ev r at_ q).dataMap (ev r at_ q).args))) :=
    C89_entry (conf_calm hr (at_ q) q.2) jsonQuoter_ne_base _ (spaced_ok parts parts_ok) _ _ _
  refine ⟨_, ?_, he⟩
  unfold Render.entry
  have : formatAll (r.conf (at_ q) q.2) defaultDefaulter (defaultQuoter (r.conf (at_ q) q.2) jsonQuoter) template
      (fun _ => none) (fun k => ((at_ q).dataOf q.2.act k).map .data) [] = (ev r at_ q).entry parts := rfl
  rw [this, he]

theorem allPass_iff {E : Type} (e : E) (fs : List (E → Option Bool)) :
    Sens.allPass e fs = some true ↔ fs.all (fun f => decide (f e = some true)) = true := by
  induction fs with
  | nil => simp [Sens.allPass]
  | cons f fs ih =>
    simp only [Sens.allPass, List.all_cons, Bool.and_eq_true, decide_eq_true_eq, ← ih]
    cases hf : f e with
    | none => simp
    | some b =>
      cases hg : Sens.allPass e fs with
      | none => simp
      | some c => cases b <;> cases c <;> simp

/-- A sink hands on the entries of the events that are selected. -/
theorem emitted_sel {r : Render} (hr : Sound r) (at_ : Kind × Event → World) {on : List String}
    {filters : List (Kind × Event → Option Bool)} {s : Sens.Sink (Kind × Event)}
    (hs : sinkOf r template on filters at_ = some s) (evs : List (Kind × Event)) (hk : ∀ q ∈ evs, q.1 ≠ .exception) :
    ((Sens.emitted s (evs.filterMap fun q => (sensKind q.1).map fun k => (k, q))).map fun x => x.2.2).map Sens.Res.ok =
      (evs.filter fun q => decide (hookWord q.1 ∈ on) && filters.all fun f => decide (f q = some true)).map
        fun q => (ev r at_ q).entry parts := by
  have hs' : s = ⟨[Sens.Kind.begin, .warn, .end', .comment].filter fun k => on.contains k.name, filters,
      fun q => r.entry template (at_ q) q.2⟩ := by
    unfold sinkOf Sens.mkSink at hs
    split at hs
    · cases hs
    · exact (Option.some.inj hs).symm
  subst hs'
  induction evs with
  | nil => rfl
  | cons q evs ih =>
    have ih' := ih fun q hq => hk q (List.mem_cons_of_mem _ hq)
    obtain ⟨k, hkq, hkn⟩ : ∃ k, sensKind q.1 = some k ∧ k.name = hookWord q.1 := by
      have := hk q List.mem_cons_self
      cases h : q.1 <;> simp_all [sensKind, hookWord, Sens.Kind.name]
    obtain ⟨t, ht, he⟩ := entry_ok hr at_ q
    have hmem : k ∈ [Sens.Kind.begin, .warn, .end', .comment].filter (fun k => on.contains k.name) ↔ hookWord q.1 ∈ on := by
      rw [List.mem_filter, hkn]
      constructor
      · intro h; simpa using h.2
      · intro h; exact ⟨by cases k <;> simp, by simpa using h⟩
    rw [List.filterMap_cons, hkq]
    simp only [Option.map_some, Sens.emitted, List.flatMap_cons, List.map_append]
    have key : ((Sens.handle (⟨[Sens.Kind.begin, .warn, .end', .comment].filter fun k => on.contains k.name, filters,
        fun q => r.entry template (at_ q) q.2⟩ : Sens.Sink (Kind × Event)) k q).map fun x => x.2.2).map Sens.Res.ok =
        if (decide (hookWord q.1 ∈ on) && filters.all fun f => decide (f q = some true)) then [(ev r at_ q).entry parts] else [] := by
      unfold Sens.handle
      by_cases h1 : hookWord q.1 ∈ on
      · rw [if_pos (hmem.2 h1)]
        by_cases h2 : filters.all (fun f => decide (f q = some true)) = true
        · have h3 := (allPass_iff q filters).2 h2
          simp [h1, h2, h3, ht, he]
        · have h3 : Sens.allPass q filters ≠ some true := fun h => h2 ((allPass_iff q filters).1 h)
          have h4 : filters.isEmpty = false := by
            cases filters with
            | nil => simp at h2
            | cons f fs => rfl
          rw [if_pos ⟨h4, h3⟩]
          simp only [h1, decide_true, Bool.true_and, h2]
          rfl
      · rw [if_neg (fun h => h1 (hmem.1 h))]
        simp [h1]
    rw [key, List.filter_cons (xs := evs)]
    have ih'' : ((Sens.emitted (⟨[Sens.Kind.begin, .warn, .end', .comment].filter fun k => on.contains k.name, filters,
        fun q => r.entry template (at_ q) q.2⟩ : Sens.Sink (Kind × Event))
        (evs.filterMap fun q => (sensKind q.1).map fun k => (k, q))).map fun x => x.2.2).map Sens.Res.ok = _ := ih'
    simp only [Sens.emitted] at ih''
    rw [ih'']
    split <;> simp

/-- A file of the entries of events that say these lines tells these lines. -/
theorem told_file {env : Env} {f : World} {r : Render} (hr : Sound r) (at_ : Kind × Event → World) {evs : List (Kind × Event)}
    {ls : List Line} (hdel : evs.map (viewEv f) = ls.map some) (hat : Rendered env f at_ evs) (hno : NoClash at_ evs)
    {texts : List String} (htexts : texts.map Sens.Res.ok = evs.map fun q => (ev r at_ q).entry parts) :
    List.Forall₂ Told (ls.zip (evs.map fun q => r.message (at_ q) q.2)) (readFile [false, true, true]
      (((Files.run 0 (⟨none, []⟩ : Files.St Nat) (.make false true [10] :: texts.map fun x =>
        .emit 0 (Utf8.encode (x.toList.map Char.toNat)))).file).getD [])) := by
  have hread : readFile [false, true, true] (((Files.run 0 (⟨none, []⟩ : Files.St Nat) (.make false true [10] :: texts.map fun x =>
        .emit 0 (Utf8.encode (x.toList.map Char.toNat)))).file).getD []) = (evs.map (ev r at_)).map fun e => some (e.readings parts) := by
    have := C92_read_log parts parts_ok parts_solid (evs.map (ev r at_)) [false, true, true]
      (by intro e he; obtain ⟨q, -, rfl⟩ := List.mem_map.1 he; exact quoted_eq r at_ q)
      (by intro e he; obtain ⟨q, -, rfl⟩ := List.mem_map.1 he; exact conf_calm hr _ _)
      (by
        intro e he
        obtain ⟨q, hq, rfl⟩ := List.mem_map.1 he
        intro pt hpt hqt t ht
        obtain ⟨hreach, hpub, -⟩ := hat q hq
        obtain ⟨_, _, x, hx, _⟩ := hreach.evInv.pub q.1 q.2 hpub
        have hqs := quoted_eq r at_ q
        simp only [parts, List.map_cons, List.map_nil, List.cons.injEq] at hqs
        simp only [parts, List.mem_cons, List.not_mem_nil, or_false] at hpt
        rcases hpt with rfl | rfl | rfl
        · have h1 := text_status hr at_ q hx (hno q hq _ (by simp))
          have h2 : Part.text (ev r at_ q).conf (fun _ => none) (ev r at_ q).dataMap [] (.name "status_str".toList none []) = .ok t := ht
          rw [h1, Sens.Res.ok.injEq] at h2
          rw [← h2]
          cases q.2.status <;> decide +kernel
        · rw [hqs.2.1] at hqt; cases hqt
        · rw [hqs.2.2.1] at hqt; cases hqt)
      (by
        intro pt hpt
        simp only [parts, List.mem_cons, List.not_mem_nil, or_false] at hpt
        rcases hpt with rfl | rfl | rfl <;> decide +kernel)
      texts (by rw [htexts, List.map_map]; rfl)
    rw [← this]
    rfl
  rw [hread, List.map_map]
  clear hread htexts
  induction evs generalizing ls with
  | nil =>
    cases ls with
    | nil => exact .nil
    | cons ln ls => simp at hdel
  | cons q evs ih =>
    cases ls with
    | nil => simp at hdel
    | cons ln ls =>
      simp only [List.map_cons, List.cons.injEq] at hdel
      rw [List.map_cons, List.map_cons, List.zip_cons_cons]
      refine .cons ?_ (ih hdel.2 (fun q hq => hat q (List.mem_cons_of_mem _ hq)) (fun q hq => hno q (List.mem_cons_of_mem _ hq)))
      obtain ⟨hreach, hpub, its, hf⟩ := hat q List.mem_cons_self
      obtain ⟨_, _, x, hx, _⟩ := hreach.evInv.pub q.1 q.2 hpub
      obtain ⟨y, hy, g⟩ := hreach.grows its hx
      have hname : y.name = x.name := by
        have := g.fixed
        simp only [Act.fixed, Prod.mk.injEq] at this
        exact this.2.2.1
      obtain ⟨m, h1, h2, h2'⟩ := readings_eq hr at_ q hx (hno q List.mem_cons_self)
      have h3 : ln.status = q.2.status ∧ ln.name = y.name ∧ ln.msg = q.2.msg := by
        have hv := hdel.1
        rw [← hf] at hy
        simp only [viewEv, hy] at hv
        split at hv
        · cases hv; exact ⟨rfl, rfl, rfl⟩
        · rw [Option.map_eq_some_iff] at hv
          obtain ⟨z, -, rfl⟩ := hv
          exact ⟨rfl, rfl, rfl⟩
      refine ⟨m, ?_, ?_, h2'⟩
      · simp only [h3.1, h3.2.1, hname, ← h1]; rfl
      · simp only [h3.2.2]; exact h2

/-- **C115.**  A script run on a new logger, synchronous or not, that has a `SensibleSink` writing to a new UTF-8 file with the
template `{status_str} {action_name} {event_message}`, for the kinds of events listed in `on` and with any filters: after the script and
a flush the file can be read back, and tells the lines of the transcript that are selected, one by one, in order, and nothing else.  As
long as no action has data under the names of these fields: see `C115_violated`. -/
theorem C115_selected_partial {env : Env} (hc : env.Calm) {w : World} (hw : Reachable env w) {l : LogId} {L : Log}
    (hL : w.logs l = some L) (hnew : published w l = []) (ha : w.active l = none) {p : Script} (hp : p.Ok)
    (hlen : (p.lines env.text none).1.length ≤ QUEUE_LIMIT) {i : SinkId} (hi : i ∈ L.sinks)
    (hh : ∀ k, k ≠ .exception → env.hasHook i k) {r : Render} (hr : Sound r) (at_ : Kind × Event → World)
    (on : List String) (filters : List (Kind × Event → Option Bool)) :
    let f := (step env (exec env (p.compile l none Prog.leave) w).1 (.flush l)).1
    let evs := ofLogger l (received i f.trace)
    Rendered env f at_ evs → NoClash at_ evs → ∀ s, sinkOf r template on filters at_ = some s →
      evs.length = (p.lines env.text none).1.length ∧
      List.Forall₂ Told ((((p.lines env.text none).1.zip evs).filter (Selected on filters)).map fun x => (x.1, r.message (at_ x.2) x.2.2))
        (readFile [false, true, true] (fileOf s evs)) := by
  intro f evs hat hno s hs
  obtain ⟨-, hdel⟩ := C113_delivered hc hw hL hnew ha hp hlen hi hh
  change evs.map (viewEv f) = (p.lines env.text none).1.map some at hdel
  have hkind : ∀ q ∈ evs, q.1 ≠ .exception := by
    intro q hq
    have : viewEv f q ∈ (p.lines env.text none).1.map some := by rw [← hdel]; exact List.mem_map_of_mem hq
    obtain ⟨ln, h1, h2⟩ := List.mem_map.1 this
    rw [← viewEv_kind h2.symm]
    exact lines_kind _ p none ln h1
  refine ⟨by simpa using congrArg List.length hdel, ?_⟩
  have hsel : ∀ (xs : List (Kind × Event)) (ls : List Line), xs.map (viewEv f) = ls.map some →
      ((ls.zip xs).filter (Selected on filters)).map Prod.snd =
        xs.filter (fun q => decide (hookWord q.1 ∈ on) && filters.all fun g => decide (g q = some true)) ∧
      (((ls.zip xs).filter (Selected on filters)).map Prod.snd).map (viewEv f) =
        (((ls.zip xs).filter (Selected on filters)).map Prod.fst).map some := by
    intro xs
    induction xs with
    | nil => intro ls h; simp
    | cons q xs ih =>
      intro ls h
      cases ls with
      | nil => simp at h
      | cons ln ls =>
        simp only [List.map_cons, List.cons.injEq] at h
        obtain ⟨i1, i2⟩ := ih ls h.2
        have hq : Selected on filters (ln, q) = (decide (hookWord q.1 ∈ on) && filters.all fun g => decide (g q = some true)) := by
          unfold Selected; rw [viewEv_kind h.1]
        rw [List.zip_cons_cons, List.filter_cons, List.filter_cons, hq]
        split
        · simp only [List.map_cons, i1]
          rw [← i2, i1, h.1]
          exact ⟨trivial, rfl⟩
        · exact ⟨i1, i2⟩
  obtain ⟨h1, h2⟩ := hsel evs _ hdel
  generalize ((p.lines env.text none).1.zip evs).filter (Selected on filters) = zs at h1 h2
  have hsub : ∀ q ∈ zs.map Prod.snd, q ∈ evs := fun q hq => List.mem_of_mem_filter (h1 ▸ hq)
  have hem := emitted_sel hr at_ hs evs hkind
  rw [← h1] at hem
  have := told_file hr at_ h2 (fun q hq => hat q (hsub q hq)) (fun q hq => hno q (hsub q hq)) hem
  have hz : (zs.map Prod.fst).zip ((zs.map Prod.snd).map fun q => r.message (at_ q) q.2) =
      zs.map fun x => (x.1, r.message (at_ x.2) x.2.2) := by
    rw [List.map_map, List.zip_map']
    rfl
  rw [hz, List.map_map] at this
  exact this

/-- **C115**, for all events and without filters: the file is the transcript, line by line. -/
theorem C115_story_partial {env : Env} (hc : env.Calm) {w : World} (hw : Reachable env w) {l : LogId} {L : Log}
    (hL : w.logs l = some L) (hnew : published w l = []) (ha : w.active l = none) {p : Script} (hp : p.Ok)
    (hlen : (p.lines env.text none).1.length ≤ QUEUE_LIMIT) {i : SinkId} (hi : i ∈ L.sinks)
    (hh : ∀ k, k ≠ .exception → env.hasHook i k) {r : Render} (hr : Sound r) (at_ : Kind × Event → World) :
    let f := (step env (exec env (p.compile l none Prog.leave) w).1 (.flush l)).1
    let evs := ofLogger l (received i f.trace)
    let shown := evs.map fun q => r.message (at_ q) q.2
    Rendered env f at_ evs → NoClash at_ evs → ∀ s, sink r template at_ = some s →
      shown.length = (p.lines env.text none).1.length ∧
      List.Forall₂ Told ((p.lines env.text none).1.zip shown) (readFile [false, true, true] (fileOf s evs)) := by
  intro f evs shown hat hno s hs
  obtain ⟨h1, h2⟩ := C115_selected_partial hc hw hL hnew ha hp hlen hi hh hr at_ Sens.EVENTS [] hat hno s hs
  refine ⟨by simpa [shown] using h1, ?_⟩
  rw [List.filter_eq_self.2] at h2
  · have hz : ((p.lines env.text none).1.zip evs).map (fun x => (x.1, r.message (at_ x.2) x.2.2)) = (p.lines env.text none).1.zip shown := by
      simp only [shown, List.zip_map_right]
      rfl
    rw [← hz]
    exact h2
  · intro x _
    unfold Selected hookWord
    cases x.1.kind <;> simp [Sens.EVENTS]

/-! ### A case, and what data can do -/

/-- Messages without fields as they are; `Val.other _` is the text `success`. -/
def sampleRender : Render where
  names := ⟨fun _ => "", fun _ => "info", id, 0, fun _ => true⟩
  message _ e := if '{' ∈ e.msg.toList then .exc else .ok e.msg
  fmt _ _ _ _ v := match v with
    | .text s => .ok s
    | .data (.other _) => .ok "success"
    | _ => .exc

theorem sampleRender_sound : Sound sampleRender where
  text _ := rfl
  fmt p cv s o v := by cases v <;> simp [sampleRender] <;> split <;> simp
  message w e := by simp only [sampleRender]; split <;> simp
  plain w e h := by simp only [sampleRender, if_neg h]

open Sample in
/-- The end of a script in the sample world. -/
def sampleEnd (p : Script) : World :=
  (step quiet (exec quiet (p.compile 0 none Prog.leave) (run quiet World.init setupAsync)).1 (.flush 0)).1

/-- The events sink 0 got. -/
def sampleEvs (p : Script) : List (Kind × Event) := ofLogger 0 (received 0 (sampleEnd p).trace)

/-- The events of a script are published in states that lead to its end. -/
theorem sampleRendered (p : Script) (hp : p.Ok) (hpub : ∀ q ∈ sampleEvs p, q ∈ (sampleEnd p).pub) :
    Rendered Sample.quiet (sampleEnd p) (fun _ => sampleEnd p) (sampleEvs p) := by
  intro q hq
  refine ⟨?_, hpub q hq, [], rfl⟩
  obtain ⟨w', e, h, ran⟩ := script_ran Sample.quiet_calm p (l := 0)
    (w := run Sample.quiet World.init Sample.setupAsync) (Reachable.good ⟨Sample.setupAsync, rfl⟩) rfl hp
    (show At _ 0 none none from rfl) Prog.leave
  rw [exec_leave] at e
  obtain ⟨its, hits, -⟩ := ran.its
  refine ⟨Sample.setupAsync ++ its ++ [.op (.flush 0)], ?_⟩
  rw [run_append, run_append, ← hits]
  have : (exec Sample.quiet (p.compile 0 none Prog.leave) (run Sample.quiet World.init Sample.setupAsync)).1 = w' :=
    congrArg Prod.fst e
  unfold sampleEnd
  rw [this]; rfl

example : Sample.visit.Ok ∧ Rendered Sample.quiet (sampleEnd Sample.visit) (fun _ => sampleEnd Sample.visit) (sampleEvs Sample.visit) ∧
    NoClash (fun _ => sampleEnd Sample.visit) (sampleEvs Sample.visit) ∧
    (sink sampleRender template fun _ => sampleEnd Sample.visit).isSome ∧ (sampleEvs Sample.visit).length = 7 := by
  have hok : Sample.visit.Ok := ⟨trivial, ⟨by simp, ⟨⟨by simp, trivial, trivial⟩, trivial⟩, trivial⟩⟩
  exact ⟨hok, sampleRendered _ hok (by decide +kernel), by unfold NoClash; decide +kernel, rfl, by decide +kernel⟩

/-- A sink for ends and comments, and no exceptions: three of the seven lines are selected. -/
example : (sinkOf sampleRender template ["end", "comment"] [fun q => some (decide (q.2.status ≠ .exception))]
      fun _ => sampleEnd Sample.visit).isSome ∧
    ((((Sample.visit.lines Sample.quiet.text none).1.zip (sampleEvs Sample.visit)).filter
      (Selected ["end", "comment"] [fun q => some (decide (q.2.status ≠ .exception))])).map fun x => x.1.msg) =
      ["starting", "noticed", "gave up"] := by
  exact ⟨rfl, by decide +kernel⟩

/-- The claim without conditions on the data. -/
def Story : Prop :=
  ∀ (env : Env) (_ : env.Calm) (w : World) (_ : Reachable env w) (l : LogId) (L : Log) (_ : w.logs l = some L)
    (_ : published w l = []) (_ : w.active l = none) (p : Script) (_ : p.Ok)
    (_ : (p.lines env.text none).1.length ≤ QUEUE_LIMIT) (i : SinkId) (_ : i ∈ L.sinks)
    (_ : ∀ k, k ≠ .exception → env.hasHook i k) (r : Render) (_ : Sound r) (at_ : Kind × Event → World),
    let f := (step env (exec env (p.compile l none Prog.leave) w).1 (.flush l)).1
    let evs := ofLogger l (received i f.trace)
    let shown := evs.map fun q => r.message (at_ q) q.2
    Rendered env f at_ evs → ∀ s, sink r template at_ = some s →
      shown.length = (p.lines env.text none).1.length ∧
      List.Forall₂ Told ((p.lines env.text none).1.zip shown) (readFile [false, true, true] (fileOf s evs))

/-- `with log.action('info', 'pay', status_str='success'): raise boom`, caught. -/
def forged : Script := .catch (.block 20 "pay" [("status_str", .other 0)] false (.raise Sample.boom)) .skip

/-- **C115** is false of the code: data of the application comes before the built-in fields, so an action that is made with data
named `status_str` has the status it likes in the log file. -/
theorem C115_violated : ¬ Story := by
  intro h
  have hok : forged.Ok := ⟨⟨by simp, trivial⟩, trivial⟩
  have h1 := h Sample.quiet Sample.quiet_calm _ ⟨Sample.setupAsync, rfl⟩ 0 _ rfl rfl rfl forged hok
    (by unfold QUEUE_LIMIT; decide +kernel) 0 (by decide +kernel) (fun _ _ => rfl) sampleRender sampleRender_sound
    (fun _ => sampleEnd forged) (sampleRendered forged hok (by decide +kernel)) _ rfl
  have h2 : ((readFile [false, true, true] (fileOf ⟨[.begin, .warn, .end', .comment], [],
      fun q => sampleRender.entry template (sampleEnd forged) q.2⟩ (sampleEvs forged)))).map (fun o => o.bind List.head?) =
      [some (.plain (points "success")), some (.plain (points "success"))] := by decide +kernel
  have h3 : (forged.lines Sample.quiet.text none).1.map (·.status) = [.begin, .exception] := by decide +kernel
  have h4 : ∀ (a : List (Line × Sens.Res String)) (b : List (Option (List Reading))), List.Forall₂ Told a b →
      b.map (fun o => o.bind List.head?) = (a.map Prod.fst).map fun ln => some (.plain (points (word ln.status))) := by
    intro a b hab
    induction hab with
    | nil => rfl
    | cons h _ ih =>
      obtain ⟨m, rfl, -⟩ := h
      simp [ih]
  have h5 := h4 _ _ h1.2
  rw [List.map_fst_zip (by rw [h1.1])] at h5
  have h6 : (forged.lines Sample.quiet.text none).1.map (fun ln => some (Reading.plain (points (word ln.status)))) =
      ((forged.lines Sample.quiet.text none).1.map (·.status)).map fun st => some (.plain (points (word st))) := by
    rw [List.map_map]; rfl
  rw [h6, h3] at h5
  exact absurd (h2.symm.trans h5) (by decide +kernel)

end Verif.Story
