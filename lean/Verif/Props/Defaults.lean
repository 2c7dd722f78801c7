import Verif.Props.Message
import Verif.Props.Objects
/-!
# C70 at the calls: which default message an event gets
-/
namespace Verif
variable {env : Env} {w : World} {a : ActId} {x : Act}

theorem finish_default (ht : x.isTrans = true → x.beginEv.isSome) (hx : w.acts a = some x) (st : Status) (s : String) (f : List Val)
    (kw : Dict) :
    let r := end_ env w a st s f kw none none
    (r.2 = none → ∃ y e, r.1.acts a = some y ∧ y.endEv = some e ∧ e.msg = s) ∧
    ∀ new, r.1.pub = w.pub ++ new → ∀ e, (Kind.end_, e) ∈ new → e.msg = s := by
  intro r
  rcases end_spec (env := env) hx ht st s f kw none none with ⟨b, e, h⟩ | ⟨b, y, hab, h⟩
  · refine ⟨fun _ => ⟨_, e, by rw [h.acts, updAct_same], rfl, h.emsg⟩, fun new hn e' he => ?_⟩
    have hp := h.pub
    rw [show (end_ env w a st s f kw none none).1.pub = w.pub ++ new from hn, List.append_assoc] at hp
    have hp := List.append_cancel_left hp
    rw [hp] at he
    rcases List.mem_append.1 he with he | he
    · split at he
      · simp at he
      · cases he
    · split at he
      · cases he
      · simp only [List.mem_singleton, Prod.mk.injEq, true_and] at he
        rw [he]; exact h.emsg
  · refine ⟨fun hn => ?_, fun new hn e' he => ?_⟩
    · rw [show r.2 = some y from h] at hn; cases hn
    · have hp := hab.pub
      rw [show (end_ env w a st s f kw none none).1.pub = w.pub ++ new from hn] at hp
      have hp := List.append_cancel_left hp
      rw [hp] at he
      simp at he

/-- **C70, which text.**  A begin event made without a message reads `name beginning`. -/
theorem C70_begin (hx : w.acts a = some x) (hh : x.handle = true) (hb : x.beginEv = none) {m : Option String} (hm : Unsaid m)
    (f : List Val) (kw : Dict) :
    ∃ e, e.msg = x.name ++ " beginning" ∧ e.act = a ∧ (step env w (.begin a m f kw)).1.pub = w.pub ++ [(.begin, e)] := by
  have hheld : w.held a = true := held_iff.2 ⟨x, hx, hh⟩
  rcases begin_spec (env := env) hx m f kw with ⟨b, hb', _⟩ | ⟨_, b, h1, _, _, _, _, h6, _, h8, _⟩
  · rw [hb] at hb'; cases hb'
  · refine ⟨b, ?_, h1, ?_⟩
    · rw [h6, falsy_unsaid hm, if_pos rfl]
    · simp only [step, guard, hheld, if_true, ret]
      exact h8

/-- Entering a `with` block too. -/
theorem C70_enter (hx : w.acts a = some x) (hh : x.handle = true) (hb : x.beginEv = none) :
    ∃ e, e.msg = x.name ++ " beginning" ∧ e.act = a ∧ (stepItem env w (.enter a)).pub = w.pub ++ [(.begin, e)] := by
  have hheld : w.held a = true := held_iff.2 ⟨x, hx, hh⟩
  have hx1 : ((w.setAct a { x with isTrans := true, defer := true }).setActive x.logger (some a)).acts a =
      some { x with isTrans := true, defer := true } := by
    simp [World.setActive, World.setAct, updAct]
  rcases begin_spec (env := env) hx1 none [] [] with ⟨b, hb', _⟩ | ⟨_, b, h1, _, _, _, _, h6, _, h8, _⟩
  · simp [hb] at hb'
  · refine ⟨b, h6, h1, ?_⟩
    simp only [stepItem, guard, hheld, if_true, ret, enter, hx]
    exact h8

/-- **C70, which text.**  An action ended without a message, by `success`, by `failure` or by leaving its block, gets the text
`name succeeded` or `name failed`, and `- ({data_map_repr})` after it if it had data before the call.  It is in the end event, if the
call returns, and in every end event the call publishes. -/
theorem C70_end (hr : Reachable env w) (hx : w.acts a = some x) (hh : x.handle = true) {m : Option String} (hm : Unsaid m)
    (f : List Val) (kw : Dict) :
    (let r := step env w (.success a m f kw);
      (r.2 = .ok → ∃ y e, r.1.acts a = some y ∧ y.endEv = some e ∧ e.msg = plainEnd x.name "succeeded" x.data) ∧
      ∀ new, r.1.pub = w.pub ++ new → ∀ e, (Kind.end_, e) ∈ new → e.msg = plainEnd x.name "succeeded" x.data) ∧
    (let r := step env w (.failure a m f kw);
      (r.2 = .ok → ∃ y e, r.1.acts a = some y ∧ y.endEv = some e ∧ e.msg = plainEnd x.name "failed" x.data) ∧
      ∀ new, r.1.pub = w.pub ++ new → ∀ e, (Kind.end_, e) ∈ new → e.msg = plainEnd x.name "failed" x.data) ∧
    (x.endEv = none → ∀ new, (stepItem env w (.exit a none)).pub = w.pub ++ new → ∀ e, (Kind.end_, e) ∈ new →
      e.msg = plainEnd x.name "succeeded" x.data) := by
  have hheld : w.held a = true := held_iff.2 ⟨x, hx, hh⟩
  have ht := hr.transOK a x hx
  refine ⟨?_, ?_, ?_⟩
  · have h := finish_default (env := env) ht hx .success (plainEnd x.name "succeeded" x.data) f kw
    simp only [step, guard, hheld, if_true, ret, success, hx]
    rw [show (" succeeded" : String) = " " ++ "succeeded" from rfl, endMsg_plain hm]
    refine ⟨fun hok => h.1 ?_, h.2⟩
    cases hc : (end_ env w a .success (plainEnd x.name "succeeded" x.data) f kw none none).2 with
    | none => rfl
    | some e => rw [hc] at hok; simp [Res.ofExc] at hok
  · have h := finish_default (env := env) ht hx .failure (plainEnd x.name "failed" x.data) f kw
    simp only [step, guard, hheld, if_true, ret, failure, hx]
    rw [show (" failed" : String) = " " ++ "failed" from rfl, endMsg_plain hm]
    refine ⟨fun hok => h.1 ?_, h.2⟩
    cases hc : (end_ env w a .failure (plainEnd x.name "failed" x.data) f kw none none).2 with
    | none => rfl
    | some e => rw [hc] at hok; simp [Res.ofExc] at hok
  · intro he new hn e hm'
    have hx1 : (w.setAct a { x with defer := false }).acts a = some { x with defer := false } := by simp [World.setAct, updAct]
    have h := finish_default (env := env) (w := w.setAct a { x with defer := false }) (x := { x with defer := false }) ht hx1 .success
      (plainEnd x.name "succeeded" x.data) [] []
    refine h.2 new ?_ e hm'
    rw [← show (w.setAct a { x with defer := false }).pub = w.pub from rfl] at hn
    rw [← hn]
    have hp : exitPublish env w a none =
        end_ env (w.setAct a { x with defer := false }) a .success (plainEnd x.name "succeeded" x.data) [] [] none none := by
      simp only [exitPublish, hx]
      split
      · rename_i ev hev; rw [he] at hev; cases hev
      · simp only [success, hx1]
        rw [show (" succeeded" : String) = " " ++ "succeeded" from rfl, endMsg_plain (x := { x with defer := false }) (.inl rfl)]
    simp only [stepItem, hheld, if_true, exit, hx, hp]
    cases hc : end_ env (w.setAct a { x with defer := false }) a .success (plainEnd x.name "succeeded" x.data) [] [] none none with
    | mk w2 o => cases o <;> rfl

/-- These are the texts the rendering theorem `C70_default_partial` is about. -/
theorem C70_texts (name : String) (data : Dict) :
    plainEnd name "succeeded" data = Msg.defaultMessage .success name (!data.isEmpty) ∧
    plainEnd name "failed" data = Msg.defaultMessage .failure name (!data.isEmpty) ∧
    name ++ " beginning" = Msg.defaultMessage .begin name (!data.isEmpty) := by
  simp only [plainEnd, Msg.defaultMessage]
  cases data <;> simp [String.append_assoc]

/-- C70 fails for data given by the call itself: the event of `act.success(**data)` on an action without data does not show the data,
though the action has it by then. -/
theorem C70_own_data_violated (hr : Reachable env w) (hx : w.acts a = some x) (hh : x.handle = true) (hd : x.data = [])
    (f : List Val) (kw : Dict) :
    (step env w (.success a none f kw)).2 = .ok →
      ∃ y e, (step env w (.success a none f kw)).1.acts a = some y ∧ y.endEv = some e ∧ e.msg = x.name ++ " succeeded" ∧
        y.data = Dict.update [] kw := by
  intro hok
  have hheld : w.held a = true := held_iff.2 ⟨x, hx, hh⟩
  simp only [step, guard, hheld, if_true, ret, success, hx] at hok ⊢
  rw [show (" succeeded" : String) = " " ++ "succeeded" from rfl, endMsg_plain (.inl rfl)] at hok ⊢
  rcases end_spec (env := env) hx (hr.transOK a x hx) .success (plainEnd x.name "succeeded" x.data) f kw none none with
    ⟨b, e, h⟩ | ⟨b, y, hab, h⟩
  · refine ⟨_, e, by rw [h.acts, updAct_same], rfl, ?_, by rw [hd]⟩
    rw [h.emsg, plainEnd, if_pos hd]
    simp [String.append_assoc]
  · rw [h] at hok; simp [Res.ofExc] at hok

namespace Sample
/-- A logger and an action without data, and one with. -/
def twoActs : World := run quiet World.init (setup ++ [mk "load", mk "save" [("n", .other 1)]])

example : ∃ x y, twoActs.acts 0 = some x ∧ x.handle = true ∧ x.data = [] ∧ twoActs.acts 1 = some y ∧ y.handle = true ∧ y.data ≠ [] ∧
    (step quiet twoActs (.success 0 none [] [("n", .other 1)])).2 = .ok ∧
    ((step quiet twoActs (.success 0 none [] [("n", .other 1)])).1.pub.map fun p => p.2.msg) = ["load beginning", "load succeeded"] ∧
    ((step quiet twoActs (.failure 1 (some "") [] [])).1.pub.map fun p => p.2.msg) =
      ["save beginning", "save failed - ({data_map_repr})"] := by
  refine ⟨_, _, rfl, ?_, ?_, rfl, ?_, ?_, ?_, ?_, ?_⟩ <;> decide +kernel
end Sample
end Verif
