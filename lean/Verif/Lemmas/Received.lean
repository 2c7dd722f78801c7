import Verif.Lemmas.Full
import Verif.Spec.Lifecycle
/-!
# What sinks received, in terms of what was published
-/
namespace Verif
open scoped List

theorem got_eq (s : SinkId) (k : Kind) (a : ActId) (tr : List Obs) :
    got s k a tr = pubsOf (received s tr) k a := by
  induction tr with
  | nil => rfl
  | cons o tr ih =>
    cases o with
    | hook s' k' e =>
      simp only [got, received, pubsOf] at ih ⊢
      simp only [List.filterMap_cons]
      by_cases hs : s' = s
      · by_cases hk : k' = k ∧ e.act = a
        · simp [hs, hk, ih]
        · simp only [hs, hk, and_false, if_false, if_true, List.filter_cons, decide_false, ih]
          simp
      · simp [hs, ih]
    | _ => simpa [got, received, pubsOf] using ih

theorem pubsOf_ofLogger {l : LogId} {k : Kind} (hk : k ≠ .exception) {a : ActId}
    {xs : List (Kind × Event)} (h : ∀ e, (k, e) ∈ xs → e.act = a → e.logger = l) :
    pubsOf (ofLogger l xs) k a = pubsOf xs k a := by
  induction xs with
  | nil => rfl
  | cons x xs ih =>
    obtain ⟨k', e⟩ := x
    have hr := ih (fun e he => h e (List.mem_cons_of_mem _ he))
    have key : ofLogger l ((k', e) :: xs) = ofLogger l [(k', e)] ++ ofLogger l xs := by
      rw [← ofLogger_append]; rfl
    rw [key, pubsOf_append, hr]
    conv => rhs; rw [show (k', e) :: xs = [(k', e)] ++ xs from rfl, pubsOf_append]
    congr 1
    rw [ofLogger_single, pubsOf_single]
    by_cases hc : k' = k ∧ e.act = a
    · obtain ⟨rfl, ha⟩ := hc
      rw [if_pos ⟨hk, h e (by simp) ha⟩, pubsOf_single]
    · rw [if_neg hc]; split
      · rw [pubsOf_single, if_neg hc]
      · rfl

/-- Everything a sink ever received, other than exception events, was published. -/
theorem Reachable.received_pub {env : Env} {w : World} (h : Reachable env w) {s : SinkId} {k : Kind}
    {e : Event} (hk : k ≠ .exception) (hm : (k, e) ∈ received s w.trace) : (k, e) ∈ w.pub := by
  have hc := h.countInv s e.logger (k, e)
  have h1 : 0 < (ofLogger e.logger (received s w.del.trace)).count (k, e) :=
    List.count_pos_iff.2 (mem_ofLogger.2 ⟨hm, hk, rfl⟩)
  rw [List.count_append] at hc
  have h2 : 0 < (ofLogger e.logger w.del.pub).count (k, e) := by omega
  exact (mem_ofLogger.1 (List.count_pos_iff.1 h2)).1

theorem length_le_one_of_count {α : Type} [DecidableEq α] {xs : List α} {x : α}
    (h : ∀ y ∈ xs, y = x) (hc : xs.count x ≤ 1) : xs.length ≤ 1 := by
  have : xs = List.replicate xs.length x := List.eq_replicate_iff.2 ⟨rfl, h⟩
  rw [this, List.count_replicate_self] at hc
  exact hc

/-- The begin events published for one action: at most one. -/
theorem Reachable.begin_pub_le {env : Env} {w : World} (h : Reachable env w) (a : ActId) :
    (pubsOf w.pub .begin a).length ≤ 1 := by
  cases hx : w.acts a with
  | none => rw [show pubsOf w.pub .begin a = [] from h.pubInv.none a .begin hx]; simp
  | some x =>
    cases hh : x.handle with
    | true =>
      rw [show pubsOf w.pub .begin a = x.beginEv.toList from h.pubInv.begin a x hx hh]
      cases x.beginEv <;> simp
    | false =>
      rw [show pubsOf w.pub .begin a = [] from
        h.pubInv.noBegin a x hx hh .begin (by decide)]; simp

theorem count_pubsOf (xs : List (Kind × Event)) (k : Kind) (e : Event) :
    (pubsOf xs k e.act).count e = xs.count (k, e) := by
  induction xs with
  | nil => rfl
  | cons x xs ih =>
    obtain ⟨k', f⟩ := x
    rw [show (k', f) :: xs = [(k', f)] ++ xs from rfl, pubsOf_append, List.count_append,
      List.count_append, ih, pubsOf_single]
    congr 1
    by_cases h : f = e
    · subst h
      by_cases hk : k' = k <;> simp [hk]
    · by_cases hk : k' = k ∧ f.act = e.act
      · rw [if_pos hk]; simp [h]
      · rw [if_neg hk]; simp [h]

theorem nodup_mem_eq {xs : List Event} (h : xs.length ≤ 1) {x y : Event} (hx : x ∈ xs) (hy : y ∈ xs) :
    x = y := by
  match xs, h with
  | [], _ => simp at hx
  | [z], _ => simp at hx hy; rw [hx, hy]
  | _ :: _ :: _, h => simp at h

theorem before_sublist {α : Type} {p q : α → Prop} {xs ys : List α} (h : xs <+ ys)
    (hb : Before p q xs) : Before p q ys := by
  obtain ⟨pre, x, mid, y, post, rfl, hp, hq⟩ := hb
  obtain ⟨a, b, rfl, _, hb⟩ := List.append_sublist_iff.1 h
  obtain ⟨r1, r2, rfl, h1, h2⟩ := List.cons_sublist_iff.1 hb
  obtain ⟨c, d, rfl, _, hd⟩ := List.append_sublist_iff.1 h2
  obtain ⟨r3, r4, rfl, h3, _⟩ := List.cons_sublist_iff.1 hd
  obtain ⟨u1, u2, rfl⟩ := List.append_of_mem h1
  obtain ⟨v1, v2, rfl⟩ := List.append_of_mem h3
  exact ⟨a ++ u1, x, u2 ++ c ++ v1, y, v2 ++ r4, by simp, hp, hq⟩

theorem mem_filter_split {α : Type} {p : α → Bool} {xs pre post : List α} {x : α}
    (h : xs.filter p = pre ++ x :: post) :
    ∃ pre' post', xs = pre' ++ x :: post' ∧ pre'.filter p = pre ∧ post'.filter p = post := by
  obtain ⟨a, b, rfl, h1, h2⟩ := List.filter_eq_append_iff.1 h
  obtain ⟨c, d, rfl, h3, h4, h5⟩ := List.filter_eq_cons_iff.1 h2
  refine ⟨a ++ c, d, by simp, ?_, h5⟩
  rw [List.filter_append, h1, List.filter_eq_nil_iff.2 (by simpa using h3), List.append_nil]

end Verif
