import Verif.Lemmas.Calls
import Verif.Spec.Samples
/-!
# C01: an action begins at most once and does not end before it began
-/
namespace Verif
open scoped List
attribute [local irreducible] QUEUE_LIMIT

/-- **C01 (first half).**  Whatever the application does — any history of calls, of `with` entries and
exits in any order, any sink behaviour, any mode — no sink's `on_begin` is called twice for one
action. -/
theorem begin_at_most_once {env : Env} {w : World} (h : Reachable env w) (s : SinkId) (a : ActId) :
    (got s .begin a w.trace).length ≤ 1 := by
  rw [got_eq]
  have hall : ∀ e ∈ pubsOf (received s w.trace) .begin a, e ∈ pubsOf w.pub .begin a := by
    intro e he
    rw [mem_pubsOf] at he ⊢
    exact ⟨h.received_pub (by decide) he.1, he.2⟩
  cases hg : pubsOf (received s w.trace) .begin a with
  | nil => simp
  | cons e es =>
    rw [← hg]
    have he : e ∈ pubsOf (received s w.trace) .begin a := by rw [hg]; simp
    have hea : e.act = a := (mem_pubsOf.1 he).2
    refine length_le_one_of_count (x := e) ?_ ?_
    · intro y hy
      exact nodup_mem_eq (h.begin_pub_le a) (hall y hy) (hall e he)
    · have hc := h.countInv s e.logger (.begin, e)
      rw [List.count_append] at hc
      have h1 : (ofLogger e.logger (received s w.del.trace)).count (Kind.begin, e) =
          (received s w.trace).count (Kind.begin, e) := by
        simp only [ofLogger]; rw [List.count_filter (by simp)]; rfl
      have h2 : (ofLogger e.logger w.del.pub).count (Kind.begin, e) =
          w.pub.count (Kind.begin, e) := by
        simp only [ofLogger]; rw [List.count_filter (by simp)]; rfl
      have h3 := count_pubsOf (received s w.trace) .begin e
      have h4 := count_pubsOf w.pub .begin e
      rw [hea] at h3 h4
      have h5 : (pubsOf w.pub .begin a).count e ≤ 1 :=
        Nat.le_trans List.count_le_length (h.begin_pub_le a)
      omega

/-- **C01 (order, whatever sinks do).**  Let logger `l` never be switched to synchronous mode with a
backlog (in particular: never switched at all, or always synchronous).  Then no sink receives an
`on_end` of one of its actions and later an `on_begin` of it.  Sinks may raise. -/
theorem no_end_before_begin {env : Env} (its : List Item) (l : LogId)
    (hs : Along env (SyncEmpty l) World.init its) (s : SinkId) (a : ActId) :
    ¬ Before (fun p => p.1 = Kind.end_ ∧ p.2.act = a ∧ p.2.logger = l)
      (fun p => p.1 = Kind.begin ∧ p.2.act = a)
      (received s (run env World.init its).trace) := by
  intro hb
  have hr : Reachable env (run env World.init its) := ⟨its, rfl⟩
  have ho : OrdInv l (run env World.init its).del :=
    ordInv_run (Good.init env) (ordInv_init l) its hs
  generalize run env World.init its = w at *
  obtain ⟨pre, ⟨k, e⟩, mid, ⟨k', b⟩, post, heq, ⟨hk, hea, hel⟩, ⟨hk', hba⟩⟩ := hb
  dsimp only at hk hea hk' hba hel
  subst hk hk'
  have he : (Kind.end_, e) ∈ w.pub := hr.received_pub (by decide) (by rw [heq]; simp)
  have hbp : (Kind.begin, b) ∈ w.pub := hr.received_pub (by decide) (by rw [heq]; simp)
  obtain ⟨-, -, x, hx, hxl, -⟩ := hr.evInv.pub _ _ he
  obtain ⟨-, -, y, hy, hyl, -⟩ := hr.evInv.pub _ _ hbp
  rw [hea] at hx; rw [hba, hx] at hy; cases hy
  have hbf : Before (fun p => p.1 = Kind.end_ ∧ p.2.act = a)
      (fun p => p.1 = Kind.begin ∧ p.2.act = a) w.pub := by
    refine before_sublist ((List.sublist_append_left _ _).trans
      ((ho s).trans (ofLogger_sublist _ _))) ?_
    show Before _ _ (ofLogger l (received s w.trace))
    rw [heq]
    refine ⟨ofLogger l pre, (.end_, e), ofLogger l mid, (.begin, b),
      ofLogger l post, ?_, ⟨rfl, hea⟩, ⟨rfl, hba⟩⟩
    rw [← hxl] at hyl
    simp [ofLogger, List.filter_append, hel, hyl]
  obtain ⟨pre, ⟨k, e⟩, mid, ⟨k', b⟩, post, heq, ⟨hk, hea⟩, ⟨hk', hba⟩⟩ := hbf
  dsimp only at hk hea hk' hba
  subst hk hk'
  obtain ⟨c, hc, hca⟩ := hr.orderInv pre e _ heq
  have hle := hr.begin_pub_le a
  rw [heq, pubsOf_append] at hle
  have hm : c ∈ pubsOf pre .begin a := mem_pubsOf.2 ⟨hc, hca.trans hea⟩
  have hm2 : b ∈ pubsOf ((Kind.end_, e) :: (mid ++ (Kind.begin, b) :: post)) .begin a :=
    mem_pubsOf.2 ⟨by simp, hba⟩
  rw [List.length_append] at hle
  have := List.length_pos_of_mem hm
  have := List.length_pos_of_mem hm2
  omega

/-- **C01 (second half).**  Start anywhere with a synchronous logger `l` that has an empty queue and on
which nothing has been published yet.  Whatever history follows, as long as nothing raises, `l` stays
synchronous and keeps its sinks: each `on_end` a registered sink receives for an action of `l` comes
after that sink's `on_begin` for the same action. -/
theorem end_follows_begin {env : Env} (hquiet : env.Quiet) {w : World} (hr : Reachable env w)
    {l : LogId} {L : Log} (hL : w.logs l = some L) (hsync : L.async = false)
    (hfresh : published w l = []) (its : List Item)
    (hm : ∀ it ∈ its, it.staysSync l) (hk : ∀ it ∈ its, it.keepsSinks l)
    {s : SinkId} (hs : s ∈ L.sinks) (hb : env.hasHook s .begin = true)
    {pre post : List (Kind × Event)} {e : Event}
    (hsplit : received s (run env w its).trace = pre ++ (Kind.end_, e) :: post)
    (hel : e.logger = l) :
    ∃ b, (Kind.begin, b) ∈ pre ∧ b.act = e.act := by
  have hq : L.queue = [] := by
    have := (hr.fresh_log hfresh 0).2; simpa [queued, hL] using this
  have hreg := hr.qInv.reg l L hL
  obtain ⟨hf, hsync'⟩ := syncAt_run hquiet hr.good ⟨L, hL, hsync, hq, rfl⟩ its hm hk
  obtain ⟨N, h1, h2⟩ := (hf.toFlow hreg).received hreg.nodup hs
  have hq' : queued (run env w its) l = [] := by
    obtain ⟨L', hL', _, hq', _⟩ := hsync'
    simp only [queued]; rw [show (run env w its).logs l = some L' from hL']; exact hq'
  rw [hq', (hr.fresh_log hfresh s).1, (hr.fresh_log hfresh s).2] at h2
  rw [hfresh] at h1
  simp only [List.filter_nil, List.append_nil, List.nil_append] at h1 h2
  have hr' := hr.run its
  generalize run env w its = w' at *
  -- what `s` received from `l`, split at `e`
  have hsp : ofLogger l (received s w'.trace) =
      ofLogger l pre ++ (Kind.end_, e) :: ofLogger l post := by
    rw [hsplit]; simp [ofLogger, hel]
  rw [h2, ← h1] at hsp
  obtain ⟨p1, q1, h3, h4, -⟩ := mem_filter_split hsp
  obtain ⟨p2, q2, h5, h6, -⟩ := mem_filter_split (show w'.pub.filter _ = _ from h3)
  obtain ⟨b, hbm, hba⟩ := hr'.orderInv p2 e q2 h5
  have hbl : b.logger = l := by
    obtain ⟨-, -, x, hx, hxl, -⟩ := hr'.evInv.pub .begin b (by
      show _ ∈ w'.pub; rw [h5]; exact List.mem_append_left _ hbm)
    obtain ⟨-, -, y, hy, hyl, -⟩ := hr'.evInv.pub .end_ e (by show _ ∈ w'.pub; rw [h5]; simp)
    rw [hba, hy] at hx; cases hx
    rw [hxl, ← hyl, hel]
  refine ⟨b, ?_, hba⟩
  have hb1 : (Kind.begin, b) ∈ p1 := by
    rw [← h6]; simp [hbm, hbl]
  have hb2 : (Kind.begin, b) ∈ ofLogger l pre := by
    rw [← h4]; simp [hb1, hb]
  exact (mem_ofLogger.1 hb2).1

/-! ## The hypotheses can be met -/
section
open Sample

/-- a block in which the action is begun, succeeded twice, and left; then a stray `failure` -/
def exBegin : List Item :=
  setup ++ [mk "a", .enter 0, .op (.begin 0 none [] []), .op (.success 0 none [] []),
    .op (.success 0 none [] []), .exit 0 none, .op (.failure 0 none [] [])]

/-- Sink 1 got one begin and two ends. -/
example : got 1 .begin 0 (run quiet World.init exBegin).trace ≠ [] ∧
    (got 1 .end_ 0 (run quiet World.init exBegin).trace).length = 2 := by decide

example : Along quiet (SyncEmpty 0) World.init exBegin :=
  syncEmpty_along (Good.init _) (syncEmpty_init 0) _ (by
    simp [exBegin, setup, mk, Item.keepsMode])

example : quiet.Quiet ∧ Reachable quiet (run quiet World.init setup) ∧
    (∃ L, (run quiet World.init setup).logs 0 = some L ∧ L.async = false ∧ 1 ∈ L.sinks) ∧
    published (run quiet World.init setup) 0 = [] ∧
    (∀ it ∈ exBegin.drop 1, it.staysSync 0) ∧ (∀ it ∈ exBegin.drop 1, it.keepsSinks 0) := by
  refine ⟨fun _ _ => rfl, ⟨_, rfl⟩, ⟨_, rfl, rfl, by decide⟩, by decide, ?_, ?_⟩ <;>
    simp [exBegin, setup, mk, Item.staysSync, Item.keepsSinks]
end

end Verif
