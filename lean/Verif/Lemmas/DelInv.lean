import Verif.Lemmas.Fixed
import Verif.Spec.Delivery
/-!
# Delivery invariants
-/
namespace Verif
open scoped List
attribute [local irreducible] QUEUE_LIMIT

/-! ## received -/

@[simp] theorem received_append (s : SinkId) (t u : List Obs) :
    received s (t ++ u) = received s t ++ received s u := by simp [received]

theorem received_hookCalls (s : SinkId) (ss : List SinkId) (k : Kind) (e : Event) :
    received s (ss.map (fun s' => Obs.hook s' k e)) = (ss.filter (· = s)).map (fun _ => (k, e)) := by
  induction ss with
  | nil => rfl
  | cons a ss ih =>
    by_cases h : a = s
    · subst h; simpa [received] using ih
    · simpa [received, h] using ih

theorem filter_eq_nodup {ss : List SinkId} (h : ss.Nodup) (s : SinkId) :
    ss.filter (· = s) = if s ∈ ss then [s] else [] := by
  induction ss with
  | nil => simp
  | cons a ss ih =>
    simp only [List.nodup_cons] at h
    by_cases ha : a = s
    · subst ha; simp [ih h.2, h.1]
    · simp [ha, ih h.2, Ne.symm ha]

theorem received_hookCalls_nodup {ss : List SinkId} (h : ss.Nodup) (s : SinkId) (k : Kind)
    (e : Event) :
    received s (ss.map (fun s' => Obs.hook s' k e)) = if s ∈ ss then [(k, e)] else [] := by
  rw [received_hookCalls, filter_eq_nodup h]
  split <;> simp

theorem received_noHook (s : SinkId) {t : List Obs} (h : ∀ o ∈ t, o.isHook = false) :
    received s t = [] := by
  simp only [received, List.filterMap_eq_nil_iff]
  intro o ho
  have := h o ho
  cases o <;> simp_all [Obs.isHook]

/-- What a sink gets from one hook loop, even when the loop is cut short: nothing or the event. -/
theorem received_ran {env : Env} {L : Log} (h : RegOk env L) (s : SinkId) (k : Kind) (e : Event)
    (tr : List Obs) : received s (ran env (hookCalls L k e) tr).1 <+ [(k, e)] := by
  obtain ⟨ys, hy⟩ := ran_prefix env (hookCalls L k e) tr
  have hn : (L.hooks k).Nodup := by rw [h.hooks]; exact h.nodup.filter _
  have : received s (hookCalls L k e) <+ [(k, e)] := by
    rw [hookCalls, received_hookCalls_nodup hn]; split <;> simp
  rw [← hy, received_append] at this
  exact (List.sublist_append_left _ _).trans this

theorem received_quiet {env : Env} {L : Log} (h : RegOk env L) (s : SinkId) (k : Kind) (e : Event) :
    received s (hookCalls L k e) = if s ∈ L.sinks ∧ env.hasHook s k then [(k, e)] else [] := by
  have hn : (L.hooks k).Nodup := by rw [h.hooks]; exact h.nodup.filter _
  rw [hookCalls, received_hookCalls_nodup hn, h.hooks]
  simp

@[simp] theorem ofLogger_append (l : LogId) (x y : List (Kind × Event)) :
    ofLogger l (x ++ y) = ofLogger l x ++ ofLogger l y := by simp [ofLogger]
theorem ofLogger_sublist (l : LogId) (x : List (Kind × Event)) : ofLogger l x <+ x :=
  List.filter_sublist
theorem ofLogger_mono {l : LogId} {x y : List (Kind × Event)} (h : x <+ y) :
    ofLogger l x <+ ofLogger l y := h.filter _
theorem ofLogger_single (l : LogId) (k : Kind) (e : Event) :
    ofLogger l [(k, e)] = if k ≠ .exception ∧ e.logger = l then [(k, e)] else [] := by
  simp only [ofLogger, List.filter_cons, List.filter_nil]
  split <;> simp_all
theorem mem_ofLogger {l : LogId} {x : List (Kind × Event)} {p : Kind × Event} :
    p ∈ ofLogger l x ↔ p ∈ x ∧ p.1 ≠ .exception ∧ p.2.logger = l := by
  simp [ofLogger]

/-- Queue of a logger, in the delivery part of the state. -/
def Del.queue (d : Del) (l : LogId) : List (Kind × Event) :=
  match d.logs l with
  | some L => L.queue
  | none => []

theorem Del.queue_upd (tr : List Obs) (m : LogId → Option Log) (pub : List (Kind × Event))
    (l n : LogId) (L : Log) :
    (⟨tr, updLog m n L, pub⟩ : Del).queue l =
      if l = n then L.queue else (⟨tr, m, pub⟩ : Del).queue l := by
  simp only [Del.queue, updLog]
  by_cases h : l = n <;> simp [h]

/-! ## Registries and queues are well formed -/

/-- Registry consistency of every logger; queues hold published events of their logger. -/
structure QInv (env : Env) (d : Del) : Prop where
  reg : ∀ l L, d.logs l = some L → RegOk env L
  q : ∀ l k e, (k, e) ∈ d.queue l → e.logger = l ∧ e.kind = k ∧ k ≠ .exception ∧ (k, e) ∈ d.pub

theorem pushBounded_sublist {α : Type} (n : Nat) (q : List α) (x : α) :
    pushBounded n q x <+ q ++ [x] := List.drop_sublist _ _

theorem qInv_step {env : Env} {d d' : Del} (hi : QInv env d) (s : DelStep env d d') :
    QInv env d' := by
  have regU : ∀ {l : LogId} {L' : Log}, RegOk env L' → ∀ m M, updLog d.logs l L' m = some M →
      RegOk env M := by
    intro l L' h m M hM
    simp only [updLog] at hM; split at hM
    · cases hM; exact h
    · exact hi.reg m M hM
  have same : ∀ {L L' : Log}, L'.sinks = L.sinks → L'.hooks = L.hooks → RegOk env L → RegOk env L' :=
    fun h1 h2 h => ⟨by rw [h1]; exact h.nodup, by rw [h1, h2]; exact h.hooks⟩
  have hq : ∀ {l L}, d.logs l = some L → ∀ k e, (k, e) ∈ L.queue →
      e.logger = l ∧ e.kind = k ∧ k ≠ .exception ∧ (k, e) ∈ d.pub := by
    intro l L hL k e h
    exact hi.q l k e (by simpa [Del.queue, hL] using h)
  cases s with
  | pub s =>
    cases s with
    | sync l L k e hL ha hl hk hx =>
      refine ⟨hi.reg, fun m k' e' h => ?_⟩
      obtain ⟨h1, h2, h3, h4⟩ := hi.q m k' e' h
      exact ⟨h1, h2, h3, by simp [h4]⟩
    | async l L k e hL ha hl hk hx =>
      refine ⟨regU (same (L := L) rfl rfl (hi.reg l L hL)), fun m k' e' h => ?_⟩
      rw [Del.queue_upd] at h
      split at h
      · subst_vars
        have := (pushBounded_sublist QUEUE_LIMIT L.queue (e.kind, e)).subset h
        simp only [List.mem_append, List.mem_singleton, Prod.mk.injEq] at this
        rcases this with h | ⟨rfl, rfl⟩
        · obtain ⟨h1, h2, h3, h4⟩ := hq hL k' e' h
          exact ⟨h1, h2, h3, by simp [h4]⟩
        · exact ⟨rfl, rfl, hx, by simp⟩
      · obtain ⟨h1, h2, h3, h4⟩ := hi.q m k' e' h
        exact ⟨h1, h2, h3, by simp [h4]⟩
    | exc l L e hL => exact ⟨hi.reg, hi.q⟩
    | note t => exact ⟨hi.reg, hi.q⟩
  | flush s =>
    cases s with
    | pop l L k e q hL hQ hx =>
      refine ⟨regU (same (L := L) rfl rfl (hi.reg l L hL)), fun m k' e' h => ?_⟩
      rw [Del.queue_upd] at h
      split at h
      · subst_vars; exact hq hL k' e' (by rw [hQ]; exact List.mem_cons_of_mem _ h)
      · exact hi.q m k' e' h
    | popExc l L e q t hL hQ ht =>
      refine ⟨regU (same (L := L) rfl rfl (hi.reg l L hL)), fun m k' e' h => ?_⟩
      rw [Del.queue_upd] at h
      split at h
      · subst_vars; exact hq hL k' e' (by rw [hQ]; exact List.mem_cons_of_mem _ h)
      · exact hi.q m k' e' h
    | other t => exact ⟨hi.reg, hi.q⟩
    | stamp l L t hL =>
      refine ⟨regU (same (L := L) rfl rfl (hi.reg l L hL)), fun m k' e' h => ?_⟩
      rw [Del.queue_upd] at h
      split at h
      · subst_vars; exact hq hL k' e' h
      · exact hi.q m k' e' h
  | cfg s =>
    cases s with
    | newLog l L hn hQ hr =>
      refine ⟨regU hr, fun m k' e' h => ?_⟩
      rw [Del.queue_upd] at h
      split at h
      · simp [hQ] at h
      · exact hi.q m k' e' h
    | async l L b hL =>
      refine ⟨regU (same (L := L) rfl rfl (hi.reg l L hL)), fun m k' e' h => ?_⟩
      rw [Del.queue_upd] at h
      split at h
      · subst_vars; exact hq hL k' e' h
      · exact hi.q m k' e' h
    | reg l L L' hL hrest hr =>
      refine ⟨regU (hr (hi.reg l L hL)), fun m k' e' h => ?_⟩
      rw [Del.queue_upd] at h
      split at h
      · subst_vars
        simp only [Log.rest, Prod.mk.injEq] at hrest
        exact hq hL k' e' (hrest.2.1 ▸ h)
      · exact hi.q m k' e' h
    | preflush l L hs hL =>
      refine ⟨regU (same (L := L) rfl rfl (hi.reg l L hL)), fun m k' e' h => ?_⟩
      rw [Del.queue_upd] at h
      split at h
      · subst_vars; exact hq hL k' e' h
      · exact hi.q m k' e' h

theorem qInv_init (env : Env) : QInv env World.init.del := by
  constructor <;> simp [World.del, World.init, Del.queue]

theorem Reachable.qInv {env : Env} {w : World} (h : Reachable env w) : QInv env w.del :=
  h.delInv (fun _ _ => qInv_step) (qInv_init env)

/-! ## Counting: nothing is delivered or queued more often than it was published -/

/-- For every sink and logger: received plus queued is contained, with multiplicity, in published. -/
def CountInv (d : Del) : Prop :=
  ∀ s l p, (ofLogger l (received s d.trace) ++ d.queue l).count p ≤ (ofLogger l d.pub).count p

theorem ofLogger_q {env : Env} {d : Del} (hi : QInv env d) (l : LogId) :
    ofLogger l (d.queue l) = d.queue l := by
  simp only [ofLogger, List.filter_eq_self]
  rintro ⟨k, e⟩ h
  obtain ⟨h1, _, h3, _⟩ := hi.q l k e h
  simp [h1, h3]

theorem queue_trace {tr tr' : List Obs} {m : LogId → Option Log} {p p' : List (Kind × Event)}
    (l : LogId) : (⟨tr, m, p⟩ : Del).queue l = (⟨tr', m, p'⟩ : Del).queue l := rfl

/-- One lemma for both invariants: a step relates old and new received/queue/published. -/
inductive FlowStep (d d' : Del) (s : SinkId) (l : LogId) : Prop
  /-- nothing, or only losses -/
  | idle (r : ofLogger l (received s d'.trace) = ofLogger l (received s d.trace))
      (q : d'.queue l = d.queue l) (p : ofLogger l d'.pub = ofLogger l d.pub)
  | sync (L : Log) (hL : d.logs l = some L) (ha : L.async = false) (x : Kind × Event)
      (y : List (Kind × Event)) (hy : y <+ [x])
      (r : ofLogger l (received s d'.trace) = ofLogger l (received s d.trace) ++ y)
      (q : d'.queue l = d.queue l) (p : ofLogger l d'.pub = ofLogger l d.pub ++ [x])
  | queue (x : Kind × Event)
      (r : ofLogger l (received s d'.trace) = ofLogger l (received s d.trace))
      (q : d'.queue l <+ d.queue l ++ [x]) (p : ofLogger l d'.pub = ofLogger l d.pub ++ [x])
  | pop (x : Kind × Event) (y : List (Kind × Event)) (hy : y <+ [x])
      (r : ofLogger l (received s d'.trace) = ofLogger l (received s d.trace) ++ y)
      (q : d.queue l = x :: d'.queue l) (p : ofLogger l d'.pub = ofLogger l d.pub)

theorem ofLogger_ne {l m : LogId} {k : Kind} {e : Event} {y : List (Kind × Event)}
    (hl : e.logger = m) (h : l ≠ m) (hy : y <+ [(k, e)]) : ofLogger l y = [] := by
  have h1 := ofLogger_mono (l := l) hy
  rw [ofLogger_single, if_neg (by rintro ⟨_, h2⟩; exact h (h2.symm.trans hl))] at h1
  exact List.sublist_nil.1 h1

theorem ofLogger_exc {l : LogId} {e : Event} {y : List (Kind × Event)}
    (hy : y <+ [(Kind.exception, e)]) : ofLogger l y = [] := by
  have h1 := ofLogger_mono (l := l) hy
  rw [ofLogger_single, if_neg (by simp)] at h1
  exact List.sublist_nil.1 h1

theorem flow_pub {env : Env} {d d' : Del} (hi : QInv env d) (st : PubStep env d d') (s : SinkId)
    (l : LogId) : FlowStep d d' s l := by
  cases st with
  | sync m L k e hL ha hl hk hx =>
    have hs := received_ran (hi.reg m L hL) s k e d.trace
    by_cases h : l = m
    · subst h
      refine .sync L hL ha (k, e) (ofLogger l (received s (ran env (hookCalls L k e) d.trace).1))
        ((ofLogger_sublist _ _).trans hs) (by simp) rfl ?_
      simp [ofLogger_single, hx, hl]
    · refine .idle ?_ rfl ?_
      · simp [ofLogger_ne hl h hs]
      · simp [ofLogger_ne hl h (List.Sublist.refl [(k, e)])]
  | async m L k e hL ha hl hk hx =>
    by_cases h : l = m
    · subst h
      refine .queue (k, e) rfl ?_ ?_
      · rw [Del.queue_upd, if_pos rfl]
        have : d.queue l = L.queue := by simp [Del.queue, hL]
        rw [this]; exact pushBounded_sublist _ _ _
      · simp [ofLogger_single, hx, hl]
    · refine .idle rfl ?_ ?_
      · rw [Del.queue_upd, if_neg h]; rfl
      · simp [ofLogger_ne hl h (List.Sublist.refl [(k, e)])]
  | exc m L e hL hl hk =>
    have hs := received_ran (hi.reg m L hL) s .exception e d.trace
    exact .idle (by simp [ofLogger_exc hs]) rfl rfl
  | note t ht => exact .idle (by simp [received_noHook s ht]) rfl rfl

theorem flow_flush {env : Env} {d d' : Del} (hi : QInv env d) (st : FlushStep env d d') (s : SinkId)
    (l : LogId) : FlowStep d d' s l := by
  cases st with
  | pop m L k e q hL hQ hx =>
    have hs := received_ran (hi.reg m L hL) s k e d.trace
    have hl : e.logger = m := (hi.q m k e (by simp [Del.queue, hL, hQ])).1
    by_cases h : l = m
    · subst h
      refine .pop (k, e) (ofLogger l (received s (ran env (hookCalls L k e) d.trace).1))
        ((ofLogger_sublist _ _).trans hs) (by simp) ?_ rfl
      rw [Del.queue_upd, if_pos rfl]; simp [Del.queue, hL, hQ]
    · refine .idle ?_ ?_ rfl
      · simp [ofLogger_ne hl h hs]
      · rw [Del.queue_upd, if_neg h]; rfl
  | popExc m L e q t hL hQ ht =>
    exact absurd rfl (hi.q m .exception e (by simp [Del.queue, hL, hQ])).2.2.1
  | other t ht => exact .idle (by simp [received_noHook s ht]) rfl rfl
  | stamp m L t hL =>
    refine .idle rfl ?_ rfl
    rw [Del.queue_upd]; split
    · subst_vars; simp [Del.queue, hL]
    · rfl

theorem flow_cfg {env : Env} {d d' : Del} (st : CfgStep env d d') (s : SinkId)
    (l : LogId) : FlowStep d d' s l := by
  cases st with
  | newLog m L hn hQ hr =>
    refine .idle rfl ?_ rfl
    rw [Del.queue_upd]; split
    · subst_vars; simp [Del.queue, hn, hQ]
    · rfl
  | async m L b hL =>
    refine .idle rfl ?_ rfl
    rw [Del.queue_upd]; split
    · subst_vars; simp [Del.queue, hL]
    · rfl
  | reg m L L' hL hrest hr =>
    refine .idle rfl ?_ rfl
    simp only [Log.rest, Prod.mk.injEq] at hrest
    rw [Del.queue_upd]; split
    · subst_vars; simp [Del.queue, hL, hrest]
    · rfl
  | preflush m L hs hL =>
    refine .idle rfl ?_ rfl
    rw [Del.queue_upd]; split
    · subst_vars; simp [Del.queue, hL]
    · rfl

theorem flow_step {env : Env} {d d' : Del} (hi : QInv env d) (st : DelStep env d d') (s : SinkId)
    (l : LogId) : FlowStep d d' s l := by
  cases st with
  | pub h => exact flow_pub hi h s l
  | flush h => exact flow_flush hi h s l
  | cfg h => exact flow_cfg h s l

theorem countInv_step {env : Env} {d d' : Del} (hi : QInv env d) (hc : CountInv d)
    (st : DelStep env d d') : CountInv d' := by
  intro s l p
  have h0 := hc s l p
  rw [List.count_append] at h0 ⊢
  rcases flow_step hi st s l with ⟨r, q, pp⟩ | ⟨L, hL, ha, x, y, hy, r, q, pp⟩ | ⟨x, r, q, pp⟩ |
    ⟨x, y, hy, r, q, pp⟩
  · rw [r, q, pp]; exact h0
  · rw [r, q, pp, List.count_append, List.count_append]
    have := hy.count_le p
    omega
  · rw [r, pp, List.count_append]
    have := q.count_le p
    rw [List.count_append] at this
    omega
  · rw [r, pp, List.count_append]
    have := hy.count_le p
    rw [q, ← List.singleton_append, List.count_append] at h0
    omega

theorem Reachable.countInv {env : Env} {w : World} (h : Reachable env w) : CountInv w.del :=
  (h.delInv (P := fun d => QInv env d ∧ CountInv d)
    (fun _ _ h s => ⟨qInv_step h.1 s, countInv_step h.1 h.2 s⟩)
    ⟨qInv_init env, by intro s l p; simp [World.del, World.init, Del.queue, received, ofLogger]⟩).2

/-! ## Order -/

/-- For logger `l` and every sink: received followed by queued is a subsequence of published. -/
def OrdInv (l : LogId) (d : Del) : Prop :=
  ∀ s, ofLogger l (received s d.trace) ++ d.queue l <+ ofLogger l d.pub

/-- `SyncEmpty` on the delivery part of the state. -/
def Del.SyncEmpty (d : Del) (l : LogId) : Prop := ∀ L, d.logs l = some L → L.async = false → L.queue = []

theorem ordInv_flow {env : Env} {l : LogId} {d d' : Del} (hi : QInv env d) (he : d.SyncEmpty l)
    (ho : OrdInv l d) (st : DelStep env d d') : OrdInv l d' := by
  intro s
  have h0 := ho s
  rcases flow_step hi st s l with ⟨r, q, pp⟩ | ⟨L, hL, ha, x, y, hy, r, q, pp⟩ | ⟨x, r, q, pp⟩ |
    ⟨x, y, hy, r, q, pp⟩
  · rw [r, q, pp]; exact h0
  · have hq : d.queue l = [] := by simp [Del.queue, hL, he L hL ha]
    rw [r, q, pp, hq, List.append_nil]
    rw [hq, List.append_nil] at h0
    exact h0.append hy
  · rw [r, pp]
    refine ((List.Sublist.refl _).append q).trans ?_
    rw [← List.append_assoc]
    exact h0.append (List.Sublist.refl _)
  · rw [r, pp, List.append_assoc]
    refine ((List.Sublist.refl _).append (hy.append (List.Sublist.refl _))).trans ?_
    rw [List.singleton_append, ← q]; exact h0

/-- Flush and configuration steps keep the order whatever the modes are. -/
theorem ordInv_noPub {env : Env} {l : LogId} {d d' : Del} (hi : QInv env d) (ho : OrdInv l d)
    (st : FlushStep env d d' ∨ CfgStep env d d') : OrdInv l d' := by
  intro s
  have h0 := ho s
  have hp : d'.pub = d.pub := by
    rcases st with st | st <;> cases st <;> rfl
  have hf : FlowStep d d' s l := by
    rcases st with st | st
    · exact flow_flush hi st s l
    · exact flow_cfg st s l
  rcases hf with ⟨r, q, pp⟩ | ⟨L, hL, ha, x, y, hy, r, q, pp⟩ | ⟨x, r, q, pp⟩ |
    ⟨x, y, hy, r, q, pp⟩
  · rw [r, q, pp]; exact h0
  · rw [hp] at pp; simp at pp
  · rw [hp] at pp; simp at pp
  · rw [r, pp, List.append_assoc]
    refine ((List.Sublist.refl _).append (hy.append (List.Sublist.refl _))).trans ?_
    rw [List.singleton_append, ← q]; exact h0

theorem syncEmpty_pub {env : Env} {l : LogId} {d d' : Del} (he : d.SyncEmpty l) (st : PubStep env d d') :
    d'.SyncEmpty l := by
  cases st with
  | async m L k e hL ha =>
    intro M hM hA
    simp only [updLog] at hM; split at hM
    · subst_vars; cases hM; rw [ha] at hA; cases hA
    · exact he M hM hA
  | _ => exact he

theorem syncEmpty_flush {env : Env} {l : LogId} {d d' : Del} (he : d.SyncEmpty l) (st : FlushStep env d d') :
    d'.SyncEmpty l := by
  cases st with
  | other => exact he
  | pop m L k e q hL hQ =>
    intro M hM hA
    simp only [updLog] at hM; split at hM
    · subst_vars; cases hM; have := he L hL hA; rw [hQ] at this; cases this
    · exact he M hM hA
  | popExc m L e q t hL hQ =>
    intro M hM hA
    simp only [updLog] at hM; split at hM
    · subst_vars; cases hM; have := he L hL hA; rw [hQ] at this; cases this
    · exact he M hM hA
  | stamp m L t hL =>
    intro M hM hA
    simp only [updLog] at hM; split at hM
    · subst_vars; cases hM; exact he L hL hA
    · exact he M hM hA

theorem ordInv_item {env : Env} {w : World} (hp : DelPre w) (hi : QInv env w.del) {l : LogId}
    (he : SyncEmpty l w) (ho : OrdInv l w.del) (it : Item) : OrdInv l (stepItem env w it).del := by
  cases hk : it.kind with
  | pub =>
    exact ((pub_item hp it hk).inv (P := fun d => QInv env d ∧ d.SyncEmpty l ∧ OrdInv l d)
      (fun _ _ h s => ⟨qInv_step h.1 (.pub s), syncEmpty_pub h.2.1 s, ordInv_flow h.1 h.2.1 h.2.2 (.pub s)⟩)
      ⟨hi, he, ho⟩).2.2
  | flush =>
    exact ((flush_item it hk).inv (P := fun d => QInv env d ∧ OrdInv l d)
      (fun _ _ h s => ⟨qInv_step h.1 (.flush s), ordInv_noPub h.1 h.2 (.inl s)⟩) ⟨hi, ho⟩).2
  | cfg =>
    exact ((cfg_item it hk).inv (P := fun d => QInv env d ∧ OrdInv l d)
      (fun _ _ h s => ⟨qInv_step h.1 (.cfg s), ordInv_noPub h.1 h.2 (.inr s)⟩) ⟨hi, ho⟩).2
  | disable =>
    cases it with
    | enter a => simp [Item.kind] at hk
    | exit a exc => simp [Item.kind] at hk
    | op o =>
      cases o <;> simp only [Item.kind, reduceCtorEq] at hk
      case disableAsync u =>
        obtain ⟨w1, h1, h2⟩ := disable_item (env := env) w u
        have h3 := h1.inv (P := fun d => QInv env d ∧ OrdInv l d)
          (fun _ _ h s => ⟨qInv_step h.1 (.cfg s), ordInv_noPub h.1 h.2 (.inr s)⟩) ⟨hi, ho⟩
        exact (h2.inv (P := fun d => QInv env d ∧ OrdInv l d)
          (fun _ _ h s => ⟨qInv_step h.1 (.flush s), ordInv_noPub h.1 h.2 (.inl s)⟩) h3).2

/-- Everything the decompositions need, kept along a history. -/
structure Good (env : Env) (w : World) : Prop where
  trans : TransOK w.core
  id : IdInv w.core
  pre : DelPre w
  q : QInv env w.del

theorem Good.init (env : Env) : Good env World.init :=
  ⟨transOK_init, idInv_init, delPre_init, qInv_init env⟩

theorem Good.item {env : Env} {w : World} (h : Good env w) (it : Item) :
    Good env (stepItem env w it) := by
  have h2 := logOK_item (env := env) h.id h.pre it
  have hc := core_stepItem (env := env) h.trans it
  have h3 := hc.inv (P := fun c => TransOK c ∧ IdInv c ∧ EvInv c)
    (fun _ _ h s => ⟨transOK_step h.1 s, idInv_step h.2.1 s, evInv_step h.2.1 h.2.2 s⟩)
    ⟨h.trans, h.id, h.pre.ev⟩
  exact ⟨h3.1, h3.2.1, ⟨h2, h3.2.2⟩,
    (del_item (env := env) h.pre it).inv (P := QInv env) (fun _ _ => qInv_step) h.q⟩

theorem Good.run {env : Env} {w : World} (h : Good env w) (its : List Item) :
    Good env (run env w its) := by
  induction its generalizing w with
  | nil => exact h
  | cons it its ih => exact ih (h.item it)

theorem Reachable.good {env : Env} {w : World} (h : Reachable env w) : Good env w := by
  obtain ⟨its, rfl⟩ := h; exact (Good.init env).run its

theorem Along.cons {env : Env} {P : World → Prop} {w : World} {it : Item} {its : List Item}
    (h : Along env P w (it :: its)) : P w ∧ Along env P (stepItem env w it) its :=
  ⟨h [] (List.nil_prefix), fun pre hp => h (it :: pre) (by simpa using hp)⟩

theorem ordInv_run {env : Env} {w : World} {l : LogId} (hg : Good env w) (ho : OrdInv l w.del)
    (its : List Item) (he : Along env (SyncEmpty l) w its) : OrdInv l (run env w its).del := by
  induction its generalizing w with
  | nil => exact ho
  | cons it its ih =>
    obtain ⟨h1, h2⟩ := he.cons
    exact ih (hg.item it) (ordInv_item hg.pre hg.q h1 ho it) h2

theorem ordInv_init (l : LogId) : OrdInv l World.init.del := by
  intro s; simp [World.del, World.init, Del.queue, received, ofLogger]

end Verif
