import Verif.Model.MsgRec
import Mathlib.Tactic.Ring
/-!
# C124: messages that mention messages
-/
namespace Verif.MsgRec

/-! ## What a message should say -/

/-- `Says tm ps t`: with each mentioned message in its place, the parts `ps` say `t`. -/
inductive Says (tm : Nat → List Part) : List Part → String → Prop
  | nil : Says tm [] ""
  | text {ps t} (s) : Says tm ps t → Says tm (.text s :: ps) (s ++ t)
  | message {ps t j u} (d) : Says tm (tm j) u → Says tm ps t → Says tm (.message j d :: ps) (u ++ t)

/-- No message mentions itself, at whatever remove: each mentions only messages of lower rank. -/
def Ranked (tm : Nat → List Part) (rank : Nat → Nat) : Prop :=
  ∀ i j d, Part.message j d ∈ tm i → rank j < rank i

theorem Says.unique {tm : Nat → List Part} {ps : List Part} {t u : String} (h : Says tm ps t) (h' : Says tm ps u) : t = u := by
  induction h generalizing u with
  | nil => cases h'; rfl
  | text s _ ih => cases h' with | text _ h => rw [ih h]
  | message d _ _ ih1 ih2 => cases h' with | message _ h1 h2 => rw [ih1 h1, ih2 h2]

/-- What is kept of the messages is right. -/
def Right (tm : Nat → List Part) (c : Cache) : Prop := ∀ i m, c i = some m → m ≠ "" → Says tm (tm i) m

theorem fill_right (tm : Nat → List Part) (rd : Cache → Nat → Option String × Cache) (ps : List Part)
    (hrd : ∀ j d, Part.message j d ∈ ps → ∀ c, Right tm c → ∃ t, (rd c j).1 = some t ∧ Says tm (tm j) t ∧ Right tm (rd c j).2)
    (acc : String) (c : Cache) (hc : Right tm c) :
    ∃ t, (fill rd ps acc c).1 = acc ++ t ∧ Says tm ps t ∧ Right tm (fill rd ps acc c).2 := by
  induction ps generalizing acc c with
  | nil => exact ⟨"", by simp [fill], .nil, hc⟩
  | cons p ps ih =>
    have ih := fun acc c hc => ih (fun j d h => hrd j d (List.mem_cons_of_mem _ h)) acc c hc
    cases p with
    | text s =>
      obtain ⟨t, h1, h2, h3⟩ := ih (acc ++ s) c hc
      exact ⟨s ++ t, by rw [fill, h1, String.append_assoc], .text s h2, h3⟩
    | message j d =>
      obtain ⟨u, hu, hs, hr⟩ := hrd j d List.mem_cons_self c hc
      obtain ⟨t, h1, h2, h3⟩ := ih (acc ++ u) (rd c j).2 hr
      have hf : fill rd (.message j d :: ps) acc c = fill rd ps (acc ++ u) (rd c j).2 := by
        rw [fill]
        rcases hx : rd c j with ⟨o, c'⟩
        rw [hx] at hu
        cases hu
        rfl
      exact ⟨u ++ t, by rw [hf, h1, String.append_assoc], .message d hs h2, by rw [hf]; exact h3⟩

/-- C124: if no message mentions itself, directly or through others, every message says what it should, with each mentioned
message in its place, however much stack there is beyond what the mentions need, in whatever order messages are read.  What is
missing for the full claim: messages that mention themselves (see `C124_violated`). -/
theorem C124_messages_partial (tm : Nat → List Part) (rank : Nat → Nat) (hrk : Ranked tm rank) (depth : Nat) (c : Cache)
    (hc : Right tm c) (i : Nat) (hd : rank i < depth) :
    ∃ t, (read tm depth c i).1 = some t ∧ Says tm (tm i) t ∧ Right tm (read tm depth c i).2 := by
  induction depth generalizing c i with
  | zero => omega
  | succ depth ih =>
    rw [read]
    split
    · rename_i hm
      cases hci : c i with
      | none => rw [hci] at hm; exact absurd rfl hm
      | some m =>
        rw [hci] at hm
        exact ⟨m, rfl, hc i m hci hm, hc⟩
    · obtain ⟨t, h1, h2, h3⟩ := fill_right tm (read tm depth) (tm i)
        (fun j d hj c hc => ih c hc j (by have := hrk i j d hj; omega)) "" c hc
      rw [String.empty_append] at h1
      refine ⟨t, congrArg some h1, h2, ?_⟩
      intro k m hk hm
      dsimp only at hk
      split at hk
      · rename_i hki
        cases hk
        rw [h1, hki]; exact h2
      · exact h3 k m hk hm

/-- Reading a series of messages, each with the stack there is then. -/
def reads (tm : Nat → List Part) : Cache → List (Nat × Nat) → List (Option String)
  | _, [] => []
  | c, (depth, i) :: rest => (read tm depth c i).1 :: reads tm (read tm depth c i).2 rest

/-- C124: so it is in every series of readings, and the text is the same each time. -/
theorem C124_series_partial (tm : Nat → List Part) (rank : Nat → Nat) (hrk : Ranked tm rank) (rs : List (Nat × Nat))
    (hd : ∀ r ∈ rs, rank r.2 < r.1) :
    List.Forall₂ (fun r o => ∃ t, o = some t ∧ Says tm (tm r.2) t) rs (reads tm fresh rs) := by
  have : ∀ c, Right tm c → List.Forall₂ (fun r o => ∃ t, o = some t ∧ Says tm (tm r.2) t) rs (reads tm c rs) := by
    induction rs with
    | nil => intro c _; exact .nil
    | cons r rs ih =>
      intro c hc
      obtain ⟨t, h1, h2, h3⟩ := C124_messages_partial tm rank hrk r.1 c hc r.2 (hd r List.mem_cons_self)
      exact .cons ⟨t, h1, h2⟩ (ih (fun r hr => hd r (List.mem_cons_of_mem _ hr)) _ h3)
  exact this fresh fun i m h => by cases h

/-- A begin event and an end event whose message mentions that of the first twice. -/
def sampleTm : Nat → List Part
  | 0 => [.text "loading"]
  | 1 => [.text "done: ", .message 0 "{begin_message}", .text "/", .message 0 "{begin_message}"]
  | _ => []

example : (read sampleTm 250 fresh 1).1 = some "done: loading/loading" := by
  obtain ⟨t, h1, h2, _⟩ := C124_messages_partial sampleTm id (by
    intro i j d h
    match i, h with
    | 1, h => simp [sampleTm] at h; rw [h.1]; decide) 250 fresh (fun i m h => by cases h) 1 (by decide)
  rw [h1]
  congr 1
  refine h2.unique ?_
  exact .text (t := "loading/loading") "done: " (.message (t := "/loading") (u := "loading") _ (.text (t := "") _ .nil)
    (.text (t := "loading") _ (.message (t := "") (u := "loading") _ (.text (t := "") _ .nil) .nil)))

/-! ## Messages that mention themselves -/

/-- How many of the parts are messages. -/
def mentions (ps : List Part) : Nat := ps.countP fun p => match p with | .message _ _ => true | _ => false

theorem fill_length (rd : Cache → Nat → Option String × Cache) (n : Nat) (good : Cache → Prop)
    (ps : List Part) (hself : ∀ j d, Part.message j d ∈ ps → j = 0 ∧ d ≠ "")
    (hrd : ∀ c, good c → good (rd c 0).2 ∧
      ((∃ t, (rd c 0).1 = some t ∧ n ≤ t.length) ∨ ((rd c 0).1 = none ∧ n ≤ 1)))
    (acc : String) (c : Cache) (hc : good c) : acc.length + mentions ps * n ≤ (fill rd ps acc c).1.length := by
  induction ps generalizing acc c with
  | nil => simp [fill, mentions]
  | cons p ps ih =>
    have ih := fun acc c hc => ih (fun j d h => hself j d (List.mem_cons_of_mem _ h)) acc c hc
    cases p with
    | text s =>
      have := ih (acc ++ s) c hc
      rw [String.length_append] at this
      rw [fill]
      have hm : mentions (.text s :: ps) = mentions ps := by simp [mentions]
      rw [hm]; omega
    | message j d =>
      obtain ⟨rfl, hd⟩ := hself j d List.mem_cons_self
      have hm : mentions (.message 0 d :: ps) = mentions ps + 1 := by simp [mentions]
      obtain ⟨hg, h⟩ := hrd c hc
      rw [fill, hm, Nat.add_mul, Nat.one_mul]
      rcases hx : rd c 0 with ⟨o, c'⟩
      rw [hx] at h hg
      rcases h with ⟨t, rfl, ht⟩ | ⟨rfl, hn⟩
      · have := ih (acc ++ t) c' hg
        rw [String.length_append] at this
        dsimp only
        omega
      · have := ih (acc ++ d) c' hg
        rw [String.length_append] at this
        have : 0 < d.length := by
          rw [Nat.pos_iff_ne_zero]; intro h0; exact hd (String.length_eq_zero_iff.1 h0)
        dsimp only
        omega

/-- Nothing, or at least `n` characters are kept of the message of event 0. -/
def Kept (n : Nat) (c : Cache) : Prop := ∀ m, c 0 = some m → m ≠ "" → n ≤ m.length

theorem self_length (tm : Nat → List Part) (k : Nat) (hk : k ≤ mentions (tm 0))
    (hself : ∀ j d, Part.message j d ∈ tm 0 → j = 0 ∧ d ≠ "") (depth : Nat) (hd : 0 < depth) (c : Cache)
    (hc : Kept (k ^ depth) c) :
    ∃ t, (read tm depth c 0).1 = some t ∧ k ^ depth ≤ t.length ∧ Kept (k ^ depth) (read tm depth c 0).2 := by
  induction depth generalizing c with
  | zero => omega
  | succ depth ih =>
    rw [read]
    split
    · rename_i hm
      cases hci : c 0 with
      | none => rw [hci] at hm; exact absurd rfl hm
      | some m =>
        rw [hci] at hm
        exact ⟨m, rfl, hc m hci hm, hc⟩
    · have key : k ^ (depth + 1) ≤ (fill (read tm depth) (tm 0) "" c).1.length := by
        rcases Nat.eq_zero_or_pos depth with rfl | hpos
        · have := fill_length (read tm 0) 1 (fun _ => True) (tm 0) hself
            (fun c _ => ⟨trivial, .inr ⟨rfl, Nat.le_refl 1⟩⟩) "" c trivial
          simp only [Nat.mul_one, String.length_empty, Nat.zero_add] at this
          rw [Nat.zero_add, Nat.pow_one]; omega
        · have he : Kept (k ^ depth) c := by
            rename_i hn
            intro m hm hne
            rw [hm] at hn
            exact absurd hne hn
          have := fill_length (read tm depth) (k ^ depth) (Kept (k ^ depth)) (tm 0) hself
            (fun c hc => by
              obtain ⟨t, h1, h2, h3⟩ := ih hpos c hc
              exact ⟨h3, .inl ⟨t, h1, h2⟩⟩) "" c he
          rw [String.length_empty, Nat.zero_add] at this
          rw [Nat.pow_succ, Nat.mul_comm]
          exact Nat.le_trans (Nat.mul_le_mul_right _ hk) this
      refine ⟨_, rfl, key, ?_⟩
      intro m hm _
      simp only [if_true] at hm
      cases hm
      exact key

/-- C124: a message that mentions itself `k` times has at least `k ^ depth` characters, where `depth` is the number of readings
that fit on the stack. -/
theorem C124_self (tm : Nat → List Part) (hself : ∀ j d, Part.message j d ∈ tm 0 → j = 0 ∧ d ≠ "") (depth : Nat)
    (hd : 0 < depth) : ∃ t, (read tm depth fresh 0).1 = some t ∧ mentions (tm 0) ^ depth ≤ t.length := by
  obtain ⟨t, h1, h2, _⟩ := self_length tm _ (Nat.le_refl _) hself depth hd fresh (fun m h => by cases h)
  exact ⟨t, h1, h2⟩

/-- The message `"{event_message}{event_message}"`. -/
def twice : Nat → List Part := fun _ => [.message 0 "{event_message}", .message 0 "{event_message}"]

/-- C124: the full claim, that what a message says depends on its template and on the values and messages it mentions and not on
the stack, is false: no bound holds for the length of the message `"{event_message}{event_message}"`. -/
theorem C124_violated : ¬ ∃ n, ∀ depth t, (read twice depth fresh 0).1 = some t → t.length ≤ n := by
  rintro ⟨n, h⟩
  obtain ⟨t, h1, h2⟩ := C124_self twice (by
    intro j d hj
    simp only [twice, List.mem_cons, Part.message.injEq, List.not_mem_nil, or_false, or_self] at hj
    exact ⟨hj.1, by rw [hj.2]; decide⟩) (n + 1) (Nat.succ_pos n)
  have h3 : mentions (twice 0) = 2 := rfl
  rw [h3] at h2
  have h4 := h _ t h1
  have h5 : n + 1 < 2 ^ (n + 1) := Nat.lt_two_pow_self
  omega

/-- The message `"x{event_message}"`. -/
def once : Nat → List Part := fun _ => [.text "x", .message 0 "{event_message}"]

/-- C124: with one mention the template comes once per reading that fits. -/
theorem C124_once (depth : Nat) (hd : 0 < depth) :
    (read once depth fresh 0).1 = some (String.ofList (List.replicate depth 'x') ++ "{event_message}") := by
  induction depth with
  | zero => omega
  | succ depth ih =>
    rcases Nat.eq_zero_or_pos depth with rfl | hpos
    · decide +kernel
    · have ih := ih hpos
      rw [read, if_neg (by simp [fresh])]
      change some (fill (read once depth) [.text "x", .message 0 "{event_message}"] "" fresh).1 = _
      rw [fill, fill]
      rcases hx : read once depth fresh 0 with ⟨o, c'⟩
      rw [hx] at ih
      cases ih
      simp only [fill, Option.some.injEq]
      rw [List.replicate_succ, ← String.append_assoc]
      congr 1
      apply String.toList_inj.1
      simp

end Verif.MsgRec
