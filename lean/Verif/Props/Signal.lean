import Verif.Model.Signal
/-!
# C30: the SIGTERM handler
-/
namespace Verif.Signal

/-- The disposition the user chose last: the original one unless they called `signal.signal`. -/
def chosen : Handler → List Op → Handler
  | h, [] => h
  | _, .set h' :: ops => chosen h' ops
  | h, _ :: ops => chosen h ops

/-- Nobody passes `force=True`. -/
def NoForce (ops : List Op) : Prop := ∀ m, Op.uninstall true m ∉ ops

theorem run_append (h : Handler) (a b : List Op) : run h (a ++ b) = run (run h a) b := List.foldl_append

theorem inv {c : Handler} : ∀ {ops : List Op} {h : Handler}, NoForce ops → (h = c ∨ c = .dfl ∧ h = .ours ∨ c = .ours ∧ h = .dfl) →
    run h ops = chosen c ops ∨ chosen c ops = .dfl ∧ run h ops = .ours ∨
      chosen c ops = .ours ∧ run h ops = .dfl := by
  intro ops
  induction ops generalizing c with
  | nil => intro h _ hc; exact hc
  | cons o ops ih =>
    intro h hn hc
    have hn' : NoForce ops := fun m hm => hn m (by simp [hm])
    have ih' := fun h' hh => @ih c h' hn' hh
    cases o with
    | set h' => exact ih hn' (.inl rfl)
    | install m =>
      apply ih'
      simp only [step, install]
      cases c <;> cases h <;> cases m <;> simp_all
    | uninstall f m =>
      have hf : f = false := by
        cases f with
        | false => rfl
        | true => exact absurd (List.mem_cons_self) (hn m)
      subst hf
      apply ih'
      simp only [step, uninstall]
      cases c <;> cases h <;> cases m <;> simp_all
    | enable b m =>
      apply ih'
      simp only [step, install]
      cases c <;> cases h <;> cases b <;> cases m <;> simp_all
    | disable b m =>
      apply ih'
      simp only [step, uninstall]
      cases c <;> cases h <;> cases b <;> cases m <;> simp_all

/-- C30: after any history of installs and uninstalls (without force), of enabling and disabling async mode, on any
thread, and of the user's own `signal.signal` calls, a handler the user chose that is neither the default nor lithoxyl's is
still in place. -/
theorem C30_user_handler {h0 : Handler} {ops : List Op} (hf : NoForce ops)
    (hd : chosen h0 ops ≠ .dfl) (ho : chosen h0 ops ≠ .ours) : run h0 ops = chosen h0 ops := by
  rcases inv hf (.inl (rfl : h0 = h0)) with h | ⟨h, -⟩ | ⟨h, -⟩
  · exact h
  · exact absurd h hd
  · exact absurd h ho

/-- C30: if the user's choice is the default, then at any time the handler is the default or lithoxyl's, and after a final
uninstall or disable on the main thread it is the default. -/
theorem C30_default {h0 : Handler} {ops : List Op} (hf : NoForce ops) (hd : chosen h0 ops = .dfl) :
    (run h0 ops = .dfl ∨ run h0 ops = .ours) ∧
    run h0 (ops ++ [.uninstall false true]) = .dfl ∧ run h0 (ops ++ [.disable true true]) = .dfl := by
  have h : run h0 ops = .dfl ∨ run h0 ops = .ours := by
    rcases inv hf (.inl (rfl : h0 = h0)) with h | ⟨-, h⟩ | ⟨h, -⟩
    · exact .inl (h.trans hd)
    · exact .inr h
    · rw [hd] at h; cases h
  refine ⟨h, ?_, ?_⟩ <;> rw [run_append] <;> rcases h with h | h <;> rw [h] <;> rfl

/-- C30, the results: `install` reports True exactly when it replaced the default, `uninstall` (without force) exactly when
it removed lithoxyl's handler. -/
theorem C30_results (h : Handler) :
    ((install h).2 = true ↔ h = .dfl) ∧ ((uninstall false h).2 = true ↔ h = .ours) := by
  cases h <;> simp [install, uninstall]

/-- Calls that are asked to touch the SIGTERM handler, on the main thread. -/
def Op.Asks : Op → Prop
  | .install m => m = true
  | .uninstall _ m => m = true
  | .enable b m => b = true ∧ m = true
  | .disable b m => b = true ∧ m = true
  | .set _ => False

/-- C30: a history in which every `enable_async` and `disable_async` has `update_sigterm=False` (or is off the main
thread), with no direct install or uninstall, leaves the user's choice in place whatever it is. -/
theorem C30_not_asked {h0 : Handler} {ops : List Op} (hn : ∀ o ∈ ops, ¬ o.Asks) : run h0 ops = chosen h0 ops := by
  induction ops generalizing h0 with
  | nil => rfl
  | cons o ops ih =>
    have ih' := fun h => @ih h (fun o ho => hn o (by simp [ho]))
    have h1 := hn o (by simp)
    cases o with
    | set h => exact ih' h
    | install m => cases m <;> simp [Op.Asks] at h1; exact ih' h0
    | uninstall f m => cases m <;> simp [Op.Asks] at h1; exact ih' h0
    | enable b m => cases m <;> cases b <;> simp [Op.Asks] at h1 <;> exact ih' h0
    | disable b m => cases m <;> cases b <;> simp [Op.Asks] at h1 <;> exact ih' h0

/-- C30: if the user's choice is the default, then lithoxyl's handler is in place right after every install or enable on
the main thread, and stays so while the calls that follow are installs, enables, or do not touch SIGTERM. -/
theorem C30_installed {h0 : Handler} {ops rest : List Op} {o : Op} (hf : NoForce ops) (hd : chosen h0 ops = .dfl)
    (ho : o = .install true ∨ o = .enable true true)
    (hr : ∀ x ∈ rest, ¬ x.Asks ∧ (∀ h, x ≠ .set h) ∨ x = .install true ∨ x = .enable true true) :
    run h0 (ops ++ o :: rest) = .ours := by
  rw [run_append]
  have h1 : step (run h0 ops) o = .ours := by
    rcases (C30_default hf hd).1 with h | h <;> rcases ho with rfl | rfl <;> rw [h] <;> rfl
  show run (step (run h0 ops) o) rest = .ours
  rw [h1]
  clear h1
  induction rest with
  | nil => rfl
  | cons x rest ih =>
    have : step .ours x = .ours := by
      rcases hr x (by simp) with ⟨h, hs⟩ | rfl | rfl
      · cases x with
        | set h' => exact absurd rfl (hs h')
        | install m => cases m <;> simp_all [Op.Asks, step]
        | uninstall f m => cases m <;> simp_all [Op.Asks, step]
        | enable b m => cases m <;> cases b <;> simp_all [Op.Asks, step]
        | disable b m => cases m <;> cases b <;> simp_all [Op.Asks, step]
      · rfl
      · rfl
    show run (step .ours x) rest = .ours
    rw [this]
    exact ih (fun y hy => hr y (by simp [hy]))

example : run .dfl [.enable false true, .enable true false, .disable false true] = .dfl :=
  C30_not_asked (by simp [Op.Asks])
example : run (.user 3) ([.set .dfl, .disable true true] ++ .enable true true :: [.enable false true, .install true]) = .ours :=
  C30_installed (by intro m; simp) rfl (.inr rfl) (by simp [Op.Asks])

/-- The user's handler 7 is set after lithoxyl's and survives. -/
example : run .dfl [.enable true true, .set (.user 7), .disable true true, .enable true true, .uninstall false true]
    = .user 7 := C30_user_handler (by intro m; simp) (by decide) (by decide)

/-- Lithoxyl's own handler at work in between. -/
example : run .dfl [.enable true true] = .ours ∧ run .dfl ([.enable true true] ++ [.disable true true]) = .dfl :=
  ⟨rfl, (C30_default (by intro m; simp) rfl).2.2⟩

/-- Why `force` is excluded: it removes any handler, also the user's. -/
theorem C30_force_displaces (n : Nat) : run (.user n) [.uninstall true true] = .dfl := rfl

/-- A disable away from the main thread leaves lithoxyl's handler in place. -/
theorem C30_off_main : run .dfl [.enable true true, .disable true false] = .ours := rfl

end Verif.Signal
