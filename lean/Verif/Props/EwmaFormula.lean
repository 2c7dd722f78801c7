import Verif.Props.Ewma
/-!
# C55: what the rates of a moving average are
-/
namespace Verif.Ewma

noncomputable section

/-- What one window does to the average of period `p`: the first window gives it its rate, each later one moves it towards its
rate by the part `1 - exp (-length / p)` of the distance. -/
def average (p : ℝ) (old : Option ℝ) (w : Window) : Option ℝ :=
  match old with
  | none => some w.rate
  | some r => some (r + (1 - Real.exp (-(w.stop - w.start) / p)) * (w.rate - r))

/-- C55: after any uses, each period is there as it was, in its place, and its rate is the moving average of the rates of all
windows closed so far. -/
theorem C55_formula (e : Ewma) (ops : List Op) :
    (run e ops).rates = e.rates.map fun x => (x.1, (windows e ops).foldl (average x.1) x.2) := by
  induction ops generalizing e with
  | nil => simp [run, windows]
  | cons o ops ih =>
    have hr : run e (o :: ops) = run (step e o) ops := rfl
    rw [hr, ih]
    cases o with
    | add v => simp [windows, step, add]
    | read t1 t2 =>
      by_cases h : Updates e t1 t2
      · obtain ⟨f, hf, _⟩ := read_updates h
        simp only [windows, if_pos h, List.singleton_append, List.foldl_cons, List.cons_append, List.nil_append]
        have hs : (step e (.read t1 t2)).rates =
            e.rates.map fun (p, old) => (p, some (newRate e.uncounted (t2 - e.last) p old)) := by
          simp only [step]; rw [hf]
        rw [hs, List.map_map]
        apply List.map_congr_left
        rintro ⟨p, old⟩ _
        cases old <;> simp [average, newRate, Window.rate]
      · obtain ⟨f, hf⟩ := read_keeps h
        have hs : (step e (.read t1 t2)).rates = e.rates := by
          simp only [step]; rw [hf]
        simp [windows, if_neg h, hs]

/-- C55: of an accumulator made with periods, every rate is `None` until the first window is closed and a number from then
on. -/
theorem C55_defined (periods : List ℝ) (interval now : ℝ) (e : Ewma) (he : make periods interval now = some e)
    (ops : List Op) (x : ℝ × Option ℝ) (hx : x ∈ (run e ops).rates) : x.2 = none ↔ windows e ops = [] := by
  have hnone : ∀ y ∈ e.rates, y.2 = none := by
    unfold make at he
    by_cases hi : (if interval = 0 then (5 : ℝ) else interval) > 0
    · rw [if_neg (not_not.2 hi)] at he
      injection he with he
      subst he
      intro y hy
      obtain ⟨p, _, rfl⟩ := List.mem_map.1 hy
      rfl
    · rw [if_pos hi] at he
      cases he
  rw [C55_formula] at hx
  obtain ⟨y, hy, rfl⟩ := List.mem_map.1 hx
  have h0 := hnone y hy
  have key : ∀ (ws : List Window) (o : Option ℝ), (∃ r, o = some r) → ∃ r, ws.foldl (average y.1) o = some r := by
    intro ws
    induction ws with
    | nil => intro o h; exact h
    | cons w ws ih =>
      rintro _ ⟨r, rfl⟩
      exact ih _ ⟨_, rfl⟩
  cases hw : windows e ops with
  | nil => simp [h0]
  | cons w ws =>
    obtain ⟨r, hr⟩ := key ws (average y.1 y.2 w) (by rw [h0]; exact ⟨_, rfl⟩)
    simp [hr]

/-- Two windows. -/
example : (run sample [.add 10, .read 5 5, .add 5, .read 15 15]).rates =
    [(60, some (2 + (1 - Real.exp (-10 / 60)) * (1 / 2 - 2)))] := by
  rw [C55_formula]
  simp [windows, step, add, sample, Updates, getRates, update, Window.rate, newRate]
  norm_num
  simp only [average, Window.rate]
  norm_num

end

end Verif.Ewma
