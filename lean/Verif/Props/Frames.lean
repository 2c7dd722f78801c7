import Verif.Model.Frames
/-!
# C94: the module of a logger is that of its maker
-/
namespace Verif.Frames

theorem search_skip (offset : Nat) : ∀ (inits : List Frame) (i : Nat) (fs : List Frame),
    (∀ f ∈ inits, f.self = .logger ∨ f.self = .loggerClass) → i + inits.length < 10000 →
    search offset i (inits ++ fs) = search offset (i + inits.length) fs := by
  intro inits
  induction inits with
  | nil => intro i fs _ _; rfl
  | cons f inits ih =>
    intro i fs h hl
    simp only [List.length_cons] at hl ⊢
    rw [List.cons_append, search, if_neg (by omega), if_pos (h f (by simp)), ih _ _ (fun f hf => h f (by simp [hf])) (by omega)]
    congr 1; omega

theorem back_drop (n : Nat) : ∀ (fs : List Frame) (f : Frame), fs[n]? = some f →
    back n fs = .module (f.module.getD "<module>") := by
  induction n with
  | zero => intro fs f h; cases fs <;> simp_all [back]
  | succ n ih => intro fs f h; cases fs <;> simp_all [back]

/-- **C94.**  A logger made without naming a module gets the module of the code that made it, through any number (below ten
thousand) of constructors and class methods of `Logger` and its subclasses; with an offset, that of the code so many calls
further out.  Provided the maker has no local variable `self` that is a logger. -/
theorem C94_module_partial (offset : Nat) (inits : List Frame) (maker : Frame) (outer : List Frame)
    (hi : ∀ f ∈ inits, f.self = .logger ∨ f.self = .loggerClass) (hm : maker.self = .other) (hl : inits.length < 10000)
    (f : Frame) (hf : (maker :: outer)[offset]? = some f) :
    moduleOf none offset (inits ++ maker :: outer) = .module (f.module.getD "<module>") := by
  rw [moduleOf, search_skip offset inits 0 _ hi (by omega), search, if_neg (by omega), if_neg (by simp [hm])]
  exact back_drop offset _ f hf

/-- C94: a logger that is given neither a name nor a module is named after the module of its maker; one that is given
both has them. -/
theorem C94_name_partial (inits : List Frame) (maker : Frame) (outer : List Frame) (m : String)
    (hi : ∀ f ∈ inits, f.self = .logger ∨ f.self = .loggerClass) (hm : maker.self = .other) (hl : inits.length < 10000)
    (hmod : maker.module = some m) (name given : String) (hn : name ≠ "") :
    (∃ r, moduleOf none 0 (inits ++ maker :: outer) = .module r ∧ nameOf "" r = m) ∧
    (∃ r, moduleOf (some given) 0 (inits ++ maker :: outer) = .module r ∧ r = given ∧ nameOf name r = name) := by
  refine ⟨⟨m, ?_, rfl⟩, given, rfl, rfl, if_neg hn⟩
  rw [C94_module_partial 0 inits maker outer hi hm hl maker rfl, hmod]; rfl

/-- The full claim: whatever the maker's local variables are. -/
def C94_full : Prop := ∀ (inits : List Frame) (maker : Frame) (outer : List Frame),
  (∀ f ∈ inits, f.self = .logger ∨ f.self = .loggerClass) → inits.length < 10000 →
  moduleOf none 0 (inits ++ maker :: outer) = .module (maker.module.getD "<module>")

theorem search_deep (offset : Nat) : ∀ (inits : List Frame) (i : Nat) (fs : List Frame),
    (∀ f ∈ inits, f.self = .logger ∨ f.self = .loggerClass) → i ≤ 10000 → 10000 < i + inits.length →
    search offset i (inits ++ fs) = .valueError := by
  intro inits
  induction inits with
  | nil => intro i fs _ h1 h2; simp at h2; omega
  | cons f inits ih =>
    intro i fs h h1 h2
    rw [List.cons_append, search]
    split
    · rfl
    · rw [if_pos (h f (by simp))]
      exact ih _ _ (fun g hg => h g (by simp [hg])) (by omega) (by simp at h2; omega)

/-- **C94, too deep.**  With ten thousand methods of loggers or more between the constructor and the maker, making the logger
fails; so the bound above is exact. -/
theorem C94_deep (offset : Nat) (inits : List Frame) (maker : Frame) (outer : List Frame)
    (hi : ∀ f ∈ inits, f.self = .logger ∨ f.self = .loggerClass) (hl : 10000 ≤ inits.length) :
    moduleOf none offset (inits ++ maker :: outer) = .valueError := by
  rw [moduleOf]
  rcases Nat.lt_or_ge 10000 inits.length with h | h
  · exact search_deep offset inits 0 _ hi (by omega) (by omega)
  · have hn : inits.length = 10000 := by omega
    obtain ⟨l, f, rfl⟩ : ∃ l f, inits = l ++ [f] := ⟨inits.dropLast, inits.getLast (by rintro rfl; simp at hn),
      (List.dropLast_append_getLast _).symm⟩
    rw [List.length_append, List.length_singleton] at hn
    rw [List.append_assoc, search_skip offset l 0 _ (fun g hg => hi g (by simp [hg])) (by omega), List.singleton_append, search,
      if_neg (by omega), if_pos (hi f (by simp)), search, if_pos (by omega)]

example : moduleOf none 0 (List.replicate 10000 ⟨.logger, some "m"⟩ ++ [⟨.other, some "main"⟩]) = .valueError :=
  C94_deep 0 _ _ [] (by intro f hf; rw [List.eq_of_mem_replicate hf]; exact .inl rfl) (Nat.le_of_eq List.length_replicate.symm)

/-- C94 fails when the maker has a local variable `self` that is a logger, such as a method of a class derived from `Logger`
or a function that takes one under that name: it is passed over. -/
theorem C94_violated : ¬C94_full := fun h =>
  absurd (h [⟨.logger, some "lithoxyl.logger"⟩] ⟨.logger, some "maker"⟩ [⟨.other, some "caller"⟩] (by decide) (by decide))
    (by decide)

/-- It fails too when a subclass calls the first argument of its constructor otherwise: then the module of the subclass is
taken. -/
theorem C94_subclass_violated :
    moduleOf none 0 [⟨.logger, some "lithoxyl.logger"⟩, ⟨.other, some "subclass"⟩, ⟨.other, some "maker"⟩] =
      .module "subclass" := by decide

example : moduleOf none 0 [⟨.logger, some "lithoxyl.logger"⟩, ⟨.logger, some "subclass"⟩, ⟨.other, some "maker"⟩,
    ⟨.other, some "__main__"⟩] = .module "maker" :=
  C94_module_partial 0 [⟨.logger, some "lithoxyl.logger"⟩, ⟨.logger, some "subclass"⟩] ⟨.other, some "maker"⟩ _ (by decide) rfl
    (by decide) _ rfl
example : moduleOf none 1 [⟨.logger, some "lithoxyl.logger"⟩, ⟨.other, some "factory"⟩, ⟨.other, some "__main__"⟩] =
    .module "__main__" := by decide
example : moduleOf none 1 [⟨.logger, some "lithoxyl.logger"⟩, ⟨.other, some "factory"⟩] = .attributeError ∧
    moduleOf none 2 [⟨.logger, some "lithoxyl.logger"⟩, ⟨.other, some "factory"⟩] = .valueError := by decide

example := C94_name_partial [⟨.logger, some "lithoxyl.logger"⟩, ⟨.logger, some "subclass"⟩] ⟨.other, some "maker"⟩
  [⟨.other, some "__main__"⟩] "maker" (by decide) rfl (by decide) rfl "mine" "given" (by decide)

end Verif.Frames
