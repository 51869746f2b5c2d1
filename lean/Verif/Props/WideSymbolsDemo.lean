import Verif.Props.WideSymbols
import Verif.Props.VObjectFitDemo
import Verif.Props.ObjectsDemo
/-
Objects that meet the hypotheses of C100.
-/
set_option autoImplicit false

namespace Verif.WideSymbolsDemo
open FloatLike XF Spec ObjectFitDemo VObjectFitDemo

/-- Four rows of two symbols. -/
def rows : List (Fin 2 → ℤ) := [![0, 2], ![1, 0], ![0, 0], ![2, 1]]

/-- Training the object of `VObjectFitDemo` on them raises `ValueError`. -/
example : ∃ msg, ((vcatWide 2 Sci.real).fit lib (rowsX rows) (some [2, 2]) given).1 = .error (.valueError msg) := by
  have hi : ∃ w1, (vcatWide 2 Sci.real).init lib (.ints rows) [2, 2] given = (.ok (), w1) ∧ 
    ∃ e, (vcatWide (G := ℕ) 2 Sci.real).check w1.est = (.ok (), e) ∧ e.nIter ≠ 0 ∧ e.implementation = "log" ∧ 
      ((vcatWide 2 Sci.real).ready e).isSome = true := by
    refine ⟨_, rfl, _, rfl, ?_, ?_, ?_⟩
    · show given.est.nIter ≠ 0
      simp [given, world, fresh, ObjectsDemo.est]
    · rfl
    · rfl
  obtain ⟨w1, h1, e, h2, h3, h4, h5⟩ := hi
  obtain ⟨err, hf, hv⟩ := (C100_variational_training Sci.real lib (by norm_num : 1 < 2)).raises rows (some [2, 2]) given w1 e
    (by simp [rows]) h1 h2 h3
  obtain ⟨msg, rfl⟩ := hv (.inl h4) (fun ns h => by cases h; simp [rows]) h5
  exact ⟨msg, by rw [hf]⟩

/-- `score` of the object of `ObjectsDemo` on two rows of two symbols is that on four symbols. -/
example : (catWide 2).score (rowsX [![0, 2], ![1, 0]]) none ObjectsDemo.cat =
    catSub.score (rowsX [![0], ![2], ![1], ![0]]) none ObjectsDemo.cat := by
  rw [(C100_categorical_training lib 2).score _ _ (.inr fun _ h => by cases h)]
  congr 2
  have : ∀ x : ℤ, (fun _ : Fin 1 => x) = ![x] := fun x => by funext i; fin_cases i; rfl
  simp [inColumn, List.ofFn_succ, this]

end Verif.WideSymbolsDemo
