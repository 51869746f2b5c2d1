import Verif.Model.Train
import Verif.Spec.Train
import Verif.Spec.IntWidth
/-
States with equal parameters.
-/
set_option autoImplicit false

namespace Verif.Spec
variable {nc : ℕ}

/-- States `i` and `j` are interchangeable for the chain. -/
structure Twins {β : Type} (s : Fin nc → β) (A : Fin nc → Fin nc → β) (i j : Fin nc) : Prop where
  start : s i = s j
  stay : A i i = A j j
  cross : A i j = A j i
  out : ∀ k, k ≠ i → k ≠ j → A i k = A j k
  into : ∀ k, k ≠ i → k ≠ j → A k i = A k j

/-- Sum over all samples. -/
noncomputable def grandTotal {D : Type} (ss : List (ObsSeq D)) (f : D → ℝ) : ℝ := (ss.map fun s => ∑ t, f (s.x t)).sum

/-- Mean over all samples. -/
noncomputable def grandMean {D : Type} (ss : List (ObsSeq D)) (f : D → ℝ) : ℝ := grandTotal ss f / sampleCount ss

end Verif.Spec
