import Verif.Spec.Objects
/-
Data with several columns, scored by a model of one feature.
-/
set_option autoImplicit false

namespace Verif.Spec
variable {nc d : ℕ}

/-- The columns are independent draws with the same rate. -/
noncomputable def iidPoisson (l : Fin nc → ℝ) (x : Fin d → ℕ) (i : Fin nc) : ℝ := ∏ k, poissonPmf (l i) (x k)

/-- Normal densities of the columns, with the normalising factor of one of them. -/
noncomputable def onceNormalised (m v : Fin nc → ℝ) (x : Fin d → ℝ) (i : Fin nc) : ℝ :=
  Real.exp (-(∑ k, (x k - m i) ^ 2) / (2 * v i)) / Real.sqrt (2 * Real.pi * v i)

end Verif.Spec
