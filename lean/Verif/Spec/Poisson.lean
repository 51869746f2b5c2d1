import Verif.Spec.Train
import Verif.Spec.Mstep
import Mathlib.Analysis.SpecialFunctions.Exp
import Mathlib.Data.Nat.Factorial.Basic

/-!
# Specification: Poisson models
-/

namespace Verif.Spec
variable {nc nf : ℕ}

/-- The Poisson probability of the count `k` at rate `l` (`0 ^ 0 = 1`). -/
noncomputable def poissonPmf (l : ℝ) (k : ℕ) : ℝ := Real.exp (-l) * l ^ k / k.factorial

/-- Emission weights: independent Poisson counts. -/
noncomputable def poissonB (l : Fin nc → Fin nf → ℝ) (x : Fin nf → ℕ) (i : Fin nc) : ℝ :=
  ∏ k, poissonPmf (l i k) (x k)

/-- Non-negative parameters whose distributions sum to at most one. -/
structure PoissonModel (π : Fin nc → ℝ) (A : Fin nc → Fin nc → ℝ) (l : Fin nc → Fin nf → ℝ) : Prop where
  π_nonneg : ∀ i, 0 ≤ π i
  A_nonneg : ∀ i j, 0 ≤ A i j
  l_nonneg : ∀ i k, 0 ≤ l i k
  π_sum : ∑ i, π i ≤ 1
  A_sum : ∀ i, ∑ j, A i j ≤ 1

end Verif.Spec
