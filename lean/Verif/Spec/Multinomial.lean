import Verif.Spec.Train
import Verif.Spec.Mstep
import Mathlib.Data.Nat.Factorial.Basic

/-!
# Specification: multinomial models
-/

namespace Verif.Spec
variable {nc nf : ℕ}

/-- The multinomial probability of the counts `x`. -/
noncomputable def multinomialPmf (p : Fin nf → ℝ) (x : Fin nf → ℕ) : ℝ :=
  ((∑ k, x k).factorial : ℝ) * ∏ k, p k ^ x k / (x k).factorial

/-- Emission weights. -/
noncomputable def multinomialB (e : Fin nc → Fin nf → ℝ) (x : Fin nf → ℕ) (i : Fin nc) : ℝ :=
  multinomialPmf (e i) x

/-- Non-negative parameters; start and transition rows sum to at most one, emission rows to one. -/
structure MultinomialModel (π : Fin nc → ℝ) (A : Fin nc → Fin nc → ℝ) (e : Fin nc → Fin nf → ℝ) :
    Prop where
  π_nonneg : ∀ i, 0 ≤ π i
  A_nonneg : ∀ i j, 0 ≤ A i j
  e_nonneg : ∀ i k, 0 ≤ e i k
  π_sum : ∑ i, π i ≤ 1
  A_sum : ∀ i, ∑ j, A i j ≤ 1
  e_sum : ∀ i, ∑ k, e i k = 1

end Verif.Spec
