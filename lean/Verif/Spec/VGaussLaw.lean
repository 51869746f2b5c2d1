import Verif.Spec.Wishart
import Verif.Spec.VGaussian
import Mathlib.Probability.Distributions.Gaussian.Multivariate
import Mathlib.InformationTheory.KullbackLeibler.Basic

/-!
# Specification: averages under the normal–Wishart law
-/

set_option autoImplicit false

namespace Verif.Spec
open MeasureTheory ProbabilityTheory InformationTheory
open scoped Matrix

variable {nf : ℕ}

/-- The law of the mean of a state, its precision matrix being `Λ`. -/
noncomputable def NW.meanLaw (p : NW nf) (Λ : Fin nf → Fin nf → ℝ) : Measure (Fin nf → ℝ) :=
  (multivariateGaussian (WithLp.toLp 2 p.m) (p.β • Matrix.of Λ)⁻¹).map WithLp.ofLp

/-- The law of the precision matrix. -/
noncomputable def NW.precisionLaw (p : NW nf) : Measure (Fin nf → Fin nf → ℝ) := wishart p.ν p.S⁻¹

/-- `f` has an average over the precision matrices, and it is `v`. -/
structure NW.AvgPrecision (p : NW nf) (f : (Fin nf → Fin nf → ℝ) → ℝ) (v : ℝ) : Prop where
  integrable : Integrable f p.precisionLaw
  eq : ∫ Λ, f Λ ∂p.precisionLaw = v

/-- `f` has an average over the means and the precision matrices, and it is `v`. -/
structure NW.Avg (p : NW nf) (f : (Fin nf → Fin nf → ℝ) → (Fin nf → ℝ) → ℝ) (v : ℝ) : Prop where
  inner : ∀ᵐ Λ ∂p.precisionLaw, Integrable (f Λ) (p.meanLaw Λ)
  outer : p.AvgPrecision (fun Λ => ∫ μ, f Λ μ ∂p.meanLaw Λ) v

end Verif.Spec
