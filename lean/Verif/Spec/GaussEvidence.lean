import Verif.Spec.Wishart
import Verif.Spec.Evidence
import Verif.Spec.VGaussian
import Verif.Spec.Objects
import Mathlib.Probability.Distributions.Gaussian.Multivariate

/-!
# Specification: the evidence of a Gaussian model

The probability density of a data set when the parameters of the model are themselves drawn from the prior.
-/

set_option autoImplicit false

namespace Verif.Spec
open MeasureTheory ProbabilityTheory
open scoped Matrix ENNReal

variable {nc nf : ℕ}

/-- The law of the precision matrices: independent Wishart laws, or one matrix for all states if `tied`. -/
noncomputable def precisionPrior [NeZero nc] (ty : CovType) (p₀ : Fin nc → NW nf) :
    Measure (Fin nc → Fin nf → Fin nf → ℝ) :=
  if ty = .tied then (wishart (p₀ 0).ν (p₀ 0).S⁻¹).map fun Λ _ => Λ
  else Measure.pi fun i => wishart (p₀ i).ν (p₀ i).S⁻¹

/-- The law of the means, the precision matrices being `Λ`: independent, normal with mean `m` and covariance
matrix `(β Λ)⁻¹`. -/
noncomputable def meanPrior (p₀ : Fin nc → NW nf) (Λ : Fin nc → Matrix (Fin nf) (Fin nf) ℝ) :
    Measure (Fin nc → Fin nf → ℝ) :=
  Measure.pi fun i =>
    (multivariateGaussian (WithLp.toLp 2 (p₀ i).m) ((p₀ i).β • Λ i)⁻¹).map WithLp.ofLp

/-- The evidence: the density of the data, averaged over start probabilities, transition matrix, precision matrices
and means. -/
noncomputable def gaussEvidence [NeZero nc] (ty : CovType) (sp : Fin nc → ℝ) (tp : Fin nc → Fin nc → ℝ)
    (p₀ : Fin nc → NW nf) (ss : List (ObsSeq (Fin nf → ℝ))) : ℝ≥0∞ :=
  ∫⁻ π, ∫⁻ A, ∫⁻ Λ, ∫⁻ μ, ENNReal.ofReal (dataLikelihood π A (mvnB μ fun i => (Matrix.of (Λ i))⁻¹) ss)
    ∂meanPrior p₀ (fun i => Matrix.of (Λ i)) ∂precisionPrior ty p₀ ∂(Measure.pi fun i => dirichlet (tp i))
    ∂dirichlet sp

/-- What the log evidence becomes if the factor `(2π)^(-nf/2)` of every normal density is left out, as the code does
(vhmm.py:676-678). -/
noncomputable def gaussBoundary [NeZero nc] (ty : CovType) (sp : Fin nc → ℝ) (tp : Fin nc → Fin nc → ℝ) (p₀ : Fin nc → NW nf)
    (ss : List (ObsSeq (Fin nf → ℝ))) : ℝ :=
  Real.log (gaussEvidence ty sp tp p₀ ss).toReal + numSamples ss * (nf / 2 * Real.log (2 * Real.pi))

end Verif.Spec
