import Verif.Spec.Gaussian
import Mathlib.LinearAlgebra.Matrix.PosDef
import Mathlib.LinearAlgebra.Matrix.NonsingularInverse

/-!
# Specification: multivariate normal densities
-/

namespace Verif.Spec
open scoped Matrix Classical
variable {nc nf : ℕ}

/-- Squared Mahalanobis distance `(x - μ)ᵀ Σ⁻¹ (x - μ)`. -/
noncomputable def mahalanobis (μ : Fin nf → ℝ) (S : Matrix (Fin nf) (Fin nf) ℝ) (x : Fin nf → ℝ) : ℝ :=
  (x - μ) ⬝ᵥ (S⁻¹ *ᵥ (x - μ))

/-- Density of the multivariate normal law with mean `μ` and covariance matrix `S`. -/
noncomputable def mvnPdf (μ : Fin nf → ℝ) (S : Matrix (Fin nf) (Fin nf) ℝ) (x : Fin nf → ℝ) : ℝ :=
  Real.exp (-(1 / 2) * mahalanobis μ S x) / Real.sqrt ((2 * Real.pi) ^ nf * S.det)

/-- The covariance matrix the density uses: a matrix that is not positive definite is replaced by
`S + 1e-7 I`. -/
noncomputable def effCov (S : Matrix (Fin nf) (Fin nf) ℝ) : Matrix (Fin nf) (Fin nf) ℝ :=
  if S.PosDef then S else S + (1 / 10 ^ 7 : ℝ) • (1 : Matrix (Fin nf) (Fin nf) ℝ)

/-- Emission weights. -/
noncomputable def fullB (μ : Fin nc → Fin nf → ℝ) (S : Fin nc → Matrix (Fin nf) (Fin nf) ℝ)
    (x : Fin nf → ℝ) (i : Fin nc) : ℝ := mvnPdf (μ i) (effCov (S i)) x

end Verif.Spec

namespace Verif.Spec
open scoped Matrix Classical
variable {nc nf : ℕ}

/-- Weight of the covariance prior, `full` and `tied`. -/
noncomputable def GaussPrior.cvw (g : GaussPrior nc nf) : ℝ := max (g.cw - nf) 0

/-- Log prior density of means and covariances, up to a constant, covariance type `full`. -/
noncomputable def fullLogPrior (g : GaussPrior nc nf) (cp : Fin nc → Matrix (Fin nf) (Fin nf) ℝ)
    (μ : Fin nc → Fin nf → ℝ) (S : Fin nc → Matrix (Fin nf) (Fin nf) ℝ) : ℝ :=
  ∑ i, -(1 / 2) * (g.cvw * Real.log (effCov (S i)).det +
    ((effCov (S i))⁻¹ * (cp i + g.mw • Matrix.vecMulVec (μ i - g.mp i) (μ i - g.mp i))).trace)

/-- The same, covariance type `tied`. -/
noncomputable def tiedLogPrior (g : GaussPrior nc nf) (cp : Matrix (Fin nf) (Fin nf) ℝ)
    (μ : Fin nc → Fin nf → ℝ) (S : Matrix (Fin nf) (Fin nf) ℝ) : ℝ :=
  -(1 / 2) * (g.cvw * Real.log (effCov S).det +
    ((effCov S)⁻¹ * (cp + ∑ i, g.mw • Matrix.vecMulVec (μ i - g.mp i) (μ i - g.mp i))).trace)

/-- A Gaussian model with one covariance matrix per state. -/
structure FullPoint (nc nf : ℕ) where
  π : Fin nc → ℝ
  A : Fin nc → Fin nc → ℝ
  mu : Fin nc → Fin nf → ℝ
  S : Fin nc → Matrix (Fin nf) (Fin nf) ℝ

/-- Likelihood of a data set. -/
noncomputable def FullPoint.L (ss : List (ObsSeq (Fin nf → ℝ))) (p : FullPoint nc nf) : ℝ :=
  dataLikelihood p.π p.A (fullB p.mu p.S) ss

/-- Log-likelihood plus log prior densities (up to a constant). -/
noncomputable def FullPoint.objective (sp : Fin nc → ℝ) (tp : Fin nc → Fin nc → ℝ)
    (g : GaussPrior nc nf) (cp : Fin nc → Matrix (Fin nf) (Fin nf) ℝ)
    (ss : List (ObsSeq (Fin nf → ℝ))) (p : FullPoint nc nf) : ℝ :=
  Real.log (p.L ss) + logDirichlet sp p.π + ∑ i, logDirichlet (tp i) (p.A i) +
    fullLogPrior g cp p.mu p.S

/-- A Gaussian model with one covariance matrix. -/
structure TiedPoint (nc nf : ℕ) where
  π : Fin nc → ℝ
  A : Fin nc → Fin nc → ℝ
  mu : Fin nc → Fin nf → ℝ
  S : Matrix (Fin nf) (Fin nf) ℝ

/-- Likelihood of a data set. -/
noncomputable def TiedPoint.L (ss : List (ObsSeq (Fin nf → ℝ))) (p : TiedPoint nc nf) : ℝ :=
  dataLikelihood p.π p.A (fullB p.mu fun _ => p.S) ss

/-- Log-likelihood plus log prior densities (up to a constant). -/
noncomputable def TiedPoint.objective (sp : Fin nc → ℝ) (tp : Fin nc → Fin nc → ℝ)
    (g : GaussPrior nc nf) (cp : Matrix (Fin nf) (Fin nf) ℝ)
    (ss : List (ObsSeq (Fin nf → ℝ))) (p : TiedPoint nc nf) : ℝ :=
  Real.log (p.L ss) + logDirichlet sp p.π + ∑ i, logDirichlet (tp i) (p.A i) +
    tiedLogPrior g cp p.mu p.S

end Verif.Spec
