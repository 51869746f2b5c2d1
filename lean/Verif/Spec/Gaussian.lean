import Verif.Spec.Train
import Verif.Spec.Mstep
import Mathlib.Analysis.SpecialFunctions.Exp
import Mathlib.Analysis.SpecialFunctions.Log.Basic
import Mathlib.Analysis.Real.Pi.Bounds

/-!
# Specification: Gaussian models with diagonal covariance
-/

namespace Verif.Spec
variable {nc nf : ℕ}

/-- The density of the normal law with mean `μ` and variance `v`. -/
noncomputable def normalPdf (μ v x : ℝ) : ℝ :=
  Real.exp (-(x - μ) ^ 2 / (2 * v)) / Real.sqrt (2 * Real.pi * v)

/-- Smallest positive normal double: variances below it are treated as if they were equal to it. -/
noncomputable def tinyVar : ℝ := 1 / 2 ^ 1022

/-- The variance actually used by the density. -/
noncomputable def effVar (v : ℝ) : ℝ := max v tinyVar

/-- Emission weights: independent normal coordinates. -/
noncomputable def diagB (μ v : Fin nc → Fin nf → ℝ) (x : Fin nf → ℝ) (i : Fin nc) : ℝ :=
  ∏ k, normalPdf (μ i k) (effVar (v i k)) (x k)

/-- Prior hyper-parameters of `GaussianHMM`. -/
structure GaussPrior (nc nf : ℕ) where
  /-- `means_prior`, `means_weight`, `covars_weight` -/
  mp : Fin nc → Fin nf → ℝ
  mw : ℝ
  cw : ℝ

/-- Log prior density of a mean and a variance, up to a constant: a normal of variance `v / mw`
around `mp` and an inverse gamma with scale `cp / 2`. -/
noncomputable def diagLogPrior (g : GaussPrior nc nf) (cp μ v : Fin nc → Fin nf → ℝ) : ℝ :=
  ∑ i, ∑ k, -(1 / 2) * ((g.cw - 1) * Real.log (effVar (v i k)) +
    (cp i k + g.mw * (μ i k - g.mp i k) ^ 2) / effVar (v i k))

/-- Start and transition parameters: non-negative, distributions summing to at most one. -/
structure ChainModel (π : Fin nc → ℝ) (A : Fin nc → Fin nc → ℝ) : Prop where
  π_nonneg : ∀ i, 0 ≤ π i
  A_nonneg : ∀ i j, 0 ≤ A i j
  π_sum : ∑ i, π i ≤ 1
  A_sum : ∀ i, ∑ j, A i j ≤ 1

/-- Expected number of visits to state `i`. -/
noncomputable def visits {D : Type} (π : Fin nc → ℝ) (A : Fin nc → Fin nc → ℝ) (b : D → Fin nc → ℝ)
    (ss : List (ObsSeq D)) (i : Fin nc) : ℝ :=
  (ss.map fun s => ∑ t, posterior π A (s.weights b) t i).sum

end Verif.Spec

namespace Verif.Spec
variable {nc nf : ℕ}

/-- A Gaussian model with diagonal covariances. -/
structure DiagPoint (nc nf : ℕ) where
  π : Fin nc → ℝ
  A : Fin nc → Fin nc → ℝ
  mu : Fin nc → Fin nf → ℝ
  v : Fin nc → Fin nf → ℝ

/-- Likelihood of a data set. -/
noncomputable def DiagPoint.L (ss : List (ObsSeq (Fin nf → ℝ))) (p : DiagPoint nc nf) : ℝ :=
  dataLikelihood p.π p.A (diagB p.mu p.v) ss

/-- Log-likelihood plus log prior densities (up to a constant). -/
noncomputable def DiagPoint.objective (sp : Fin nc → ℝ) (tp : Fin nc → Fin nc → ℝ)
    (g : GaussPrior nc nf) (cp : Fin nc → Fin nf → ℝ) (ss : List (ObsSeq (Fin nf → ℝ)))
    (p : DiagPoint nc nf) : ℝ :=
  Real.log (p.L ss) + logDirichlet sp p.π + ∑ i, logDirichlet (tp i) (p.A i) +
    diagLogPrior g cp p.mu p.v

/-- Prior hyper-parameters for which the M-step maximises. -/
structure GaussPrior.Proper (g : GaussPrior nc nf) (cp : Fin nc → Fin nf → ℝ) : Prop where
  mw : 0 ≤ g.mw
  cw : 1 ≤ g.cw
  cp : ∀ i k, 0 ≤ cp i k

end Verif.Spec
