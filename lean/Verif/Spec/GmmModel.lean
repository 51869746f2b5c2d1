import Verif.Spec.Gmm
import Verif.Spec.Train

/-!
# Specification: hidden Markov models with Gaussian mixture emissions
-/

namespace Verif.Spec
variable {nc nm nf : ℕ} {V : Type}

/-- Chain, mixture weights, means, and covariances of type `V`. -/
structure GmmPoint (nc nm nf : ℕ) (V : Type) where
  π : Fin nc → ℝ
  A : Fin nc → Fin nc → ℝ
  w : Fin nc → Fin nm → ℝ
  mu : Fin nc → Fin nm → Fin nf → ℝ
  v : V

/-- Component densities: covariances, means, point, state, component. -/
abbrev CompDens (nc nm nf : ℕ) (V : Type) :=
  V → (Fin nc → Fin nm → Fin nf → ℝ) → (Fin nf → ℝ) → Fin nc → Fin nm → ℝ

/-- `spherical`: one variance per component (see `diagB`). -/
noncomputable def sphericalComp : CompDens nc nm nf (Fin nc → Fin nm → ℝ) := fun v mu x i k =>
  diagB (mu i) (fun k _ => v i k) x k

/-- `diag`: one variance per component and feature. -/
noncomputable def diagComp : CompDens nc nm nf (Fin nc → Fin nm → Fin nf → ℝ) := fun v mu x i k =>
  diagB (mu i) (v i) x k

/-- Positive semidefinite matrices, one per component. -/
structure PsdMix (nc nm nf : ℕ) where
  S : Fin nc → Fin nm → Matrix (Fin nf) (Fin nf) ℝ
  psd : ∀ i k, (S i k).PosSemidef

/-- Positive semidefinite matrices, one per state. -/
structure PsdState (nc nf : ℕ) where
  S : Fin nc → Matrix (Fin nf) (Fin nf) ℝ
  psd : ∀ i, (S i).PosSemidef

/-- `full`: one covariance matrix per component (see `fullB`). -/
noncomputable def fullComp : CompDens nc nm nf (PsdMix nc nm nf) := fun v mu x i k =>
  fullB (mu i) (v.S i) x k

/-- `tied`: one covariance matrix per state. -/
noncomputable def tiedComp : CompDens nc nm nf (PsdState nc nf) := fun v mu x i k =>
  fullB (mu i) (fun _ => v.S i) x k

/-- The emission density of state `i` at `x`. -/
noncomputable def GmmPoint.b (dens : CompDens nc nm nf V) (p : GmmPoint nc nm nf V) (x : Fin nf → ℝ)
    (i : Fin nc) : ℝ := mixture (p.w i) (dens p.v p.mu x i)

/-- The probability density of a data set. -/
noncomputable def GmmPoint.L (dens : CompDens nc nm nf V) (p : GmmPoint nc nm nf V)
    (ss : List (ObsSeq (Fin nf → ℝ))) : ℝ := dataLikelihood p.π p.A (p.b dens) ss

/-- Positive mixture weights with sum at most one (EM with flat priors makes the sum exactly one). -/
structure MixWeights (w : Fin nc → Fin nm → ℝ) : Prop where
  pos : ∀ i k, 0 < w i k
  sum_le : ∀ i, ∑ k, w i k ≤ 1

end Verif.Spec
