import Mathlib.LinearAlgebra.AffineSpace.FiniteDimensional
import Mathlib.LinearAlgebra.Matrix.PosDef
import Mathlib.Data.Real.Basic
import Mathlib.Algebra.Order.BigOperators.Group.Finset

/-!
# Specification: the number of free parameters of a model

The dimension of a set of parameters is that of its affine hull.
-/

namespace Verif.Spec

/-- Dimension of a set: that of the vector space spanned by the differences of its points. -/
noncomputable def dim {E : Type*} [AddCommGroup E] [Module ℝ E] (s : Set E) : ℕ :=
  Module.finrank ℝ (vectorSpan ℝ s)

/-- Probability vectors. -/
def simplex (n : ℕ) : Set (Fin n → ℝ) := {p | (∀ i, 0 ≤ p i) ∧ ∑ i, p i = 1}

/-- Families indexed by `Fin n` of elements of `s`. -/
def families (n : ℕ) {E : Type*} (s : Set E) : Set (Fin n → E) := {f | ∀ i, f i ∈ s}

/-- Positive numbers. -/
def positives : Set ℝ := {x | 0 < x}

/-- Covariance matrices. -/
def covariances (n : ℕ) : Set (Matrix (Fin n) (Fin n) ℝ) := {S | S.PosDef}

/-- Start and transition probabilities. -/
def chainSpace (nc : ℕ) : Set ((Fin nc → ℝ) × (Fin nc → Fin nc → ℝ)) :=
  simplex nc ×ˢ families nc (simplex nc)

/-- Parameters of `CategoricalHMM` and of `MultinomialHMM`: a distribution over symbols per state. -/
def symbolSpace (nc nf : ℕ) := chainSpace nc ×ˢ families nc (simplex nf)

/-- Parameters of `PoissonHMM`: a rate per state and feature. -/
def rateSpace (nc nf : ℕ) := chainSpace nc ×ˢ families nc (families nf positives)

/-- Parameters of `GaussianHMM`, given the set of covariance parameters. -/
def gaussSpace (nc nf : ℕ) {E : Type*} (cov : Set E) :=
  chainSpace nc ×ˢ (families nc (Set.univ : Set (Fin nf → ℝ)) ×ˢ cov)

/-- Parameters of `GMMHMM`: per state, mixture weights and a mean per component. -/
def gmmSpace (nc nm nf : ℕ) {E : Type*} (cov : Set E) :=
  chainSpace nc ×ˢ (families nc (simplex nm) ×ˢ
    (families nc (families nm (Set.univ : Set (Fin nf → ℝ))) ×ˢ cov))

end Verif.Spec
