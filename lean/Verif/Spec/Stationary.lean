import Verif.Model.Stationary
import Verif.Num.XF
import Mathlib.Analysis.Complex.Norm
import Mathlib.LinearAlgebra.Matrix.ToLin

/-!
# Specification: stationary distributions, and what the eigenvalue solver returns
-/

namespace Verif.Spec
variable {n : ℕ}

/-- `p` is a stationary distribution of the transition matrix `A`. -/
structure Stationary (A : Fin n → Fin n → ℝ) (p : Fin n → ℝ) : Prop where
  nonneg : ∀ i, 0 ≤ p i
  sum_one : ∑ i, p i = 1
  invariant : ∀ j, ∑ i, p i * A i j = p j

/-- Rows are probability distributions. -/
structure StochasticRows (A : Fin n → Fin n → ℝ) : Prop where
  nonneg : ∀ i j, 0 ≤ A i j
  sum_one : ∀ i, ∑ j, A i j = 1

/-- `1` is a simple eigenvalue: invariant vectors (of any sign) are multiples of each other. -/
def SimpleOne (A : Fin n → Fin n → ℝ) : Prop :=
  ∀ v w : Fin n → ℝ, (∀ j, ∑ i, v i * A i j = v j) → (∀ j, ∑ i, w i * A i j = w j) → v ≠ 0 → ∃ c, ∀ i, w i = c * v i

/-- `(μ, v)` is an eigenpair of the real matrix `M`. -/
def EigenPair (M : Fin n → Fin n → ℝ) (μ : ℂ) (v : Fin n → ℂ) : Prop :=
  v ≠ 0 ∧ ∀ i, ∑ j, (M i j : ℂ) * v j = μ * v i

/-- A complex number in the model's arithmetic. -/
noncomputable def cxFin (z : ℂ) : Cx XF := ⟨.fin z.re, .fin z.im⟩

/-- What is assumed of `scipy.linalg.eig` in exact arithmetic: eigenpairs, no eigenvalue missed, and
real eigenvectors for real eigenvalues (LAPACK's `geev`). -/
def EigSpec (eig : Eig XF) : Prop :=
  ∀ (n : ℕ) (M : Fin n → Fin n → ℝ), ∃ (w : Fin n → ℂ) (V : Fin n → Fin n → ℂ),
    eig n (fun i j => .fin (M i j)) = (fun k => cxFin (w k), fun i k => cxFin (V i k)) ∧
    (∀ k, EigenPair M (w k) fun i => V i k) ∧
    (∀ μ v, EigenPair M μ v → ∃ k, w k = μ) ∧
    ∀ k, (w k).im = 0 → ∀ i, (V i k).im = 0

end Verif.Spec
