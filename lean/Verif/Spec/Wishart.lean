import Mathlib.Probability.Distributions.Gamma
import Mathlib.Probability.Distributions.Gaussian.Real
import Mathlib.MeasureTheory.Constructions.Pi
import Mathlib.Analysis.Matrix.Order

/-!
# Specification: the Wishart distribution

Bartlett's decomposition: a matrix with the Wishart law `W(ν, W)` is `(√W A)(√W A)ᵀ`, with `A` lower triangular,
its entries independent, standard normal below the diagonal, and the squares on the diagonal chi-squared with
`ν, ν - 1, …` degrees of freedom.
-/

set_option autoImplicit false

namespace Verif.Spec
open MeasureTheory ProbabilityTheory
open scoped Matrix MatrixOrder

variable {n : ℕ}

/-- The lower triangular matrix: squares `r` of the diagonal, entries `z` below. -/
noncomputable def bartlettMat (r : Fin n → ℝ) (z : Fin n → Fin n → ℝ) : Matrix (Fin n) (Fin n) ℝ :=
  Matrix.of fun i j => if j < i then z i j else if i = j then √(r i) else 0

/-- The law of the entries.  The gamma law with shape `k/2` and rate `1/2` is the chi-squared law with `k` degrees
of freedom. -/
noncomputable def bartlett (n : ℕ) (ν : ℝ) : Measure ((Fin n → ℝ) × (Fin n → Fin n → ℝ)) :=
  (Measure.pi fun i : Fin n => gammaMeasure ((ν - i) / 2) (1 / 2)).prod
    (Measure.pi fun _ => Measure.pi fun _ => gaussianReal 0 1)

/-- The Wishart law with `ν` degrees of freedom and scale matrix `W`. -/
noncomputable def wishart (ν : ℝ) (W : Matrix (Fin n) (Fin n) ℝ) : Measure (Fin n → Fin n → ℝ) :=
  (bartlett n ν).map fun ω =>
    Matrix.of.symm ((CFC.sqrt W * bartlettMat ω.1 ω.2) * (CFC.sqrt W * bartlettMat ω.1 ω.2)ᵀ)

end Verif.Spec
