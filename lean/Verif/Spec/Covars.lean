import Verif.Model.Covars
import Verif.Num.XF
import Mathlib.Analysis.Matrix.PosDef
import Mathlib.LinearAlgebra.Matrix.PosDef

/-!
# Specification: covariance arrays
-/

namespace Verif.Spec
open XF

/-- The symmetric matrix given by the lower triangle. -/
def symLower {n : ℕ} (A : Fin n → Fin n → ℝ) : Matrix (Fin n) (Fin n) ℝ :=
  Matrix.of fun i j => if j ≤ i then A i j else A j i

/-- What is assumed of `scipy.linalg.eigvalsh`: on finite input it returns exactly the spectrum of the
symmetric matrix given by the lower triangle. -/
def EigvalshSpec (eig : Eigvalsh XF) : Prop :=
  ∀ (n : ℕ) (A : Fin n → Fin n → ℝ), ∃ ev : Fin n → ℝ,
    eig n (fun i j => fin (A i j)) = (fun i => fin (ev i)) ∧ Set.range ev = spectrum ℝ (symLower A)

/-- Symmetric within the tolerance of `np.allclose`. -/
def NearlySymmetric {n : ℕ} (A : Fin n → Fin n → ℝ) : Prop :=
  ∀ i j, |A i j - A j i| ≤ 1 / 10 ^ 8 + 1 / 10 ^ 5 * |A j i|

end Verif.Spec
