import Verif.Spec.Sampling
import Verif.Spec.Multinomial
import Verif.Spec.Poisson
import Mathlib.MeasureTheory.Constructions.Pi
import Mathlib.MeasureTheory.Measure.Dirac

/-!
# Specification: distributions of the observations
-/

namespace Verif.Spec
open MeasureTheory

/-- The Poisson distribution of rate `l`, on the integers. -/
noncomputable def poissonLaw (l : ℝ) : Measure ℤ :=
  Measure.sum fun k : ℕ => ENNReal.ofReal (poissonPmf l k) • Measure.dirac (k : ℤ)

/-- The multinomial distribution of `n` trials with probabilities `p`. -/
noncomputable def multinomialLaw {nf : ℕ} (n : ℕ) (p : Fin nf → ℝ) : Measure (Fin nf → ℤ) :=
  Measure.sum fun x : Fin nf → ℕ =>
    (if ∑ k, x k = n then ENNReal.ofReal (multinomialPmf p x) else 0) • Measure.dirac fun k => (x k : ℤ)

end Verif.Spec
