import Verif.Spec.VCategorical
import Mathlib.Probability.Distributions.Gamma
import Mathlib.MeasureTheory.Constructions.Pi
import Mathlib.MeasureTheory.Integral.Prod

/-!
# Specification: the Dirichlet distribution and the evidence

The evidence (marginal likelihood) of a data set is the probability of the data when the parameters of
the model are themselves drawn from the prior.
-/

set_option autoImplicit false

namespace Verif.Spec
open MeasureTheory ProbabilityTheory

/-- The Dirichlet distribution: independent gamma variables with shapes `a`, divided by their sum. -/
noncomputable def dirichlet {n : ℕ} (a : Fin n → ℝ) : Measure (Fin n → ℝ) :=
  (Measure.pi fun i => gammaMeasure (a i) 1).map fun x i => x i / ∑ k, x k

variable {nc nf : ℕ}

/-- The parameters of a categorical model: start probabilities, transition matrix, emission matrix. -/
abbrev CatTheta (nc nf : ℕ) : Type := (Fin nc → ℝ) × (Fin nc → Fin nc → ℝ) × (Fin nc → Fin nf → ℝ)

/-- The prior of a categorical model: a Dirichlet start distribution, and independent Dirichlet rows. -/
noncomputable def catPrior (sp : Fin nc → ℝ) (tp : Fin nc → Fin nc → ℝ) (ep : Fin nc → Fin nf → ℝ) :
    Measure (CatTheta nc nf) :=
  (dirichlet sp).prod ((Measure.pi fun i => dirichlet (tp i)).prod (Measure.pi fun i => dirichlet (ep i)))

/-- The evidence of a data set: its likelihood, averaged over the prior. -/
noncomputable def catEvidence (sp : Fin nc → ℝ) (tp : Fin nc → Fin nc → ℝ) (ep : Fin nc → Fin nf → ℝ)
    (ss : List (ObsSeq (Fin nf))) : ℝ :=
  ∫ θ, dataLikelihood θ.1 θ.2.1 (catB θ.2.2) ss ∂catPrior sp tp ep

end Verif.Spec
