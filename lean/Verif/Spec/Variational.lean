import Verif.Spec.Kl
import Verif.Spec.Train

/-!
# Specification: variational Bayes for HMMs

Beal, "Variational algorithms for approximate Bayesian inference", chapter 3 (the reference of
vhmm.py): Dirichlet posteriors over the start distribution and the rows of the transition matrix.
-/

namespace Verif.Spec
variable {n nc nf : ℕ} {D : Type}

/-- `exp E[ln p_i]` for `p ~ Dir(a)`. -/
noncomputable def expWeight (a : Fin n → ℝ) (i : Fin n) : ℝ :=
  Real.exp (digamma (a i) - digamma (∑ k, a k))

/-- The mean of `Dir(a)`. -/
noncomputable def dirMean (a : Fin n → ℝ) (i : Fin n) : ℝ := a i / ∑ k, a k

/-- The variational lower bound of a model whose emissions contribute the weights `b` and the
divergence `kl` from their prior: the log-likelihood of the data under the weights `exp E[ln p]`
minus the divergences of the posteriors `s`, `t` from the priors `sp`, `tp`. -/
noncomputable def lowerBound (sp : Fin nc → ℝ) (tp : Fin nc → Fin nc → ℝ) (ss : List (ObsSeq D))
    (s : Fin nc → ℝ) (t : Fin nc → Fin nc → ℝ) (b : D → Fin nc → ℝ) (kl : ℝ) : ℝ :=
  Real.log (dataLikelihood (expWeight s) (fun i => expWeight (t i)) b ss)
    - klDirichlet s sp - ∑ i, klDirichlet (t i) (tp i) - kl

/-- Number of samples of a data set. -/
def numSamples (ss : List (ObsSeq D)) : ℕ := (ss.map fun s => s.n + 1).sum

/-- Number of transitions of a data set. -/
def numTransitions (ss : List (ObsSeq D)) : ℕ := (ss.map fun s => s.n).sum

end Verif.Spec
