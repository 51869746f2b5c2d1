import Verif.Model.Base
import Verif.Num.XF
import Verif.Spec.Paths

/-!
# Which real-valued HMM an estimator stands for
-/

namespace Verif.Spec

/-- The checked estimator `m` has start probabilities `π`, transition matrix `A` and
per-sample emission likelihoods `b`; all are finite and non-negative.  (Stochasticity is a
separate hypothesis where it is needed.)  `obs : D → Obs` encodes the valid samples as rows of
`X` (for instance symbols `Fin nf` as integers).  The last two fields say that the two emission
methods return the likelihoods and their logarithms, one row per sample. -/
structure Represents {nc : ℕ} {Obs D : Type} (m : Hmm XF nc Obs) (obs : D → Obs) (π : Fin nc → ℝ)
    (A : Fin nc → Fin nc → ℝ) (b : D → Fin nc → ℝ) : Prop where
  startprob_eq : m.startprob = fun i => XF.fin (π i)
  transmat_eq : m.transmat = fun i j => XF.fin (A i j)
  π_nonneg : ∀ i, 0 ≤ π i
  A_nonneg : ∀ i j, 0 ≤ A i j
  b_nonneg : ∀ o i, 0 ≤ b o i
  lik_eq : ∀ X : List D, m.computeLikelihood (X.map obs) = .ok (X.map fun o i => XF.fin (b o i))
  loglik_eq : ∀ X : List D, m.computeLogLikelihood (X.map obs) = .ok
    (X.map fun o i => FloatLike.log (XF.fin (b o i)))

/-- `π` and the rows of `A` are probability distributions. -/
structure Stochastic {nc : ℕ} (π : Fin nc → ℝ) (A : Fin nc → Fin nc → ℝ) : Prop where
  π_sum : ∑ i, π i = 1
  A_sum : ∀ i, ∑ j, A i j = 1

end Verif.Spec
