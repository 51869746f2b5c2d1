import Verif.Spec.Variational
import Verif.Spec.Categorical

/-!
# Specification: variational Bayes for categorical HMMs
-/

namespace Verif.Spec
variable {nc nf : ℕ}

/-- The weights `exp E[ln e_ik]`. -/
noncomputable def expWeights (e : Fin nc → Fin nf → ℝ) (i : Fin nc) (k : Fin nf) : ℝ := expWeight (e i) k

/-- `s k`, `t k`, `e k` are the posterior concentrations after `k` conjugate updates: prior plus
expected counts under the weights of the previous posteriors, for the parameters named in
`params`. -/
structure CatUpdates (sp : Fin nc → ℝ) (tp : Fin nc → Fin nc → ℝ) (ep : Fin nc → Fin nf → ℝ)
    (params : List Char) (ss : List (ObsSeq (Fin nf))) (s : ℕ → Fin nc → ℝ)
    (t : ℕ → Fin nc → Fin nc → ℝ) (e : ℕ → Fin nc → Fin nf → ℝ) : Prop where
  start : ∀ k, s (k + 1) = if 's' ∈ params then
    fun i => sp i + startStat (expWeight (s k)) (expWeights (t k)) (catB (expWeights (e k))) ss i else s k
  trans : ∀ k, t (k + 1) = if 't' ∈ params then
    fun i j => tp i j + transStat (expWeight (s k)) (expWeights (t k)) (catB (expWeights (e k))) ss i j
    else t k
  emit : ∀ k, e (k + 1) = if 'e' ∈ params then
    fun i v => ep i v + emitCount (expWeight (s k)) (expWeights (t k)) (expWeights (e k)) ss i v else e k

/-- The variational lower bound of a categorical model. -/
noncomputable def catLowerBound (sp : Fin nc → ℝ) (tp : Fin nc → Fin nc → ℝ) (ep : Fin nc → Fin nf → ℝ)
    (ss : List (ObsSeq (Fin nf))) (s : Fin nc → ℝ) (t : Fin nc → Fin nc → ℝ) (e : Fin nc → Fin nf → ℝ) : ℝ :=
  lowerBound sp tp ss s t (catB (expWeights e)) (∑ i, klDirichlet (e i) (ep i))

end Verif.Spec
