import Verif.Spec.Mvn

/-!
# Specification: Gaussian mixtures per state
-/

namespace Verif.Spec
variable {nc nm nf : ℕ} {D : Type}

/-- Density of a mixture: `w` weights, `d` component densities at one point. -/
noncomputable def mixture (w d : Fin nm → ℝ) : ℝ := ∑ k, w k * d k

/-- Probability that component `k` produced the point. -/
noncomputable def responsibility (w d : Fin nm → ℝ) (k : Fin nm) : ℝ := w k * d k / mixture w d

/-- Hyper-parameters `weights_prior`, `means_prior`, `means_weight`. -/
structure GmmPrior (nc nm nf : ℕ) where
  wp : Fin nc → Fin nm → ℝ
  mp : Fin nc → Fin nm → Fin nf → ℝ
  mw : Fin nc → Fin nm → ℝ

/-- The default hyper-parameters: no prior at all. -/
def GmmPrior.flat : GmmPrior nc nm nf := ⟨fun _ _ => 1, fun _ _ _ => 0, fun _ _ => 0⟩

end Verif.Spec
