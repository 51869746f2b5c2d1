import Verif.Spec.Train
import Verif.Spec.Mstep

/-!
# Specification: categorical models
-/

namespace Verif

namespace Spec

/-- Non-negative parameters whose distributions sum to at most one (all-zero rows, which EM can
produce, are allowed). -/
structure CatModel {nc nf : ℕ} (π : Fin nc → ℝ) (A : Fin nc → Fin nc → ℝ) (e : Fin nc → Fin nf → ℝ) :
    Prop where
  π_nonneg : ∀ i, 0 ≤ π i
  A_nonneg : ∀ i j, 0 ≤ A i j
  e_nonneg : ∀ i k, 0 ≤ e i k
  π_sum : ∑ i, π i ≤ 1
  A_sum : ∀ i, ∑ j, A i j ≤ 1
  e_sum : ∀ i, ∑ k, e i k ≤ 1

/-- Emission weights of a categorical model. -/
def catB {nc nf : ℕ} (e : Fin nc → Fin nf → ℝ) (k : Fin nf) (i : Fin nc) : ℝ := e i k

/-- Expected number of times state `i` emitted symbol `k`. -/
noncomputable def emitCount {nc nf : ℕ} (π : Fin nc → ℝ) (A : Fin nc → Fin nc → ℝ)
    (e : Fin nc → Fin nf → ℝ) (ss : List (ObsSeq (Fin nf))) (i : Fin nc) (k : Fin nf) : ℝ :=
  (ss.map fun s => ∑ t, if s.x t = k then posterior π A (s.weights (catB e)) t i else 0).sum

/-- Expected number of visits to state `i`. -/
noncomputable def visitCount {nc nf : ℕ} (π : Fin nc → ℝ) (A : Fin nc → Fin nc → ℝ)
    (e : Fin nc → Fin nf → ℝ) (ss : List (ObsSeq (Fin nf))) (i : Fin nc) : ℝ :=
  (ss.map fun s => ∑ t, posterior π A (s.weights (catB e)) t i).sum

/-- Data likelihood of a categorical model. -/
noncomputable def catL {nc nf : ℕ} (ss : List (ObsSeq (Fin nf))) (π : Fin nc → ℝ)
    (A : Fin nc → Fin nc → ℝ) (e : Fin nc → Fin nf → ℝ) : ℝ := dataLikelihood π A (catB e) ss

/-- The penalised log-likelihood of a categorical model: log-likelihood plus log-densities of the
Dirichlet priors (up to a constant). -/
noncomputable def catObjective {nc nf : ℕ} (sp : Fin nc → ℝ) (tp : Fin nc → Fin nc → ℝ)
    (ep : Fin nc → Fin nf → ℝ) (ss : List (ObsSeq (Fin nf))) (π : Fin nc → ℝ)
    (A : Fin nc → Fin nc → ℝ) (e : Fin nc → Fin nf → ℝ) : ℝ :=
  Real.log (catL ss π A e) + logDirichlet sp π + ∑ i, logDirichlet (tp i) (A i) +
    ∑ i, logDirichlet (ep i) (e i)

end Spec

end Verif
