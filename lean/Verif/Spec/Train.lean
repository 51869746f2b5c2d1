import Verif.Spec.Data
import Verif.Spec.Represents

/-!
# Specification: expected statistics over a data set
-/

namespace Verif.Spec
variable {nc : ℕ} {D : Type}

/-- When one E-step of the given implementation is defined on a sequence: positive likelihood for
`log`, no predictive probability below `1e-300` for `scaling`. -/
def EstepOk {n : ℕ} : Impl → (Fin nc → ℝ) → (Fin nc → Fin nc → ℝ) →
    (Fin (n + 1) → Fin nc → ℝ) → Prop
  | .log, π, A, B => 0 < likelihood π A B
  | .scaling, π, A, B => NoUnderflow π A B

/-- Likelihood of a data set: the product over its (independent) sequences. -/
def dataLikelihood (π : Fin nc → ℝ) (A : Fin nc → Fin nc → ℝ) (b : D → Fin nc → ℝ)
    (ss : List (ObsSeq D)) : ℝ :=
  (ss.map fun s => likelihood π A (s.weights b)).prod

/-- Expected number of sequences that start in state `i`. -/
noncomputable def startStat (π : Fin nc → ℝ) (A : Fin nc → Fin nc → ℝ) (b : D → Fin nc → ℝ)
    (ss : List (ObsSeq D)) (i : Fin nc) : ℝ :=
  (ss.map fun s => posterior π A (s.weights b) 0 i).sum

/-- Expected number of `i → j` transitions. -/
noncomputable def transStat (π : Fin nc → ℝ) (A : Fin nc → Fin nc → ℝ) (b : D → Fin nc → ℝ)
    (ss : List (ObsSeq D)) (i j : Fin nc) : ℝ :=
  (ss.map fun s => expectedTransitions π A (s.weights b) i j).sum

/-- Expected value of a weighted count: `Σ_s Σ_t P(z_t = i) f(x_t)`. -/
noncomputable def obsStat (π : Fin nc → ℝ) (A : Fin nc → Fin nc → ℝ) (b : D → Fin nc → ℝ)
    (ss : List (ObsSeq D)) (i : Fin nc) (f : D → ℝ) : ℝ :=
  (ss.map fun s => ∑ t, posterior π A (s.weights b) t i * f (s.x t)).sum

/-- Every state is on a path of positive joint probability for some sequence of the data set. -/
def EveryStateUsed (π : Fin nc → ℝ) (A : Fin nc → Fin nc → ℝ) (b : D → Fin nc → ℝ)
    (ss : List (ObsSeq D)) : Prop :=
  ∀ i, ∃ s ∈ ss, ∃ (z : Fin (s.n + 1) → Fin nc) (t : Fin (s.n + 1)),
    0 < joint π A (s.weights b) z ∧ z t = i

end Verif.Spec
