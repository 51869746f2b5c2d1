import Mathlib.Algebra.BigOperators.Fin
import Mathlib.Data.Real.Basic
import Mathlib.Data.Fintype.Pi

/-!
# Specification: the joint law of a hidden Markov model

Written directly from the definition of an HMM, over the reals, without reference to
any recursion of the code.  A sequence has `n+1` samples; `B t i` is the emission
likelihood of sample `t` in state `i`; a hidden path is `z : Fin (n+1) → Fin nc`.
-/

namespace Verif.Spec
open Finset

variable {nc n : ℕ}

/-- Joint weight of the hidden path `z` and the observations:
`π(z₀) · ∏ A(z_t, z_{t+1}) · ∏ B_t(z_t)`. -/
def joint (π : Fin nc → ℝ) (A : Fin nc → Fin nc → ℝ) (B : Fin (n + 1) → Fin nc → ℝ)
    (z : Fin (n + 1) → Fin nc) : ℝ :=
  π (z 0) * (∏ t : Fin n, A (z t.castSucc) (z t.succ)) * ∏ t, B t (z t)

/-- Likelihood of the observations: the sum over all hidden paths. -/
def likelihood (π : Fin nc → ℝ) (A : Fin nc → Fin nc → ℝ) (B : Fin (n + 1) → Fin nc → ℝ) : ℝ :=
  ∑ z, joint π A B z

/-- Weight of the paths that are in state `i` at time `t`. -/
def stateMass (π : Fin nc → ℝ) (A : Fin nc → Fin nc → ℝ) (B : Fin (n + 1) → Fin nc → ℝ)
    (t : Fin (n + 1)) (i : Fin nc) : ℝ :=
  ∑ z with z t = i, joint π A B z

/-- Weight of the paths that go from `i` at time `t` to `j` at time `t+1`. -/
def pairMass (π : Fin nc → ℝ) (A : Fin nc → Fin nc → ℝ) (B : Fin (n + 1) → Fin nc → ℝ)
    (t : Fin n) (i j : Fin nc) : ℝ :=
  ∑ z with z t.castSucc = i ∧ z t.succ = j, joint π A B z

/-- Posterior probability of state `i` at time `t` given the observations. -/
noncomputable def posterior (π : Fin nc → ℝ) (A : Fin nc → Fin nc → ℝ) (B : Fin (n + 1) → Fin nc → ℝ)
    (t : Fin (n + 1)) (i : Fin nc) : ℝ :=
  stateMass π A B t i / likelihood π A B

/-- Posterior probability of the transition `i → j` at time `t`. -/
noncomputable def pairPosterior (π : Fin nc → ℝ) (A : Fin nc → Fin nc → ℝ)
    (B : Fin (n + 1) → Fin nc → ℝ) (t : Fin n) (i j : Fin nc) : ℝ :=
  pairMass π A B t i j / likelihood π A B

/-- Expected number of `i → j` transitions given the observations. -/
noncomputable def expectedTransitions (π : Fin nc → ℝ) (A : Fin nc → Fin nc → ℝ)
    (B : Fin (n + 1) → Fin nc → ℝ) (i j : Fin nc) : ℝ :=
  ∑ t : Fin n, pairPosterior π A B t i j

/-- Likelihood of the first `t+1` samples. -/
def prefixLikelihood (π : Fin nc → ℝ) (A : Fin nc → Fin nc → ℝ) (B : Fin (n + 1) → Fin nc → ℝ)
    (t : Fin (n + 1)) : ℝ :=
  likelihood π A (fun s : Fin (t.val + 1) => B (Fin.castLE (by omega) s))

/-- Every predictive probability `p(x_t | x_0 … x_{t-1})` is at least `1e-300`. -/
def NoUnderflow (π : Fin nc → ℝ) (A : Fin nc → Fin nc → ℝ) (B : Fin (n + 1) → Fin nc → ℝ) : Prop :=
  (1 / 10 ^ 300 : ℝ) ≤ prefixLikelihood π A B 0 ∧
    ∀ t : Fin n, (1 / 10 ^ 300 : ℝ) ≤
      prefixLikelihood π A B t.succ / prefixLikelihood π A B t.castSucc

/-- Score of a path in an arbitrary arithmetic, summed from left to right:
`(((lπ(z₀) + lb₀(z₀)) + lA(z₀,z₁)) + lb₁(z₁)) + …`. -/
def pathScore {α : Type} [Add α] (lπ : Fin nc → α) (lA : Fin nc → Fin nc → α)
    (lb : Fin (n + 1) → Fin nc → α) (z : Fin (n + 1) → Fin nc) : α :=
  Fin.foldl n (fun s t => s + lA (z t.castSucc) (z t.succ) + lb t.succ (z t.succ))
    (lπ (z 0) + lb 0 (z 0))

end Verif.Spec
