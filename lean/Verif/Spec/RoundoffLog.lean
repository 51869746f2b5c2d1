import Verif.Num.Rounded
import Verif.Spec.Paths
import Verif.Spec.Data
import Verif.Model.Base
import Mathlib.Analysis.SpecialFunctions.Log.Basic

/-!
# Specification: errors of sums of logarithms
-/

set_option autoImplicit false

namespace Verif.Spec

/-- Results of magnitude at most `Ω` are rounded with relative error `u`, or with absolute error `η`
where they underflow: the standard model of floating-point arithmetic with gradual underflow. -/
structure Accurate (ρ : Rounding) (u η Ω : ℝ) : Prop where
  u_nonneg : 0 ≤ u
  η_nonneg : 0 ≤ η
  rnd : ∀ r, |r| ≤ Ω → ∃ x, ρ.rnd r = .fin x ∧ |x - r| ≤ u * |r| + η

/-- Error of a sum of `c` rounded numbers, of magnitudes adding up to `W`, with `k` roundings one after
the other: about `k u W + c η`. -/
noncomputable def sumError (u η : ℝ) (k c : ℕ) (W : ℝ) : ℝ :=
  ((1 + u) ^ k - 1) * W + (1 + u) ^ k * (c * η)

/-- `x` is the logarithm of `b` up to `k` relative errors and `c` absolute ones (`-inf` for zero). -/
def LogNear (u η : ℝ) (k c : ℕ) (x : XF) (b : ℝ) : Prop :=
  (b = 0 ∧ x = .ninf) ∨ (0 < b ∧ ∃ r, x = .fin r ∧ |r - Real.log b| ≤ sumError u η k c |Real.log b|)

variable {nc n : ℕ}

/-- Sum of the absolute logarithms of the factors of a path. -/
noncomputable def logMass (π : Fin nc → ℝ) (A : Fin nc → Fin nc → ℝ) (B : Fin (n + 1) → Fin nc → ℝ)
    (z : Fin (n + 1) → Fin nc) : ℝ :=
  |Real.log (π (z 0))| + ∑ t, |Real.log (B t (z t))| +
    ∑ t : Fin n, |Real.log (A (z t.castSucc) (z t.succ))|

/-- Roundings one after the other in the score of a path of `n + 1` samples. -/
def scoreRoundings (n kb : ℕ) : ℕ := kb + 2 + 2 * n

/-- Rounded numbers in the score of a path of `n + 1` samples. -/
def scoreTerms (n cb : ℕ) : ℕ := (cb + 2) + n * (cb + 3)

/-- Bound on the error of the score of a path. -/
noncomputable def pathError (u η : ℝ) (kb cb : ℕ) (π : Fin nc → ℝ) (A : Fin nc → Fin nc → ℝ)
    (B : Fin (n + 1) → Fin nc → ℝ) (z : Fin (n + 1) → Fin nc) : ℝ :=
  sumError u η (scoreRoundings n kb) (scoreTerms n cb) (logMass π A B z)

/-- The floating-point model `m` stands for the real one: its parameters are those numbers, and the
log-likelihoods the emission code returns are accurate up to `kb` relative and `cb` absolute errors. -/
structure LogApproximates {ρ : Rounding} {Obs D : Type} (m : Hmm (RX ρ) nc Obs) (obs : D → Obs) (u η : ℝ)
    (kb cb : ℕ) (π : Fin nc → ℝ) (A : Fin nc → Fin nc → ℝ) (b : D → Fin nc → ℝ) : Prop where
  π_nonneg : ∀ i, 0 ≤ π i
  A_nonneg : ∀ i j, 0 ≤ A i j
  b_nonneg : ∀ o i, 0 ≤ b o i
  startprob : ∀ i, m.startprob i = XF.fin (π i)
  transmat : ∀ i j, m.transmat i j = XF.fin (A i j)
  lik : ∀ X : List D, ∃ rows, m.computeLogLikelihood (X.map obs) = .ok rows ∧
    List.Forall₂ (fun (row : Row (RX ρ) nc) o => ∀ i, LogNear u η kb cb (row i) (b o i)) rows X

end Verif.Spec
