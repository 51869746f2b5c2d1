import Verif.Spec.RoundoffLog

/-!
# Specification: errors of sums computed from logarithms
-/

set_option autoImplicit false

namespace Verif.Spec

/-- `x` is the logarithm of `p` up to `e` (`-inf` for zero). -/
def LogWithin (e : ℝ) (x : XF) (p : ℝ) : Prop :=
  (p = 0 ∧ x = .ninf) ∨ (0 < p ∧ ∃ r, x = .fin r ∧ |r - Real.log p| ≤ e)

/-- `p` is zero, or its logarithm is at most `W` in magnitude. -/
def LogBound (W p : ℝ) : Prop := p = 0 ∨ 0 < p ∧ |Real.log p| ≤ W

/-- Error of one rounding of a number of magnitude at most `4 V + 4`. -/
noncomputable def unitError (u η V : ℝ) : ℝ := u * (4 * V + 4) + η

/-- Relative error of a sum of `nc` exponentials, the largest of them being one: each argument is
rounded, then its exponential, then the partial sums. -/
noncomputable def sumExpError (u η V : ℝ) (nc : ℕ) : ℝ := 2 * unitError u η V + 2 * u + 2 * nc * (u + η)

/-- Error one `logsumexp` adds. -/
noncomputable def lseError (u η V : ℝ) (nc : ℕ) : ℝ := 2 * sumExpError u η V nc + 2 * unitError u η V

/-- Error one step of the recursions in the log domain adds, the emission log-likelihoods being given
up to `eb`: two terms of `logsumexp`, and the log-likelihood. -/
noncomputable def stepError (u η V : ℝ) (nc : ℕ) (eb : ℝ) : ℝ :=
  lseError u η V nc + 3 * unitError u η V + eb

/-- Rounding is accurate over the range of the logarithms of magnitude up to `V` and of sums of `nc`
exponentials, and errors are small enough not to add up to one. -/
structure LogRange (ρ : Rounding) (u η Ω V : ℝ) (nc : ℕ) : Prop where
  acc : Accurate ρ u η Ω
  V_nonneg : 0 ≤ V
  card : Real.log nc ≤ V
  range : 4 * V + 4 ≤ Ω
  width : 2 * (nc : ℝ) ≤ Ω
  small : 2 * sumExpError u η V nc ≤ 1

variable {nc : ℕ}

/-- Growth of the logarithms in one step of the recursions over `nc` states, the logarithms of the
non-zero parameters being at most `ℓ`. -/
noncomputable def stepSpan (ℓ : ℝ) (nc : ℕ) : ℝ := 2 * ℓ + Real.log nc

/-- Sequences of at most `N + 1` samples, `nc` states, log-likelihoods given up to `eb`, non-zero
parameters with logarithms at most `ℓ`: everything stays in range and the errors are below one. -/
structure LogBudget (ρ : Rounding) (u η Ω V : ℝ) (nc N : ℕ) (ℓ eb : ℝ) : Prop where
  range : LogRange ρ u η Ω V nc
  ℓ_nonneg : 0 ≤ ℓ
  eb_nonneg : 0 ≤ eb
  depth : (N + 1) * stepSpan ℓ nc ≤ V
  total : (2 * N + 3) * stepError u η V nc eb ≤ 1

/-- The floating-point model `m` stands for the real one, whose non-zero parameters have logarithms at
most `ℓ`: its parameters are those numbers, and the log-likelihoods the emission code returns are
accurate up to `eb`. -/
structure LogWithinModel {ρ : Rounding} {Obs D : Type} (m : Hmm (RX ρ) nc Obs) (obs : D → Obs) (ℓ eb : ℝ)
    (π : Fin nc → ℝ) (A : Fin nc → Fin nc → ℝ) (b : D → Fin nc → ℝ) : Prop where
  π_bound : ∀ i, LogBound ℓ (π i)
  A_bound : ∀ i j, LogBound ℓ (A i j)
  b_bound : ∀ o i, LogBound ℓ (b o i)
  startprob : ∀ i, m.startprob i = XF.fin (π i)
  transmat : ∀ i j, m.transmat i j = XF.fin (A i j)
  lik : ∀ X : List D, ∃ rows, m.computeLogLikelihood (X.map obs) = .ok rows ∧
    List.Forall₂ (fun (row : Row (RX ρ) nc) o => ∀ i, LogWithin eb (row i) (b o i)) rows X

end Verif.Spec
