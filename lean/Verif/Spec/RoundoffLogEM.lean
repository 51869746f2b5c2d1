import Verif.Spec.RoundoffSum

/-!
# Specification: errors of expected counts
-/

set_option autoImplicit false

namespace Verif.Spec

/-- `x` is the non-negative number `y` up to a relative error `δ` and an absolute one `a`; zero stays
exactly zero. -/
def CountNear (δ a : ℝ) (x : XF) (y : ℝ) : Prop :=
  0 ≤ y ∧ ∃ r, x = .fin r ∧ |r - y| ≤ δ * y + a ∧ (y = 0 → r = 0)

/-- Relative error of a sum of terms with relative error `δ`, after `k` additions. -/
noncomputable def stageRel (δ u : ℝ) (k : ℕ) : ℝ := (1 + δ) * (1 + u) ^ k - 1

/-- Absolute error of a sum, each of the `k` additions bringing in `b`. -/
noncomputable def stageAbs (b u : ℝ) (k : ℕ) : ℝ := (1 + u) ^ k * (k * b)

/-- Relative error of an expected count of one sequence of at most `N + 1` samples, `κ` being the error
of one step of the recursions. -/
noncomputable def seqRel (κ : ℝ) (N : ℕ) : ℝ := (6 * N + 7) * κ

/-- Relative error of the total of `c` pseudo-counts, from `M` samples and a prior each. -/
noncomputable def rowRel (u κ : ℝ) (N M c : ℕ) : ℝ := stageRel (seqRel κ N) u (M + 1 + c)

/-- Absolute error of the total of `c` pseudo-counts, from `M` samples and a prior each. -/
noncomputable def rowAbs (u η : ℝ) (M c : ℕ) : ℝ := (1 + u) ^ (M + 1 + c) * (c * (2 * M + 3) * η)

/-- The row `x` is the distribution proportional to the pseudo-counts `w`, with relative errors `δ` and
absolute ones `a` in the counts and their total.
* With no counts at all it is zero.
* With a total that the errors do not reach, each probability is accurate, and zero where it should be. -/
def ShareNear {c : ℕ} (u η δ a : ℝ) (x : Fin c → XF) (w : Fin c → ℝ) : Prop :=
  ((∑ j, w j = 0) → ∀ i, x i = .fin 0) ∧
  (0 < ∑ j, w j → 2 * (δ * ∑ j, w j + a) ≤ ∑ j, w j → ∀ i, ∃ r, x i = .fin r ∧
    |r - w i / ∑ j, w j| ≤ (4 * δ + 3 * u) * (w i / ∑ j, w j) + 8 * (a / ∑ j, w j) + η ∧
    (w i = 0 → r = 0))

/-- Everything stays in range through one EM iteration: sequences of at most `N + 1` samples, `M` samples
in all, at most `c` entries in a row, prior counts at most `Q` above one. -/
structure LogEMBudget (ρ : Rounding) (u η Ω V : ℝ) (nc N : ℕ) (ℓ eb : ℝ) (M c : ℕ) (Q : ℝ) : Prop where
  budget : LogBudget ρ u η Ω V nc N ℓ eb
  zero : ρ.rnd 0 = .fin 0
  count : Real.log N ≤ V
  xi : (3 * N + 3) * stepError u η V nc eb ≤ 1
  c_pos : 1 ≤ c
  Q_nonneg : 0 ≤ Q
  wide : 3 * (N : ℝ) ≤ Ω
  range : (1 + rowRel u (stepError u η V nc eb) N M c) * (c * (M + Q)) + rowAbs u η M c ≤ Ω

end Verif.Spec
