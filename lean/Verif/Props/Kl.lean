import Verif.Proofs.Kl

/-!
# KL divergences (C56)

For library routines that are exact (`Sci.Exact`, met by `Sci.real`), each function of
`_kl_divergence.py` returns the closed form of the divergence, without an `AssertionError`; it is not
negative, and it is 0 when the two distributions coincide.
-/

namespace Verif
open Spec XF

variable {n : ℕ} {sci : Sci XF}

/-- **C56** Dirichlet. -/
theorem C56_dirichlet (hsci : sci.Exact) [NeZero n] {q p : Fin n → ℝ} (hq : ∀ i, 0 < q i) (hp : ∀ i, 0 < p i) :
    Kl.dirichlet sci (fun i => fin (q i)) (fun i => fin (p i)) = fin (klDirichlet q p) ∧
    0 ≤ klDirichlet q p ∧ klDirichlet q q = 0 :=
  ⟨Kl.dirichlet_fin hsci hq hp, klDirichlet_nonneg hq hp, klDirichlet_self q⟩

/-- **C56** Normal: the assertion does not fire. -/
theorem C56_normal (m m' : ℝ) {v v' : ℝ} (hv : 0 < v) (hv' : 0 < v') :
    Kl.normal (fin m) (fin v) (fin m') (fin v') = .ok (fin (klNormal m v m' v')) ∧
    0 ≤ klNormal m v m' v' ∧ klNormal m v m v = 0 :=
  ⟨Kl.normal_fin m m' hv hv', klNormal_nonneg hv hv', klNormal_self hv⟩

/-- **C56** Multivariate normal. -/
theorem C56_mvn (hsci : sci.Exact) (m m' : Fin n → ℝ) {S S' : Matrix (Fin n) (Fin n) ℝ} (hS : S.PosDef)
    (hS' : S'.PosDef) :
    Kl.mvn sci (fun i => fin (m i)) (fun i j => fin (S i j)) (fun i => fin (m' i)) (fun i j => fin (S' i j)) =
      .ok (fin (klMvn m S m' S')) ∧
    0 ≤ klMvn m S m' S' ∧ klMvn m S m S = 0 :=
  ⟨Kl.mvn_fin hsci m m' hS hS', klMvn_nonneg hS hS', klMvn_self hS⟩

/-- **C56** Gamma (shape `b`, rate `c`): the assertion does not fire. -/
theorem C56_gamma (hsci : sci.Exact) {b c b' c' : ℝ} (hb : 0 < b) (hc : 0 < c) (hb' : 0 < b') (hc' : 0 < c') :
    Kl.gamma sci (fin b) (fin c) (fin b') (fin c') = .ok (fin (klGamma b c b' c')) ∧
    0 ≤ klGamma b c b' c' ∧ klGamma b c b c = 0 :=
  ⟨Kl.gamma_fin hsci hb hc hb' hc', klGamma_nonneg hb hc hb' hc', klGamma_self hc⟩

/-- **C56** Wishart (`ν` degrees of freedom, inverse scale `S`). -/
theorem C56_wishart (hsci : sci.Exact) [NeZero n] {ν ν' : ℝ} {S S' : Matrix (Fin n) (Fin n) ℝ} (hS : S.PosDef)
    (hS' : S'.PosDef) (hν : (n : ℝ) - 1 < ν) (hν' : (n : ℝ) - 1 < ν') :
    Kl.wishart sci (fin ν) (fun i j => fin (S i j)) (fin ν') (fun i j => fin (S' i j)) =
      .ok (fin (klWishart ν S ν' S')) ∧
    0 ≤ klWishart ν S ν' S' ∧ klWishart ν S ν S = 0 := by
  have hn : (1 : ℝ) ≤ n := by exact_mod_cast NeZero.one_le
  exact ⟨Kl.wishart_fin hsci hS hS' hν hν', klWishart_nonneg hS hS' hν hν' (by linarith) (by linarith),
    klWishart_self hS⟩

/-- **C56** `logdet`, any square matrix: the logarithm of the determinant if it is positive, `-inf` if it
is zero, NaN if it is negative. -/
theorem C56_logdet (hsci : sci.Exact) (M : Matrix (Fin n) (Fin n) ℝ) :
    Kl.logdet sci (fun i j => fin (M i j)) =
      if M.det < 0 then XF.nan else if M.det = 0 then ninf else fin (Real.log M.det) := by
  rcases lt_trichotomy M.det 0 with h | h | h
  · simp [Kl.logdet, hsci.slogdet M h.ne, sign_neg h, h]
  · simp [Kl.logdet, hsci.slogdet_zero M h, h]
  · rw [if_neg h.not_gt, if_neg h.ne', Kl.logdet_fin hsci h]

/-- The hypotheses hold for exact routines and, for example, these arguments. -/
example : Sci.real.Exact ∧
    (0 ≤ klDirichlet ![1/2, 3] ![1, 1]) ∧ 0 ≤ klNormal 0 1 2 3 ∧ 0 ≤ klGamma 1 2 3 4 ∧
    0 ≤ klWishart 3 (1 : Matrix (Fin 2) (Fin 2) ℝ) 2 ((2:ℝ) • 1) := by
  refine ⟨Sci.real_exact, (C56_dirichlet Sci.real_exact ?_ ?_).2.1, (C56_normal 0 2 ?_ ?_).2.1,
    (C56_gamma Sci.real_exact ?_ ?_ ?_ ?_).2.1,
    (C56_wishart Sci.real_exact Matrix.PosDef.one (Matrix.PosDef.one.smul two_pos) ?_ ?_).2.1⟩
  · intro i; fin_cases i <;> norm_num
  · intro i; fin_cases i <;> norm_num
  all_goals norm_num

end Verif
