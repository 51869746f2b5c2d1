import Verif.Proofs.WishartLaw
import Verif.Proofs.GaussEvidence

/-!
# The Wishart law with an integer number of degrees of freedom

The sum of the outer products of independent normal vectors has the law `wishart`.
-/

set_option autoImplicit false

namespace Verif
open MeasureTheory ProbabilityTheory Spec Set Matrix Filter Topology Gaussian
open scoped ENNReal NNReal MatrixOrder

variable {n : ℕ} {S C : Matrix (Fin n) (Fin n) ℝ}

theorem lintegral_exp_quad (hS : S.PosDef) (hC : (S + C).PosDef) :
    ∫⁻ x, ENNReal.ofReal (Real.exp (-(1 / 2) * (x ⬝ᵥ (C *ᵥ x)))) ∂mvnLaw 0 S⁻¹ =
      ENNReal.ofReal (Real.exp (1 / 2 * (Real.log S.det - Real.log (S + C).det))) := by
  have d := det_pos hS
  have d' := det_pos hC
  have hq : Measurable fun x : Fin n → ℝ => x ⬝ᵥ (C *ᵥ x) := by
    have : Continuous fun x : Fin n → ℝ => x ⬝ᵥ (C *ᵥ x) := by
      simp only [dotProduct, Matrix.mulVec]
      fun_prop
    exact this.measurable
  have hm := measurable_mvnPdf (0 : Fin n → ℝ) S⁻¹
  rw [mvnLaw_density 0 hS.inv, lintegral_withDensity_eq_lintegral_mul _ (by fun_prop) (by fun_prop)]
  have e : ∀ x : Fin n → ℝ, ((fun x => ENNReal.ofReal (mvnPdf 0 S⁻¹ x)) *
      fun x => ENNReal.ofReal (Real.exp (-(1 / 2) * (x ⬝ᵥ (C *ᵥ x))))) x =
      ENNReal.ofReal (Real.exp (1 / 2 * (Real.log S.det - Real.log (S + C).det))) * ENNReal.ofReal (mvnPdf 0 (S + C)⁻¹ x) := by
    intro x
    have hp : ∀ {M : Matrix (Fin n) (Fin n) ℝ}, M.PosDef → mvnPdf 0 M⁻¹ x =
        Real.exp (1 / 2 * Real.log M.det - 1 / 2 * Real.log ((2 * Real.pi) ^ n) - 1 / 2 * (x ⬝ᵥ (M *ᵥ x))) := by
      intro M hM
      have hM' := det_pos hM
      have hpi : 0 < (2 * Real.pi) ^ n := pow_pos (by positivity) _
      have e1 : Real.sqrt ((2 * Real.pi) ^ n * (M⁻¹).det) =
          Real.exp (1 / 2 * Real.log ((2 * Real.pi) ^ n) - 1 / 2 * Real.log M.det) := by
        rw [← mul_sub, ← Real.log_div hpi.ne' hM'.ne', Matrix.det_nonsing_inv, Ring.inverse_eq_inv', ← div_eq_mul_inv,
          show 1 / 2 * Real.log ((2 * Real.pi) ^ n / M.det) = Real.log ((2 * Real.pi) ^ n / M.det) / 2 by ring,
          ← Real.log_sqrt (by positivity), Real.exp_log (Real.sqrt_pos.2 (by positivity))]
      rw [mvnPdf, e1, ← Real.exp_sub, mahalanobis, Matrix.nonsing_inv_nonsing_inv _ hM'.ne'.isUnit, sub_zero]
      congr 1
      ring
    rw [Pi.mul_apply, hp hS, hp hC, ← ENNReal.ofReal_mul (Real.exp_pos _).le, ← ENNReal.ofReal_mul (Real.exp_pos _).le,
      ← Real.exp_add, ← Real.exp_add, Matrix.add_mulVec, dotProduct_add]
    congr 2
    ring
  simp only [e]
  rw [lintegral_const_mul' _ _ ENNReal.ofReal_ne_top, lintegral_mvnPdf _ hC.inv, mul_one]

/-- The Wishart law as the law of a sum of outer products. -/
theorem wishart_outer {k : ℕ} (hk : n ≤ k) (hS : S.PosDef) :
    (Measure.pi fun _ : Fin k => mvnLaw 0 S⁻¹).map (fun x => Matrix.of.symm (∑ i, Matrix.vecMulVec (x i) (x i))) =
      wishart k S⁻¹ := by
  have hν : (n : ℝ) - 1 < (k : ℝ) := by
    have : (n : ℝ) ≤ k := by exact_mod_cast hk
    linarith
  have := isProbabilityMeasure_wishart hν S⁻¹
  have hm : Measurable fun x : Fin k → Fin n → ℝ => Matrix.of.symm (∑ i, Matrix.vecMulVec (x i) (x i)) := by
    refine measurable_pi_iff.2 fun a => measurable_pi_iff.2 fun b => ?_
    simp only [Matrix.of_symm_apply, Matrix.sum_apply, Matrix.vecMulVec_apply]
    fun_prop
  have := Measure.isProbabilityMeasure_map (μ := Measure.pi fun _ : Fin k => mvnLaw 0 S⁻¹) hm.aemeasurable
  refine ext_of_laplace fun L => ?_
  obtain ⟨C, hC, hL⟩ := exists_symm L
  filter_upwards [laplace_trace hν hS hC] with s hs
  have hLm : Measurable fun Λ : Fin n → Fin n → ℝ => ENNReal.ofReal (Real.exp (s * L Λ)) := by
    have := L.continuous.measurable
    fun_prop
  have er : ∫⁻ Λ, ENNReal.ofReal (Real.exp (s * L Λ)) ∂wishart k S⁻¹ =
      ENNReal.ofReal (Real.exp ((k : ℝ) / 2 * (Real.log S.det - Real.log (S + s • (-2 : ℝ) • C).det))) := by
    rw [← hs.2]
    refine lintegral_congr_ae ?_
    filter_upwards [ae_wishart hν hS.inv] with Λ hΛ
    rw [hL Λ hΛ.isHermitian]
  have el : ∫⁻ Λ, ENNReal.ofReal (Real.exp (s * L Λ)) ∂(Measure.pi fun _ : Fin k => mvnLaw 0 S⁻¹).map
      (fun x => Matrix.of.symm (∑ i, Matrix.vecMulVec (x i) (x i))) =
      ENNReal.ofReal (Real.exp ((k : ℝ) / 2 * (Real.log S.det - Real.log (S + s • (-2 : ℝ) • C).det))) := by
    rw [lintegral_map hLm hm]
    have e : ∀ x : Fin k → Fin n → ℝ, ENNReal.ofReal (Real.exp (s * L (Matrix.of.symm (∑ i, Matrix.vecMulVec (x i) (x i))))) =
        ∏ i, ENNReal.ofReal (Real.exp (-(1 / 2) * (x i ⬝ᵥ ((s • (-2 : ℝ) • C) *ᵥ x i)))) := by
      intro x
      have hsym : (Matrix.of (Matrix.of.symm (∑ i, Matrix.vecMulVec (x i) (x i)))).IsHermitian := by
        rw [Equiv.apply_symm_apply]
        ext a b
        simp [Matrix.sum_apply, Matrix.vecMulVec_apply, mul_comm]
      rw [hL _ hsym, ← ENNReal.ofReal_prod_of_nonneg fun i _ => (Real.exp_pos _).le, ← Real.exp_sum, Equiv.apply_symm_apply,
        Matrix.sum_mul, Matrix.trace_sum, Finset.mul_sum]
      congr 2
      refine Finset.sum_congr rfl fun i _ => ?_
      rw [Matrix.trace_mul_comm, trace_outer, Matrix.smul_mulVec, Matrix.smul_mulVec, dotProduct_smul, dotProduct_smul]
      simp only [smul_eq_mul]
      ring
    have hq : Measurable fun x : Fin n → ℝ => ENNReal.ofReal (Real.exp (-(1 / 2) * (x ⬝ᵥ ((s • (-2 : ℝ) • C) *ᵥ x)))) := by
      have : Continuous fun x : Fin n → ℝ => x ⬝ᵥ ((s • (-2 : ℝ) • C) *ᵥ x) := by
        simp only [dotProduct, Matrix.mulVec]
        fun_prop
      have := this.measurable
      fun_prop
    simp only [e]
    rw [lintegral_fin_prod (fun _ => mvnLaw 0 S⁻¹) (fun _ x => ENNReal.ofReal (Real.exp
      (-(1 / 2) * (x ⬝ᵥ ((s • (-2 : ℝ) • C) *ᵥ x))))) fun _ => hq]
    simp only [lintegral_exp_quad hS hs.1, Finset.prod_const, Finset.card_univ, Fintype.card_fin]
    rw [← ENNReal.ofReal_pow (Real.exp_pos _).le, ← Real.exp_nat_mul]
    congr 2
    ring
  exact ⟨el.trans er.symm, el ▸ ENNReal.ofReal_ne_top⟩

end Verif
