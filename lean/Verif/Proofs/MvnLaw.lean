import Verif.Proofs.KlDiv
import Verif.Spec.Mvn
import Mathlib.Probability.Distributions.Gaussian.Multivariate
import Mathlib.MeasureTheory.Measure.Lebesgue.Basic

/-!
# The multivariate normal law: density and divergence
-/

set_option autoImplicit false

namespace Verif
open MeasureTheory ProbabilityTheory InformationTheory Spec Set Matrix
open scoped ENNReal NNReal

variable {n : ℕ}

theorem withDensity_inv_gauss :
    (gaussianReal 0 1).withDensity (fun x => (gaussianPDF 0 1 x)⁻¹) = volume := by
  rw [gaussianReal_of_var_ne_zero _ one_ne_zero]
  refine withDensity_inv_same (measurable_gaussianPDF _ _) (Filter.Eventually.of_forall fun x => ?_)
    (Filter.Eventually.of_forall fun x => ENNReal.ofReal_ne_top)
  exact (gaussianPDF_pos _ one_ne_zero x).ne'

/-- Independent standard normal variables have the product of the densities as density. -/
theorem pi_gauss_density : (Measure.pi fun _ : Fin n => gaussianReal 0 1) =
    volume.withDensity fun x : Fin n → ℝ => ∏ i, gaussianPDF 0 1 (x i) := by
  have hs : ∀ _ : Fin n, SigmaFinite ((gaussianReal 0 1).withDensity fun x => (gaussianPDF 0 1 x)⁻¹) := fun _ => by
    rw [withDensity_inv_gauss]; infer_instance
  have h := @pi_withDensity n (fun _ : Fin n => gaussianReal 0 1) (fun _ => inferInstance)
    (fun _ x => (gaussianPDF 0 1 x)⁻¹) (fun _ => (measurable_gaussianPDF _ _).inv) hs
  simp only [withDensity_inv_gauss] at h
  rw [volume_pi, ← h, ← withDensity_mul _ ?_ ?_]
  · have : ((fun x : Fin n → ℝ => ∏ i, (gaussianPDF 0 1 (x i))⁻¹) * fun x => ∏ i, gaussianPDF 0 1 (x i)) = 1 := by
      funext x
      rw [Pi.mul_apply, ← Finset.prod_mul_distrib]
      refine Finset.prod_eq_one fun i _ => ENNReal.inv_mul_cancel (gaussianPDF_pos _ one_ne_zero _).ne' ENNReal.ofReal_ne_top
    rw [this, withDensity_one]
  · exact Finset.measurable_prod _ fun i _ => ((measurable_gaussianPDF _ _).comp (measurable_pi_apply i)).inv
  · exact Finset.measurable_prod _ fun i _ => (measurable_gaussianPDF _ _).comp (measurable_pi_apply i)

theorem prod_gaussianPDF (z : Fin n → ℝ) :
    ∏ i, gaussianPDF 0 1 (z i) = ENNReal.ofReal (Real.exp (-(1 / 2) * (z ⬝ᵥ z)) / Real.sqrt ((2 * Real.pi) ^ n)) := by
  have hpi := Real.pi_pos
  simp only [gaussianPDF]
  rw [← ENNReal.ofReal_prod_of_nonneg fun i _ => gaussianPDFReal_nonneg _ _ _]
  congr 1
  simp only [gaussianPDFReal, Finset.prod_mul_distrib, sub_zero, NNReal.coe_one, mul_one, Finset.prod_const,
    Finset.card_univ, Fintype.card_fin, ← Real.exp_sum]
  have hq : Real.sqrt (2 * Real.pi) ^ n = Real.sqrt ((2 * Real.pi) ^ n) := by
    have h2 : (Real.sqrt (2 * Real.pi) ^ n) ^ 2 = (2 * Real.pi) ^ n := by
      rw [← pow_mul, mul_comm n 2, pow_mul, Real.sq_sqrt (by positivity)]
    rw [← h2, Real.sqrt_sq (by positivity)]
  rw [div_eq_mul_inv, mul_comm, inv_pow, hq]
  congr 2
  rw [dotProduct, Finset.mul_sum]
  exact Finset.sum_congr rfl fun i _ => by ring

/-- The law of `m + A z` for independent standard normal `z`. -/
theorem map_affine_density (m : Fin n → ℝ) {A : Matrix (Fin n) (Fin n) ℝ} (hA : A.det ≠ 0) :
    (Measure.pi fun _ : Fin n => gaussianReal 0 1).map (fun z => m + A *ᵥ z) =
      volume.withDensity fun x => ENNReal.ofReal (mvnPdf m (A * Aᵀ) x) := by
  have hu : IsUnit A.det := hA.isUnit
  have hT : Measurable fun z : Fin n → ℝ => m + A *ᵥ z := by
    refine measurable_const.add ?_
    exact (Matrix.toLin' A).continuous_of_finiteDimensional.measurable
  have hmap : Measure.map (fun z : Fin n → ℝ => m + A *ᵥ z) volume = ENNReal.ofReal |A.det⁻¹| • volume := by
    have e : (fun z : Fin n → ℝ => m + A *ᵥ z) = (fun x => m + x) ∘ (Matrix.toLin' A) := by
      funext z; simp
    rw [e, ← Measure.map_map (measurable_const_add m) (Matrix.toLin' A).continuous_of_finiteDimensional.measurable,
      Real.map_matrix_volume_pi_eq_smul_volume_pi hA, Measure.map_smul, map_add_left_eq_self]
  obtain ⟨f, hf⟩ : ∃ f : (Fin n → ℝ) → ℝ≥0∞, f = fun x => ∏ i, gaussianPDF 0 1 ((A⁻¹ *ᵥ (x - m)) i) := ⟨_, rfl⟩
  have hfm : Measurable f := by
    rw [hf]
    have hI : Measurable fun x : Fin n → ℝ => A⁻¹ *ᵥ (x - m) :=
      (Matrix.toLin' A⁻¹).continuous_of_finiteDimensional.measurable.comp (measurable_id.sub_const m)
    exact Finset.measurable_prod _ fun i _ => (measurable_gaussianPDF _ _).comp ((measurable_pi_apply i).comp hI)
  ext s hs
  rw [pi_gauss_density, Measure.map_apply hT hs, withDensity_apply _ (hT hs), withDensity_apply _ hs]
  have e1 : ∀ z : Fin n → ℝ, ∏ i, gaussianPDF 0 1 (z i) = f (m + A *ᵥ z) := by
    intro z
    rw [hf]
    simp [Matrix.mulVec_mulVec, Matrix.nonsing_inv_mul _ hu]
  simp only [e1]
  rw [← setLIntegral_map hs hfm hT, hmap, Measure.restrict_smul, lintegral_smul_measure, smul_eq_mul,
    ← lintegral_const_mul _ hfm]
  refine lintegral_congr fun x => ?_
  rw [hf]
  simp only []
  rw [prod_gaussianPDF, ← ENNReal.ofReal_mul (abs_nonneg _), mvnPdf, mahalanobis]
  congr 1
  have ed : (A⁻¹ *ᵥ (x - m)) ⬝ᵥ (A⁻¹ *ᵥ (x - m)) = (x - m) ⬝ᵥ ((A * Aᵀ)⁻¹ *ᵥ (x - m)) := by
    rw [Matrix.mul_inv_rev, ← Matrix.transpose_nonsing_inv, ← Matrix.mulVec_mulVec, Matrix.dotProduct_mulVec (x - m),
      Matrix.vecMul_transpose]
  rw [ed, Matrix.det_mul, Matrix.det_transpose, Real.sqrt_mul (by positivity), Real.sqrt_mul_self_eq_abs, abs_inv]
  field_simp

/-- The multivariate normal law (Mathlib's), on plain vectors. -/
noncomputable def mvnLaw (m : Fin n → ℝ) (S : Matrix (Fin n) (Fin n) ℝ) : Measure (Fin n → ℝ) :=
  (multivariateGaussian (WithLp.toLp 2 m) S).map WithLp.ofLp

instance (m : Fin n → ℝ) (S : Matrix (Fin n) (Fin n) ℝ) : IsProbabilityMeasure (mvnLaw m S) :=
  Measure.isProbabilityMeasure_map (by fun_prop)

open scoped MatrixOrder in
/-- It has the density the program computes. -/
theorem mvnLaw_density (m : Fin n → ℝ) {S : Matrix (Fin n) (Fin n) ℝ} (hS : S.PosDef) :
    mvnLaw m S = volume.withDensity fun x => ENNReal.ofReal (mvnPdf m S x) := by
  have h0 : (0 : Matrix (Fin n) (Fin n) ℝ) ≤ S := hS.posSemidef.nonneg
  have hsq : CFC.sqrt S * CFC.sqrt S = S := CFC.sqrt_mul_sqrt_self S h0
  have hd : (CFC.sqrt S).det ≠ 0 := by
    intro h
    have := hS.det_pos
    rw [← hsq, Matrix.det_mul, h, mul_zero] at this
    exact lt_irrefl _ this
  have ht : (CFC.sqrt S)ᵀ = CFC.sqrt S := by
    have := (CFC.sqrt_nonneg S).isSelfAdjoint
    rw [IsSelfAdjoint, Matrix.star_eq_conjTranspose] at this
    simpa using this
  have h := map_affine_density m hd
  rw [ht, hsq] at h
  rw [← h, mvnLaw, multivariateGaussian, ← map_pi_eq_stdGaussian, Measure.map_map (by fun_prop) (by fun_prop),
    Measure.map_map (by fun_prop) (by fun_prop)]
  congr 1

section moments
variable (m : Fin n → ℝ) {S : Matrix (Fin n) (Fin n) ℝ}

theorem memLp_mvnLaw (a : Fin n → ℝ) (i : Fin n) : MemLp (fun x : Fin n → ℝ => x i - a i) 2 (mvnLaw m S) := by
  refine MemLp.sub ?_ (memLp_const _)
  rw [mvnLaw]
  refine (memLp_map_measure_iff (measurable_pi_apply i).aestronglyMeasurable (by fun_prop)).2 ?_
  have := (IsGaussian.memLp_two_id (μ := multivariateGaussian (WithLp.toLp 2 m) S)).continuousLinearMap_comp (EuclideanSpace.proj (𝕜 := ℝ) i)
  exact this

theorem map_eval (i : Fin n) : ∫ x, x i ∂(mvnLaw m S) =
    ∫ x : EuclideanSpace ℝ (Fin n), x i ∂(multivariateGaussian (WithLp.toLp 2 m) S) := by
  have h : AEStronglyMeasurable (fun x : Fin n → ℝ => x i)
      ((multivariateGaussian (WithLp.toLp 2 m) S).map WithLp.ofLp) := (measurable_pi_apply i).aestronglyMeasurable
  rw [mvnLaw, integral_map (by fun_prop) h]

theorem integral_mvnLaw (i : Fin n) : ∫ x, x i ∂(mvnLaw m S) = m i := by
  rw [map_eval]
  have h := (EuclideanSpace.proj (𝕜 := ℝ) i).integral_comp_id_comm
    (IsGaussian.integrable_id (μ := multivariateGaussian (WithLp.toLp 2 m) S))
  rw [integral_id_multivariateGaussian] at h
  exact h

theorem cov_mvnLaw (hS : S.PosSemidef) (i j : Fin n) :
    ∫ x, (x i - m i) * (x j - m j) ∂(mvnLaw m S) = S i j := by
  have h := covariance_eval_multivariateGaussian (μ := WithLp.toLp 2 m) hS i j
  have hm : ∀ i, ∫ x : EuclideanSpace ℝ (Fin n), x i ∂(multivariateGaussian (WithLp.toLp 2 m) S) = m i := by
    intro i
    have := integral_mvnLaw (S := S) m i
    rwa [map_eval] at this
  rw [covariance, hm, hm] at h
  rw [mvnLaw, integral_map (by fun_prop) ?_]
  · exact h
  · exact (((measurable_pi_apply i).sub_const _).mul ((measurable_pi_apply j).sub_const _)).aestronglyMeasurable

/-- Second moments about any point. -/
theorem second_mvnLaw (hS : S.PosSemidef) (a : Fin n → ℝ) (i j : Fin n) :
    Integrable (fun x : Fin n → ℝ => (x i - a i) * (x j - a j)) (mvnLaw m S) ∧
    ∫ x, (x i - a i) * (x j - a j) ∂(mvnLaw m S) = S i j + (m i - a i) * (m j - a j) := by
  have hp : ∀ b : Fin n → ℝ, Integrable (fun x : Fin n → ℝ => (x i - b i) * (x j - b j)) (mvnLaw m S) := fun b =>
    (memLp_mvnLaw m b i).integrable_mul (memLp_mvnLaw m b j)
  have h1 : ∀ k, Integrable (fun x : Fin n → ℝ => x k - m k) (mvnLaw m S) := fun k =>
    (memLp_mvnLaw m m k).integrable (by norm_num)
  have h0 : ∀ k, ∫ x, (x k - m k) ∂(mvnLaw m S) = 0 := by
    intro k
    have hx : Integrable (fun x : Fin n → ℝ => x k) (mvnLaw m S) := by
      have := (memLp_mvnLaw (S := S) m 0 k).integrable (by norm_num)
      simpa using this
    rw [integral_sub hx (integrable_const _), integral_mvnLaw]
    simp
  refine ⟨hp a, ?_⟩
  have e : (fun x : Fin n → ℝ => (x i - a i) * (x j - a j)) = fun x =>
      (m i - a i) * (m j - a j) + (1 * ((x i - m i) * (x j - m j) + (m i - a i) * (x j - m j)) +
        (m j - a j) * (x i - m i)) := by
    funext x; ring
  have i2 : Integrable (fun x : Fin n → ℝ => (x i - m i) * (x j - m j) + (m i - a i) * (x j - m j)) (mvnLaw m S) :=
    (hp m).add ((h1 j).const_mul _)
  rw [e, (integral_affine i2 (h1 i) _ _ _).2, integral_add (hp m) ((h1 j).const_mul _), integral_const_mul,
    cov_mvnLaw m hS, h0, h0]
  ring

/-- Expectation of a quadratic form. -/
theorem quad_mvnLaw (hS : S.PosSemidef) (a : Fin n → ℝ) (B : Matrix (Fin n) (Fin n) ℝ) :
    Integrable (fun x : Fin n → ℝ => (x - a) ⬝ᵥ (B *ᵥ (x - a))) (mvnLaw m S) ∧
    ∫ x, (x - a) ⬝ᵥ (B *ᵥ (x - a)) ∂(mvnLaw m S) = (B * S).trace + (m - a) ⬝ᵥ (B *ᵥ (m - a)) := by
  have e : ∀ x : Fin n → ℝ, (x - a) ⬝ᵥ (B *ᵥ (x - a)) = ∑ i, ∑ j, B i j * ((x i - a i) * (x j - a j)) := by
    intro x
    simp only [dotProduct, mulVec, Finset.mul_sum, Pi.sub_apply]
    exact Finset.sum_congr rfl fun i _ => Finset.sum_congr rfl fun j _ => by ring
  have hi : ∀ i j, Integrable (fun x : Fin n → ℝ => B i j * ((x i - a i) * (x j - a j))) (mvnLaw m S) := fun i j =>
    ((second_mvnLaw m hS a i j).1).const_mul _
  have hT : S.IsHermitian := hS.1
  simp only [e]
  refine ⟨integrable_finsetSum _ fun i _ => integrable_finsetSum _ fun j _ => hi i j, ?_⟩
  rw [integral_finsetSum _ fun i _ => integrable_finsetSum _ fun j _ => hi i j]
  simp only [Matrix.trace, Matrix.diag, Matrix.mul_apply, ← Finset.sum_add_distrib]
  refine Finset.sum_congr rfl fun i _ => ?_
  rw [integral_finsetSum _ fun j _ => hi i j]
  refine Finset.sum_congr rfl fun j _ => ?_
  have : S j i = S i j := by have := hT.apply i j; simpa using this
  rw [integral_const_mul, (second_mvnLaw m hS a i j).2, this]
  ring

end moments

/-- The divergence between two multivariate normal laws. -/
theorem klDiv_mvn (m m' : Fin n → ℝ) {S S' : Matrix (Fin n) (Fin n) ℝ} (hS : S.PosDef) (hS' : S'.PosDef) :
    klDiv (mvnLaw m S) (mvnLaw m' S') = ENNReal.ofReal (klMvn m S m' S') := by
  have hpi := Real.pi_pos
  have d := hS.det_pos
  have d' := hS'.det_pos
  obtain ⟨k, hk⟩ : ∃ k, k = 1 / 2 * Real.log (S'.det / S.det) := ⟨_, rfl⟩
  have hmeas : ∀ (a : Fin n → ℝ) (B : Matrix (Fin n) (Fin n) ℝ), Measurable fun x : Fin n → ℝ => (x - a) ⬝ᵥ (B *ᵥ (x - a)) := by
    intro a B
    have h1 : ∀ i, Measurable fun x : Fin n → ℝ => (x - a) i := fun i => (measurable_pi_apply i).sub_const _
    have h2 : ∀ i, Measurable fun x : Fin n → ℝ => (B *ᵥ (x - a)) i := fun i => by
      simp only [mulVec, dotProduct]
      exact Finset.measurable_sum _ fun j _ => (h1 j).const_mul _
    simp only [dotProduct]
    exact Finset.measurable_sum _ fun i _ => (h1 i).mul (h2 i)
  have hg : Measurable fun x : Fin n → ℝ =>
      k + (-(1 / 2) * ((x - m) ⬝ᵥ (S⁻¹ *ᵥ (x - m))) + 1 / 2 * ((x - m') ⬝ᵥ (S'⁻¹ *ᵥ (x - m')))) :=
    measurable_const.add (((hmeas m _).const_mul _).add ((hmeas m' _).const_mul _))
  have h : mvnLaw m S = (mvnLaw m' S').withDensity fun x => ENNReal.ofReal (Real.exp
      (k + (-(1 / 2) * ((x - m) ⬝ᵥ (S⁻¹ *ᵥ (x - m))) + 1 / 2 * ((x - m') ⬝ᵥ (S'⁻¹ *ᵥ (x - m')))))) := by
    rw [mvnLaw_density m hS, mvnLaw_density m' hS']
    have hm : Measurable fun x : Fin n → ℝ => ENNReal.ofReal (mvnPdf m' S' x) := by
      refine ENNReal.measurable_ofReal.comp ?_
      exact (Real.measurable_exp.comp ((hmeas m' _).const_mul _)).div_const _
    refine withDensity_exp hm hg (Filter.Eventually.of_forall fun x => ?_)
    have hp : ∀ (m : Fin n → ℝ) (S : Matrix (Fin n) (Fin n) ℝ), 0 < S.det → mvnPdf m S x =
        Real.exp (-(1 / 2) * Real.log ((2 * Real.pi) ^ n) - 1 / 2 * Real.log S.det - 1 / 2 * ((x - m) ⬝ᵥ (S⁻¹ *ᵥ (x - m)))) := by
      intro m S hd
      have hq : 0 < (2 * Real.pi) ^ n := by positivity
      have e1 : Real.sqrt ((2 * Real.pi) ^ n * S.det) =
          Real.exp (1 / 2 * Real.log ((2 * Real.pi) ^ n) + 1 / 2 * Real.log S.det) := by
        rw [← mul_add, ← Real.log_mul hq.ne' hd.ne', show 1 / 2 * Real.log ((2 * Real.pi) ^ n * S.det) =
          Real.log ((2 * Real.pi) ^ n * S.det) / 2 by ring, ← Real.log_sqrt (by positivity),
          Real.exp_log (Real.sqrt_pos.2 (by positivity))]
      rw [mvnPdf, e1, ← Real.exp_sub, mahalanobis]
      congr 1
      ring
    rw [hp m S d, hp m' S' d', ← ENNReal.ofReal_mul (Real.exp_pos _).le, ← Real.exp_add, hk, Real.log_div d'.ne' d.ne']
    congr 2
    ring
  have q1 := quad_mvnLaw m hS.posSemidef m S⁻¹
  have q2 := quad_mvnLaw m hS.posSemidef m' S'⁻¹
  obtain ⟨j, e⟩ := integral_affine q1.1 q2.1 k (-(1 / 2)) (1 / 2)
  have htr : (S⁻¹ * S).trace = n := by
    rw [Matrix.nonsing_inv_mul _ d.ne'.isUnit, Matrix.trace_one, Fintype.card_fin]
  rw [klDiv_of_density hg h j, e, q1.2, q2.2, htr, hk, klMvn]
  congr 1
  simp
  ring

end Verif
