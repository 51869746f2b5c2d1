import Verif.Proofs.Wishart
import Verif.Proofs.KlDiv
import Verif.Proofs.Digamma
import Mathlib.Probability.Moments.ComplexMGF
import Mathlib.LinearAlgebra.Matrix.Charpoly.Coeff
import Mathlib.Analysis.Calculus.Deriv.Polynomial

/-!
# Moments, densities and divergences of Wishart laws
-/

set_option autoImplicit false

namespace Verif
open MeasureTheory ProbabilityTheory InformationTheory Spec Set Matrix Filter Topology
open scoped ENNReal NNReal MatrixOrder

/-! ## Laplace transforms -/

section Laplace

variable {Ω : Type} [MeasurableSpace Ω] {μ : Measure Ω}

theorem zero_mem_interior_exp {X : Ω → ℝ} (hX : Measurable X)
    (h : ∀ᶠ s in 𝓝 (0 : ℝ), ∫⁻ ω, ENNReal.ofReal (Real.exp (s * X ω)) ∂μ ≠ ⊤) :
    (0 : ℝ) ∈ interior (integrableExpSet X μ) := by
  rw [mem_interior_iff_mem_nhds]
  filter_upwards [h] with s hs
  refine ⟨Measurable.aestronglyMeasurable (by fun_prop), ?_⟩
  rw [hasFiniteIntegral_iff_ofReal (Filter.Eventually.of_forall fun x => (Real.exp_pos _).le)]
  exact hs.lt_top

/-- The mean is the derivative of the logarithm of the Laplace transform. -/
theorem mean_of_laplace [IsProbabilityMeasure μ] {X : Ω → ℝ} (hX : Measurable X) {K : ℝ → ℝ} {d : ℝ}
    (h : ∀ᶠ s in 𝓝 (0 : ℝ), ∫⁻ ω, ENNReal.ofReal (Real.exp (s * X ω)) ∂μ = ENNReal.ofReal (Real.exp (K s)))
    (hK0 : K 0 = 0) (hK : HasDerivAt K d 0) : Integrable X μ ∧ ∫ ω, X ω ∂μ = d := by
  have h0 := zero_mem_interior_exp hX (μ := μ) (h.mono fun s hs => hs ▸ ENNReal.ofReal_ne_top)
  refine ⟨memLp_one_iff_integrable.1 (memLp_of_mem_interior_integrableExpSet h0 1), ?_⟩
  rw [← deriv_mgf_zero h0]
  have e : mgf X μ =ᶠ[𝓝 0] fun s => Real.exp (K s) := by
    filter_upwards [h] with s hs
    rw [mgf, integral_eq_lintegral_of_nonneg_ae (Filter.Eventually.of_forall fun x => (Real.exp_pos _).le)
      (Measurable.aestronglyMeasurable (by fun_prop)), hs, ENNReal.toReal_ofReal (Real.exp_pos _).le]
  rw [e.deriv_eq, hK.exp.deriv, hK0, Real.exp_zero, one_mul]

/-- Finite measures with the same Laplace transform near zero are equal. -/
theorem ext_of_laplace {E : Type} [NormedAddCommGroup E] [NormedSpace ℝ E] [CompleteSpace E] [MeasurableSpace E]
    [BorelSpace E] [SecondCountableTopology E] {μ ν : Measure E} [IsFiniteMeasure μ] [IsFiniteMeasure ν]
    (h : ∀ L : StrongDual ℝ E, ∀ᶠ s in 𝓝 (0 : ℝ),
      ∫⁻ v, ENNReal.ofReal (Real.exp (s * L v)) ∂μ = ∫⁻ v, ENNReal.ofReal (Real.exp (s * L v)) ∂ν ∧
      ∫⁻ v, ENNReal.ofReal (Real.exp (s * L v)) ∂μ ≠ ⊤) : μ = ν := by
  refine Measure.ext_of_charFunDual (funext fun L => ?_)
  have hL : Measurable fun v => L v := L.continuous.measurable
  have hμ := zero_mem_interior_exp hL (μ := μ) ((h L).mono fun s hs => hs.2)
  have hν := zero_mem_interior_exp hL (μ := ν) ((h L).mono fun s hs => hs.1 ▸ hs.2)
  set A := interior (integrableExpSet (fun v => L v) μ) with hA
  set B := interior (integrableExpSet (fun v => L v) ν) with hB
  have e : EqOn (complexMGF (fun v => L v) μ) (complexMGF (fun v => L v) ν) {z : ℂ | z.re ∈ A ∩ B} := by
    have a1 : AnalyticOnNhd ℂ (complexMGF (fun v => L v) μ) {z : ℂ | z.re ∈ A ∩ B} :=
      analyticOnNhd_complexMGF.mono fun z hz => hz.1
    have a2 : AnalyticOnNhd ℂ (complexMGF (fun v => L v) ν) {z : ℂ | z.re ∈ A ∩ B} :=
      analyticOnNhd_complexMGF.mono fun z hz => hz.2
    refine AnalyticOnNhd.eqOn_of_preconnected_of_frequently_eq a1 a2
      (((convex_integrableExpSet.interior.inter convex_integrableExpSet.interior).linear_preimage
        Complex.reLm).isPreconnected) (z₀ := 0) (by simpa using ⟨hμ, hν⟩) ?_
    have h_real : ∃ᶠ (x : ℝ) in 𝓝[≠] 0, complexMGF (fun v => L v) μ x = complexMGF (fun v => L v) ν x := by
      refine Eventually.frequently ?_
      filter_upwards [(h L).filter_mono nhdsWithin_le_nhds] with s hs
      rw [complexMGF_ofReal, complexMGF_ofReal, mgf, mgf,
        integral_eq_lintegral_of_nonneg_ae (Filter.Eventually.of_forall fun x => (Real.exp_pos _).le)
          (Measurable.aestronglyMeasurable (by fun_prop)),
        integral_eq_lintegral_of_nonneg_ae (Filter.Eventually.of_forall fun x => (Real.exp_pos _).le)
          (Measurable.aestronglyMeasurable (by fun_prop)), hs.1]
    rw [frequently_iff_seq_forall] at h_real ⊢
    obtain ⟨xs, hx_tendsto, hx_eq⟩ := h_real
    refine ⟨fun n => xs n, ?_, fun n => hx_eq n⟩
    rw [tendsto_nhdsWithin_iff] at hx_tendsto ⊢
    refine ⟨?_, by simpa using hx_tendsto.2⟩
    have := (Complex.continuous_ofReal.tendsto 0).comp hx_tendsto.1
    rwa [Complex.ofReal_zero] at this
  have := e (show Complex.I ∈ {z : ℂ | z.re ∈ A ∩ B} by simpa using ⟨hμ, hν⟩)
  simpa only [complexMGF, charFunDual_apply, mul_comm] using this

end Laplace

variable {n : ℕ}

/-! ## Near a positive definite matrix -/

theorem posDef_nhds {S C : Matrix (Fin n) (Fin n) ℝ} (hS : S.PosDef) (hC : C.IsHermitian) :
    ∀ᶠ s in 𝓝 (0 : ℝ), (S + s • C).PosDef := by
  have hq : ∀ᶠ s in 𝓝 (0 : ℝ), ∀ x ∈ Metric.sphere (0 : Fin n → ℝ) 1, 0 < x ⬝ᵥ ((S + s • C) *ᵥ x) := by
    refine (isCompact_sphere (0 : Fin n → ℝ) 1).eventually_forall_of_forall_eventually fun x hx => ?_
    have hc : Continuous fun z : ℝ × (Fin n → ℝ) => z.2 ⬝ᵥ ((S + z.1 • C) *ᵥ z.2) := by
      simp only [dotProduct, Matrix.mulVec, Matrix.add_apply, Matrix.smul_apply, smul_eq_mul]
      fun_prop
    refine hc.continuousAt.eventually (lt_mem_nhds ?_)
    have hx0 : x ≠ 0 := by
      rintro rfl
      simp at hx
    simpa using (Matrix.posDef_iff_dotProduct_mulVec.1 hS).2 hx0
  filter_upwards [hq] with s hs
  refine Matrix.posDef_iff_dotProduct_mulVec.2 ⟨hS.isHermitian.add ?_, fun x hx => ?_⟩
  · rw [Matrix.IsHermitian, Matrix.conjTranspose_smul, hC.eq]
    simp
  · have hn : 0 < ‖x‖ := norm_pos_iff.2 hx
    have h1 := hs (‖x‖⁻¹ • x) (by simp [norm_smul, hn.ne'])
    rw [Matrix.mulVec_smul, dotProduct_smul, smul_dotProduct, smul_eq_mul, smul_eq_mul] at h1
    have h2 := inv_pos.2 hn
    have : 0 < x ⬝ᵥ ((S + s • C) *ᵥ x) := by
      by_contra hc
      have hc := not_lt.1 hc
      have := mul_nonpos_of_nonneg_of_nonpos h2.le (mul_nonpos_of_nonneg_of_nonpos h2.le hc)
      linarith
    simpa using this

theorem hasDerivAt_det {S C : Matrix (Fin n) (Fin n) ℝ} (hS : S.det ≠ 0) :
    HasDerivAt (fun s : ℝ => (S + s • C).det) (S.det * (S⁻¹ * C).trace) 0 := by
  obtain ⟨p, hp⟩ : ∃ p : Polynomial ℝ, ∀ s : ℝ, (1 + s • (S⁻¹ * C)).det = 1 + (S⁻¹ * C).trace * s + p.eval s * s ^ 2 :=
    ⟨_, fun s => Matrix.det_one_add_smul s _⟩
  have e : (fun s : ℝ => (S + s • C).det) = fun s => S.det * (1 + (S⁻¹ * C).trace * s + p.eval s * s ^ 2) := by
    funext s
    rw [← hp, ← Matrix.det_mul, Matrix.mul_add, Matrix.mul_one, Matrix.mul_smul, ← Matrix.mul_assoc,
      Matrix.mul_nonsing_inv _ hS.isUnit, Matrix.one_mul]
  rw [e]
  have d := ((((hasDerivAt_id (0 : ℝ)).const_mul (S⁻¹ * C).trace).const_add 1).add
    ((p.hasDerivAt 0).mul ((hasDerivAt_id (0 : ℝ)).pow 2))).const_mul S.det
  simpa using d

/-! ## Moments -/

variable {ν ν' : ℝ} {S S' : Matrix (Fin n) (Fin n) ℝ}

theorem wishart_half_pos (hν : (n : ℝ) - 1 < ν) (i : Fin n) : 0 < (ν - i) / 2 := by
  have : (i : ℕ) + 1 ≤ n := i.isLt
  have : ((i : ℕ) : ℝ) + 1 ≤ n := by exact_mod_cast this
  linarith

theorem continuous_det : Continuous fun Λ : Fin n → Fin n → ℝ => (Matrix.of Λ).det :=
  Continuous.matrix_det continuous_id

theorem continuous_trace (C : Matrix (Fin n) (Fin n) ℝ) :
    Continuous fun Λ : Fin n → Fin n → ℝ => (Matrix.of Λ * C).trace := by
  simp only [Matrix.trace, Matrix.diag, Matrix.mul_apply, Matrix.of_apply]
  fun_prop

theorem laplace_trace (hν : (n : ℝ) - 1 < ν) (hS : S.PosDef) {C : Matrix (Fin n) (Fin n) ℝ}
    (hC : C.IsHermitian) : ∀ᶠ s in 𝓝 (0 : ℝ), (S + s • (-2 : ℝ) • C).PosDef ∧
      ∫⁻ Λ, ENNReal.ofReal (Real.exp (s * (Matrix.of Λ * C).trace)) ∂wishart ν S⁻¹ =
      ENNReal.ofReal (Real.exp (ν / 2 * (Real.log S.det - Real.log (S + s • (-2 : ℝ) • C).det))) := by
  have hC2 : ((-2 : ℝ) • C).IsHermitian := by
    rw [Matrix.IsHermitian, Matrix.conjTranspose_smul, hC.eq]
    simp
  filter_upwards [posDef_nhds hS hC2] with s hs
  refine ⟨hs, ?_⟩
  have h := lintegral_wishart (a := 0) hν (by simpa using hν) hS hs
  have e : ∀ Λ : Fin n → Fin n → ℝ, (Matrix.of Λ).det ^ ((0 : ℝ) / 2) *
      Real.exp (-(1 / 2) * (Matrix.of Λ * s • (-2 : ℝ) • C).trace) = Real.exp (s * (Matrix.of Λ * C).trace) := by
    intro Λ
    rw [zero_div, Real.rpow_zero, one_mul, Matrix.mul_smul, Matrix.mul_smul, Matrix.trace_smul, Matrix.trace_smul]
    simp only [smul_eq_mul]
    congr 1
    ring
  simp only [e] at h
  rw [h]
  congr 1
  rw [Finset.prod_eq_one, one_mul, mul_sub, sub_eq_add_neg, Real.exp_add, Real.rpow_def_of_pos hS.det_pos,
    Real.rpow_def_of_pos hs.det_pos]
  · congr 2
    · ring
    · ring
  · intro i _
    rw [zero_div, Real.rpow_zero, one_mul, add_zero, div_self (Real.Gamma_pos_of_pos (wishart_half_pos hν i)).ne']

theorem mean_trace (hν : (n : ℝ) - 1 < ν) (hS : S.PosDef) {C : Matrix (Fin n) (Fin n) ℝ} (hC : C.IsHermitian) :
    Integrable (fun Λ : Fin n → Fin n → ℝ => (Matrix.of Λ * C).trace) (wishart ν S⁻¹) ∧
      ∫ Λ, (Matrix.of Λ * C).trace ∂wishart ν S⁻¹ = ν * (S⁻¹ * C).trace := by
  have := isProbabilityMeasure_wishart hν S⁻¹
  have d := (((hasDerivAt_det (S := S) (C := (-2 : ℝ) • C) hS.det_pos.ne').log (by simpa using hS.det_pos.ne')).const_sub
    (Real.log S.det)).const_mul (ν / 2)
  refine mean_of_laplace (continuous_trace C).measurable ((laplace_trace hν hS hC).mono fun s hs => hs.2) (by simp) ?_
  refine d.congr_deriv ?_
  have := hS.det_pos.ne'
  simp only [zero_smul, add_zero, Matrix.mul_smul, Matrix.trace_smul, smul_eq_mul]
  field_simp

/-- The mean of a Wishart law, along any matrix. -/
theorem mean_trace' (hν : (n : ℝ) - 1 < ν) (hS : S.PosDef) (C : Matrix (Fin n) (Fin n) ℝ) :
    Integrable (fun Λ : Fin n → Fin n → ℝ => (Matrix.of Λ * C).trace) (wishart ν S⁻¹) ∧
      ∫ Λ, (Matrix.of Λ * C).trace ∂wishart ν S⁻¹ = ν * (S⁻¹ * C).trace := by
  have hsym : ∀ M : Matrix (Fin n) (Fin n) ℝ, Mᵀ = M → (M * C).trace = (M * ((1 / 2 : ℝ) • (C + Cᵀ))).trace := by
    intro M hM
    have : (M * Cᵀ).trace = (M * C).trace := by
      conv_lhs => rw [← hM]
      rw [← Matrix.transpose_mul, Matrix.trace_transpose, Matrix.trace_mul_comm]
    rw [Matrix.mul_smul, Matrix.trace_smul, Matrix.mul_add, Matrix.trace_add, this, smul_eq_mul]
    ring
  have e : (fun Λ : Fin n → Fin n → ℝ => (Matrix.of Λ * C).trace) =ᵐ[wishart ν S⁻¹]
      fun Λ => (Matrix.of Λ * ((1 / 2 : ℝ) • (C + Cᵀ))).trace := by
    filter_upwards [ae_wishart hν hS.inv] with Λ hΛ
    exact hsym _ (by simpa using hΛ.isHermitian.eq)
  have hC : ((1 / 2 : ℝ) • (C + Cᵀ)).IsHermitian := by
    rw [Matrix.IsHermitian, Matrix.conjTranspose_smul, Matrix.conjTranspose_add]
    simp [add_comm]
  have h := mean_trace hν hS hC
  refine ⟨h.1.congr e.symm, ?_⟩
  rw [integral_congr_ae e, h.2, hsym S⁻¹ (by simpa using hS.inv.isHermitian.eq)]

/-- `E[Λ] = ν S⁻¹`. -/
theorem mean_wishart (hν : (n : ℝ) - 1 < ν) (hS : S.PosDef) (i j : Fin n) :
    Integrable (fun Λ : Fin n → Fin n → ℝ => Λ i j) (wishart ν S⁻¹) ∧ ∫ Λ, Λ i j ∂wishart ν S⁻¹ = ν * S⁻¹ i j := by
  have e : ∀ M : Matrix (Fin n) (Fin n) ℝ, (M * Matrix.single j i (1 : ℝ)).trace = M i j := by
    intro M
    simp [Matrix.trace_mul_single]
  have h := mean_trace' hν hS (Matrix.single j i (1 : ℝ))
  simpa only [e, Matrix.of_apply] using h

theorem laplace_logdet (hν : (n : ℝ) - 1 < ν) (hS : S.PosDef) : ∀ᶠ s in 𝓝 (0 : ℝ),
      ∫⁻ Λ, ENNReal.ofReal (Real.exp (s * Real.log (Matrix.of Λ).det)) ∂wishart ν S⁻¹ =
      ENNReal.ofReal (Real.exp (∑ i : Fin n, (s * Real.log 2 + (lnGamma ((ν - i) / 2 + s) - lnGamma ((ν - i) / 2))) -
        s * Real.log S.det)) := by
  have hs0 : ∀ᶠ s in 𝓝 (0 : ℝ), (n : ℝ) - 1 < ν + 2 * s := by
    have : ContinuousAt (fun s : ℝ => ν + 2 * s) 0 := by fun_prop
    exact this.eventually (lt_mem_nhds (by simpa using hν))
  filter_upwards [hs0] with s hs
  have h := lintegral_wishart (a := 2 * s) hν hs hS (C := 0) (by simpa using hS)
  have e : ∀ᵐ Λ ∂wishart ν S⁻¹, ENNReal.ofReal (Real.exp (s * Real.log (Matrix.of Λ).det)) =
      ENNReal.ofReal ((Matrix.of Λ).det ^ ((2 * s) / 2) * Real.exp (-(1 / 2) * (Matrix.of Λ * 0).trace)) := by
    filter_upwards [ae_wishart hν hS.inv] with Λ hΛ
    rw [Real.rpow_def_of_pos (Matrix.PosDef.det_pos hΛ), Matrix.mul_zero, Matrix.trace_zero, mul_zero, Real.exp_zero, mul_one]
    congr 2
    ring
  rw [lintegral_congr_ae e, h]
  congr 1
  rw [sub_eq_add_neg, Real.exp_add, Real.exp_sum, add_zero]
  congr 1
  · refine Finset.prod_congr rfl fun i _ => ?_
    have h1 := Real.Gamma_pos_of_pos (wishart_half_pos hν i)
    have h2 := Real.Gamma_pos_of_pos (wishart_half_pos hs i)
    have e1 : (ν + 2 * s - i) / 2 = (ν - i) / 2 + s := by ring
    rw [e1] at h2 ⊢
    rw [Real.exp_add, Real.exp_sub, lnGamma, lnGamma, Real.exp_log h1, Real.exp_log h2, Real.rpow_def_of_pos two_pos]
    congr 2
    ring
  · rw [← Real.rpow_add hS.det_pos, Real.rpow_def_of_pos hS.det_pos]
    congr 1
    ring

/-- `E[ln |Λ|]`. -/
theorem mean_logdet (hν : (n : ℝ) - 1 < ν) (hS : S.PosDef) :
    Integrable (fun Λ : Fin n → Fin n → ℝ => Real.log (Matrix.of Λ).det) (wishart ν S⁻¹) ∧
      ∫ Λ, Real.log (Matrix.of Λ).det ∂wishart ν S⁻¹ =
        ∑ i : Fin n, digamma ((ν - i) / 2) + n * Real.log 2 - Real.log S.det := by
  have := isProbabilityMeasure_wishart hν S⁻¹
  refine mean_of_laplace (Real.measurable_log.comp continuous_det.measurable) (laplace_logdet hν hS) (by simp) ?_
  have d1 : ∀ i : Fin n, HasDerivAt (fun s : ℝ => s * Real.log 2 + (lnGamma ((ν - i) / 2 + s) - lnGamma ((ν - i) / 2)))
      (Real.log 2 + digamma ((ν - i) / 2)) 0 := by
    intro i
    have g : HasDerivAt (fun s => lnGamma ((ν - i) / 2 + s)) (digamma ((ν - i) / 2)) 0 := by
      have := hasDerivAt_lnGamma (wishart_half_pos hν i)
      exact HasDerivAt.comp_const_add _ 0 (by simpa using this)
    exact (((hasDerivAt_id (0 : ℝ)).mul_const (Real.log 2)).add (g.sub_const _)).congr_deriv (by simp)
  have d := (HasDerivAt.fun_sum fun i (_ : i ∈ Finset.univ) => d1 i).sub ((hasDerivAt_id (0 : ℝ)).mul_const (Real.log S.det))
  refine d.congr_deriv ?_
  rw [Finset.sum_add_distrib]
  simp
  ring

/-! ## Densities -/

/-- The logarithm of the density of one Wishart law relative to another one. -/
noncomputable def wishartTilt (ν : ℝ) (S : Matrix (Fin n) (Fin n) ℝ) (ν' : ℝ) (S' : Matrix (Fin n) (Fin n) ℝ)
    (Λ : Fin n → Fin n → ℝ) : ℝ :=
  (ν / 2 * Real.log S.det - ν' / 2 * Real.log S'.det - ∑ i : Fin n, ((ν - ν') / 2 * Real.log 2 +
    (lnGamma ((ν - i) / 2) - lnGamma ((ν' - i) / 2)))) +
  ((ν - ν') / 2 * Real.log (Matrix.of Λ).det - 1 / 2 * (Matrix.of Λ * (S - S')).trace)

theorem measurable_tilt : Measurable (wishartTilt ν S ν' S') := by
  have h1 : Measurable fun Λ : Fin n → Fin n → ℝ => (Matrix.of Λ).det := continuous_det.measurable
  have h2 := (continuous_trace (S - S')).measurable
  unfold wishartTilt
  fun_prop

/-- The Laplace transform of the tilted law. -/
theorem laplace_tilt (hν : (n : ℝ) - 1 < ν) (hν' : (n : ℝ) - 1 < ν') (hS' : S'.PosDef)
    {D : Matrix (Fin n) (Fin n) ℝ} (hD : (S + D).PosDef) :
    ∫⁻ Λ, ENNReal.ofReal (Real.exp (wishartTilt ν S ν' S' Λ)) * ENNReal.ofReal (Real.exp (-(1 / 2) * (Matrix.of Λ * D).trace))
      ∂wishart ν' S'⁻¹ = ENNReal.ofReal (Real.exp (ν / 2 * (Real.log S.det - Real.log (S + D).det))) := by
  have hsum : S' + (S - S' + D) = S + D := by abel
  have h := lintegral_wishart (ν := ν') (a := ν - ν') hν' (by simpa using hν) hS' (C := S - S' + D) (by rwa [hsum])
  set κ := ν / 2 * Real.log S.det - ν' / 2 * Real.log S'.det - ∑ i : Fin n, ((ν - ν') / 2 * Real.log 2 +
    (lnGamma ((ν - i) / 2) - lnGamma ((ν' - i) / 2))) with hκ
  have e : ∀ᵐ Λ ∂wishart ν' S'⁻¹, ENNReal.ofReal (Real.exp (wishartTilt ν S ν' S' Λ)) *
      ENNReal.ofReal (Real.exp (-(1 / 2) * (Matrix.of Λ * D).trace)) = ENNReal.ofReal (Real.exp κ) *
      ENNReal.ofReal ((Matrix.of Λ).det ^ ((ν - ν') / 2) * Real.exp (-(1 / 2) * (Matrix.of Λ * (S - S' + D)).trace)) := by
    filter_upwards [ae_wishart hν' hS'.inv] with Λ hΛ
    rw [← ENNReal.ofReal_mul (Real.exp_pos _).le, ← ENNReal.ofReal_mul (Real.exp_pos _).le,
      Real.rpow_def_of_pos (Matrix.PosDef.det_pos hΛ), ← Real.exp_add, ← Real.exp_add, ← Real.exp_add, wishartTilt, ← hκ,
      Matrix.mul_add, Matrix.trace_add]
    congr 2
    ring
  rw [lintegral_congr_ae e, lintegral_const_mul' _ _ ENNReal.ofReal_ne_top, h, ← ENNReal.ofReal_mul (Real.exp_pos _).le, hsum]
  congr 1
  have e1 : ∏ i : Fin n, ((2 : ℝ) ^ ((ν - ν') / 2) * (Real.Gamma ((ν' + (ν - ν') - i) / 2) / Real.Gamma ((ν' - i) / 2))) =
      Real.exp (∑ i : Fin n, ((ν - ν') / 2 * Real.log 2 + (lnGamma ((ν - i) / 2) - lnGamma ((ν' - i) / 2)))) := by
    rw [Real.exp_sum]
    refine Finset.prod_congr rfl fun i _ => ?_
    rw [Real.exp_add, Real.exp_sub, lnGamma, lnGamma, Real.exp_log (Real.Gamma_pos_of_pos (wishart_half_pos hν i)),
      Real.exp_log (Real.Gamma_pos_of_pos (wishart_half_pos hν' i)), Real.rpow_def_of_pos two_pos, add_sub_cancel, mul_comm (Real.log 2)]
  rw [e1, Real.rpow_def_of_pos hS'.det_pos, Real.rpow_def_of_pos hD.det_pos, ← Real.exp_add, ← Real.exp_add, ← Real.exp_add]
  congr 1
  rw [hκ, add_sub_cancel]
  ring

/-- A linear functional as a symmetric matrix, on symmetric matrices. -/
theorem exists_symm (L : StrongDual ℝ (Fin n → Fin n → ℝ)) : ∃ C : Matrix (Fin n) (Fin n) ℝ, C.IsHermitian ∧
    ∀ Λ : Fin n → Fin n → ℝ, (Matrix.of Λ).IsHermitian → L Λ = (Matrix.of Λ * C).trace := by
  set B : Matrix (Fin n) (Fin n) ℝ := Matrix.of fun j i => L (Pi.single i (Pi.single j 1)) with hB
  refine ⟨(1 / 2 : ℝ) • (B + Bᵀ), ?_, fun Λ hΛ => ?_⟩
  · rw [Matrix.IsHermitian, Matrix.conjTranspose_smul, Matrix.conjTranspose_add]
    simp [add_comm]
  have e1 : L Λ = (Matrix.of Λ * B).trace := by
    have : Λ = ∑ i, ∑ j, Λ i j • (Pi.single i (Pi.single j 1) : Fin n → Fin n → ℝ) := by
      funext a b
      simp [Finset.sum_apply, Pi.single_apply, apply_ite, ite_apply]
    conv_lhs => rw [this]
    simp only [map_sum, map_smul, smul_eq_mul, Matrix.trace, Matrix.diag, Matrix.mul_apply, hB, Matrix.of_apply]
  have hΛt : (Matrix.of Λ)ᵀ = Matrix.of Λ := by simpa using hΛ.eq
  have e2 : (Matrix.of Λ * Bᵀ).trace = (Matrix.of Λ * B).trace := by
    conv_lhs => rw [← hΛt]
    rw [← Matrix.transpose_mul, Matrix.trace_transpose, Matrix.trace_mul_comm]
  rw [e1, Matrix.mul_smul, Matrix.trace_smul, Matrix.mul_add, Matrix.trace_add, e2, smul_eq_mul]
  ring

/-- One Wishart law has a density relative to another one. -/
theorem wishart_density (hν : (n : ℝ) - 1 < ν) (hν' : (n : ℝ) - 1 < ν') (hS : S.PosDef) (hS' : S'.PosDef) :
    wishart ν S⁻¹ = (wishart ν' S'⁻¹).withDensity fun Λ => ENNReal.ofReal (Real.exp (wishartTilt ν S ν' S' Λ)) := by
  have := isProbabilityMeasure_wishart hν S⁻¹
  have hm : Measurable fun Λ => ENNReal.ofReal (Real.exp (wishartTilt ν S ν' S' Λ)) := by
    have := measurable_tilt (ν := ν) (S := S) (ν' := ν') (S' := S')
    fun_prop
  have hfin : IsFiniteMeasure ((wishart ν' S'⁻¹).withDensity fun Λ => ENNReal.ofReal (Real.exp (wishartTilt ν S ν' S' Λ))) := by
    refine isFiniteMeasure_withDensity ?_
    have := laplace_tilt hν hν' hS' (D := 0) (by simpa using hS)
    simp only [Matrix.trace_zero, mul_zero, Real.exp_zero, ENNReal.ofReal_one, mul_one] at this
    rw [this]
    exact ENNReal.ofReal_ne_top
  refine ext_of_laplace fun L => ?_
  obtain ⟨C, hC, hL⟩ := exists_symm L
  filter_upwards [laplace_trace hν hS hC] with s hs
  have el : ∫⁻ Λ, ENNReal.ofReal (Real.exp (s * L Λ)) ∂wishart ν S⁻¹ =
      ENNReal.ofReal (Real.exp (ν / 2 * (Real.log S.det - Real.log (S + s • (-2 : ℝ) • C).det))) := by
    rw [← hs.2]
    refine lintegral_congr_ae ?_
    filter_upwards [ae_wishart hν hS.inv] with Λ hΛ
    rw [hL Λ hΛ.isHermitian]
  refine ⟨?_, el ▸ ENNReal.ofReal_ne_top⟩
  have hLm : Measurable fun Λ : Fin n → Fin n → ℝ => ENNReal.ofReal (Real.exp (s * L Λ)) := by
    have := L.continuous.measurable
    fun_prop
  rw [el, lintegral_withDensity_eq_lintegral_mul _ hm hLm, ← laplace_tilt hν hν' hS' hs.1]
  refine lintegral_congr_ae ?_
  filter_upwards [ae_wishart hν' hS'.inv] with Λ hΛ
  rw [Pi.mul_apply, hL Λ hΛ.isHermitian, Matrix.mul_smul, Matrix.mul_smul, Matrix.trace_smul, Matrix.trace_smul]
  simp only [smul_eq_mul]
  congr 3
  ring

/-- The divergence of Wishart laws. -/
theorem klDiv_wishart (hν : (n : ℝ) - 1 < ν) (hν' : (n : ℝ) - 1 < ν') (hS : S.PosDef) (hS' : S'.PosDef) :
    klDiv (wishart ν S⁻¹) (wishart ν' S'⁻¹) = ENNReal.ofReal (klWishart ν S ν' S') := by
  have := isProbabilityMeasure_wishart hν S⁻¹
  have := isProbabilityMeasure_wishart hν' S'⁻¹
  have h1 := mean_logdet hν hS
  have h2 := mean_trace' hν hS (S - S')
  have i1 := h1.1.const_mul ((ν - ν') / 2)
  have i2 := h2.1.const_mul (1 / 2)
  have i : Integrable (wishartTilt ν S ν' S') (wishart ν S⁻¹) := (integrable_const _).add (i1.sub i2)
  rw [klDiv_of_density measurable_tilt (wishart_density hν hν' hS hS') i]
  congr 1
  have e : ∫ Λ, wishartTilt ν S ν' S' Λ ∂wishart ν S⁻¹ =
      (ν / 2 * Real.log S.det - ν' / 2 * Real.log S'.det - ∑ i : Fin n, ((ν - ν') / 2 * Real.log 2 +
        (lnGamma ((ν - i) / 2) - lnGamma ((ν' - i) / 2)))) +
      ((ν - ν') / 2 * (∑ i : Fin n, digamma ((ν - i) / 2) + n * Real.log 2 - Real.log S.det) -
        1 / 2 * (ν * (S⁻¹ * (S - S')).trace)) := by
    unfold wishartTilt
    rw [integral_add (integrable_const _) (by exact i1.sub i2), integral_sub i1 i2, integral_const_mul, integral_const_mul, h1.2, h2.2]
    simp
  have ht : (S⁻¹ * (S - S')).trace = n - (S' * S⁻¹).trace := by
    rw [Matrix.mul_sub, Matrix.nonsing_inv_mul _ hS.det_pos.ne'.isUnit, Matrix.trace_sub, Matrix.trace_one,
      Matrix.trace_mul_comm S⁻¹ S', Fintype.card_fin]
  rw [e, ht, klWishart, Real.log_div hS.det_pos.ne' hS'.det_pos.ne']
  simp only [Finset.sum_add_distrib, Finset.sum_sub_distrib, ← Finset.mul_sum, Finset.sum_const, Finset.card_univ,
    Fintype.card_fin, nsmul_eq_mul]
  ring

end Verif
