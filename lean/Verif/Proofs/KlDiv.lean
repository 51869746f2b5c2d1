import Verif.Proofs.Dirichlet
import Verif.Proofs.Moments
import Verif.Spec.Kl
import Mathlib.InformationTheory.KullbackLeibler.Basic
import Mathlib.Probability.Distributions.Gaussian.Real

/-!
# Kullback–Leibler divergences of Dirichlet, gamma and normal laws
-/

set_option autoImplicit false

namespace Verif
open MeasureTheory ProbabilityTheory InformationTheory Spec Set
open scoped ENNReal NNReal

/-- The divergence of a law with log-density `g` relative to another one. -/
theorem klDiv_of_density {Ω : Type} [MeasurableSpace Ω] {P Q : Measure Ω} [IsProbabilityMeasure P]
    [IsProbabilityMeasure Q] {g : Ω → ℝ} (hg : Measurable g)
    (h : Q = P.withDensity fun x => ENNReal.ofReal (Real.exp (g x))) (hi : Integrable g Q) :
    klDiv Q P = ENNReal.ofReal (∫ x, g x ∂Q) := by
  have hac : Q ≪ P := h ▸ withDensity_absolutelyContinuous _ _
  have hr : llr Q P =ᵐ[Q] g := by
    refine hac.ae_eq ?_
    have h1 : Q.rnDeriv P =ᵐ[P] fun x => ENNReal.ofReal (Real.exp (g x)) := by
      rw [h]; exact Measure.rnDeriv_withDensity P (by fun_prop)
    filter_upwards [h1] with x hx
    rw [llr_def]
    simp only [hx, ENNReal.toReal_ofReal (Real.exp_pos _).le, Real.log_exp]
  rw [klDiv_of_ac_of_integrable hac (hi.congr hr.symm), integral_congr_ae hr]
  simp

/-- Densities relative to a common measure. -/
theorem withDensity_exp {Ω : Type} [MeasurableSpace Ω] {m : Measure Ω} {f h : Ω → ℝ≥0∞} {g : Ω → ℝ}
    (hh : Measurable h) (hg : Measurable g) (e : ∀ᵐ x ∂m, f x = h x * ENNReal.ofReal (Real.exp (g x))) :
    m.withDensity f = (m.withDensity h).withDensity fun x => ENNReal.ofReal (Real.exp (g x)) := by
  rw [← withDensity_mul _ hh (by fun_prop)]
  exact withDensity_congr_ae e

/-! ## Dirichlet -/

variable {n : ℕ}

theorem dirichlet_tilt [NeZero n] {p q : Fin n → ℝ} (hp : ∀ i, 0 < p i) (hq : ∀ i, 0 < q i) :
    (dirichlet p).withDensity (fun x => ∏ i, ENNReal.ofReal (x i ^ (q i - p i))) =
      ENNReal.ofReal ((∏ i, Real.Gamma (q i) / Real.Gamma (p i)) *
        (Real.Gamma (∑ i, p i) / Real.Gamma (∑ i, q i))) • dirichlet q := by
  have := isProbabilityMeasure_dirichlet hp
  have := isProbabilityMeasure_dirichlet hq
  have hP : 0 < ∑ i, p i := Finset.sum_pos (fun i _ => hp i) Finset.univ_nonempty
  have hQ : 0 < ∑ i, q i := Finset.sum_pos (fun i _ => hq i) Finset.univ_nonempty
  have hm : Measurable fun x : Fin n → ℝ => ∏ i, ENNReal.ofReal (x i ^ (q i - p i)) := by fun_prop
  set c := (∏ i, Real.Gamma (q i) / Real.Gamma (p i)) * (Real.Gamma (∑ i, p i) / Real.Gamma (∑ i, q i)) with hc
  have hc0 : 0 < c := mul_pos
    (Finset.prod_pos fun i _ => div_pos (Real.Gamma_pos_of_pos (hq i)) (Real.Gamma_pos_of_pos (hp i)))
    (div_pos (Real.Gamma_pos_of_pos hP) (Real.Gamma_pos_of_pos hQ))
  -- moments of the left side
  have hl : ∀ k : Fin n → ℕ, ∫⁻ x, ENNReal.ofReal (∏ i, x i ^ k i)
      ∂(dirichlet p).withDensity (fun x => ∏ i, ENNReal.ofReal (x i ^ (q i - p i))) =
      ENNReal.ofReal (c * ∫ x, ∏ i, x i ^ k i ∂dirichlet q) := by
    intro k
    rw [lintegral_withDensity_eq_lintegral_mul _ hm (by fun_prop), integral_dirichlet hq]
    have hqk : ∀ i, 0 < q i + k i := fun i => by have := hq i; positivity
    have h := lintegral_dirichlet hp (s := fun i => q i - p i + k i) fun i => by
      have := hqk i; linarith
    have e : ∀ᵐ x ∂dirichlet p, ((fun x : Fin n → ℝ => ∏ i, ENNReal.ofReal (x i ^ (q i - p i))) *
        fun x : Fin n → ℝ => ENNReal.ofReal (∏ i, x i ^ k i)) x = ∏ i, ENNReal.ofReal (x i ^ (q i - p i + k i)) := by
      filter_upwards [ae_dirichlet hp] with x hx
      rw [Pi.mul_apply, ENNReal.ofReal_prod_of_nonneg fun i _ => pow_nonneg (hx.1 i).le _, ← Finset.prod_mul_distrib]
      refine Finset.prod_congr rfl fun i _ => ?_
      rw [← ENNReal.ofReal_mul (Real.rpow_nonneg (hx.1 i).le _), Real.rpow_add (hx.1 i), Real.rpow_natCast]
    rw [lintegral_congr_ae e, h, hc]
    congr 1
    have e2 : ∀ i, p i + (q i - p i + k i) = q i + k i := fun i => by ring
    simp only [e2]
    have g1 := (Real.Gamma_pos_of_pos hQ).ne'
    rw [show ∀ a b c d : ℝ, a * b * (c * d) = (a * c) * (b * d) from fun a b c d => by ring, ← Finset.prod_mul_distrib]
    congr 1
    · refine Finset.prod_congr rfl fun i _ => ?_
      have := (Real.Gamma_pos_of_pos (hq i)).ne'
      field_simp
    · field_simp
  have hfin : IsFiniteMeasure ((dirichlet p).withDensity fun x => ∏ i, ENNReal.ofReal (x i ^ (q i - p i))) := by
    refine ⟨?_⟩
    have := hl 0
    simp only [Pi.zero_apply, pow_zero, Finset.prod_const_one, ENNReal.ofReal_one, lintegral_one] at this
    rw [this]
    exact ENNReal.ofReal_lt_top
  have hcube : ∀ {a : Fin n → ℝ}, (∀ i, 0 < a i) → ∀ᵐ x ∂dirichlet a, ∀ i, x i ∈ Icc (0 : ℝ) 1 := by
    intro a ha
    filter_upwards [ae_dirichlet ha] with x hx i
    exact ⟨(hx.1 i).le, hx.2 ▸ Finset.single_le_sum (fun j _ => (hx.1 j).le) (Finset.mem_univ i)⟩
  have hcl := (withDensity_absolutelyContinuous (dirichlet p) fun x => ∏ i, ENNReal.ofReal (x i ^ (q i - p i))).ae_le
    (hcube hp)
  have hfin2 : IsFiniteMeasure (ENNReal.ofReal c • dirichlet q) :=
    Measure.smul_finite _ ENNReal.ofReal_ne_top
  refine ext_of_moments hcl (Measure.smul_absolutelyContinuous.ae_le (hcube hq)) fun k => ?_
  rw [integral_smul_measure, ENNReal.toReal_ofReal hc0.le, smul_eq_mul]
  have hn : 0 ≤ᵐ[(dirichlet p).withDensity fun x => ∏ i, ENNReal.ofReal (x i ^ (q i - p i))]
      fun x => ∏ i, x i ^ k i := by
    filter_upwards [hcl] with x hx using Finset.prod_nonneg fun i _ => pow_nonneg (hx i).1 _
  rw [integral_eq_lintegral_of_nonneg_ae hn (Measurable.aestronglyMeasurable (by fun_prop)), hl,
    ENNReal.toReal_ofReal]
  refine mul_nonneg hc0.le (integral_nonneg_of_ae ?_)
  filter_upwards [hcube hq] with x hx using Finset.prod_nonneg fun i _ => pow_nonneg (hx i).1 _

/-- The constant in the density of `Dir(q)` relative to `Dir(p)`. -/
noncomputable def tiltConst (p q : Fin n → ℝ) : ℝ :=
  (∏ i, Real.Gamma (q i) / Real.Gamma (p i)) * (Real.Gamma (∑ i, p i) / Real.Gamma (∑ i, q i))

theorem tiltConst_pos [NeZero n] {p q : Fin n → ℝ} (hp : ∀ i, 0 < p i) (hq : ∀ i, 0 < q i) : 0 < tiltConst p q := by
  have hP : 0 < ∑ i, p i := Finset.sum_pos (fun i _ => hp i) Finset.univ_nonempty
  have hQ : 0 < ∑ i, q i := Finset.sum_pos (fun i _ => hq i) Finset.univ_nonempty
  exact mul_pos (Finset.prod_pos fun i _ => div_pos (Real.Gamma_pos_of_pos (hq i)) (Real.Gamma_pos_of_pos (hp i)))
    (div_pos (Real.Gamma_pos_of_pos hP) (Real.Gamma_pos_of_pos hQ))

theorem log_tiltConst [NeZero n] {p q : Fin n → ℝ} (hp : ∀ i, 0 < p i) (hq : ∀ i, 0 < q i) :
    Real.log (tiltConst p q) = ∑ i, (lnGamma (q i) - lnGamma (p i)) + (lnGamma (∑ i, p i) - lnGamma (∑ i, q i)) := by
  have hP : 0 < ∑ i, p i := Finset.sum_pos (fun i _ => hp i) Finset.univ_nonempty
  have hQ : 0 < ∑ i, q i := Finset.sum_pos (fun i _ => hq i) Finset.univ_nonempty
  have hc1 : 0 < ∏ i, Real.Gamma (q i) / Real.Gamma (p i) :=
    Finset.prod_pos fun i _ => div_pos (Real.Gamma_pos_of_pos (hq i)) (Real.Gamma_pos_of_pos (hp i))
  have e : ∀ i, Real.log (Real.Gamma (q i) / Real.Gamma (p i)) = lnGamma (q i) - lnGamma (p i) := fun i =>
    Real.log_div (Real.Gamma_pos_of_pos (hq i)).ne' (Real.Gamma_pos_of_pos (hp i)).ne'
  rw [tiltConst, Real.log_mul hc1.ne' (div_pos (Real.Gamma_pos_of_pos hP) (Real.Gamma_pos_of_pos hQ)).ne',
    Real.log_div (Real.Gamma_pos_of_pos hP).ne' (Real.Gamma_pos_of_pos hQ).ne',
    Real.log_prod fun i _ => (div_pos (Real.Gamma_pos_of_pos (hq i)) (Real.Gamma_pos_of_pos (hp i))).ne']
  simp only [e]
  rfl

theorem dirichlet_density [NeZero n] {p q : Fin n → ℝ} (hp : ∀ i, 0 < p i) (hq : ∀ i, 0 < q i) :
    dirichlet q = (dirichlet p).withDensity fun x =>
      ENNReal.ofReal (Real.exp (-Real.log (tiltConst p q) + ∑ i, (q i - p i) * Real.log (x i))) := by
  have h : _ = ENNReal.ofReal (tiltConst p q) • dirichlet q := dirichlet_tilt hp hq
  have hc0 := tiltConst_pos hp hq
  generalize tiltConst p q = c at h hc0 ⊢
  have e : ∀ᵐ x ∂dirichlet p, ENNReal.ofReal (Real.exp (-Real.log c + ∑ i, (q i - p i) * Real.log (x i))) =
      (ENNReal.ofReal c⁻¹ • fun x : Fin n → ℝ => ∏ i, ENNReal.ofReal (x i ^ (q i - p i))) x := by
    filter_upwards [ae_dirichlet hp] with x hx
    rw [Pi.smul_apply, smul_eq_mul, ← ENNReal.ofReal_prod_of_nonneg fun i _ => Real.rpow_nonneg (hx.1 i).le _,
      ← ENNReal.ofReal_mul (inv_pos.2 hc0).le, Real.exp_add, Real.exp_neg, Real.exp_log hc0, Real.exp_sum]
    congr 2
    refine Finset.prod_congr rfl fun i _ => ?_
    rw [Real.rpow_def_of_pos (hx.1 i), mul_comm]
  rw [withDensity_congr_ae e, withDensity_smul _ (by fun_prop), h, smul_smul, ← ENNReal.ofReal_mul (inv_pos.2 hc0).le,
    inv_mul_cancel₀ hc0.ne', ENNReal.ofReal_one, one_smul]

theorem klDiv_dirichlet [NeZero n] {p q : Fin n → ℝ} (hp : ∀ i, 0 < p i) (hq : ∀ i, 0 < q i) :
    klDiv (dirichlet q) (dirichlet p) = ENNReal.ofReal (klDirichlet q p) := by
  have := isProbabilityMeasure_dirichlet hp
  have := isProbabilityMeasure_dirichlet hq
  have hi : ∀ i, Integrable (fun x => (q i - p i) * Real.log (x i)) (dirichlet q) := fun i =>
    (integrable_log_dirichlet hq i).const_mul _
  have hs : Integrable (fun x => ∑ i, (q i - p i) * Real.log (x i)) (dirichlet q) :=
    integrable_finsetSum _ fun i _ => hi i
  have hs2 := (integrable_const (-Real.log (tiltConst p q))).add hs
  rw [klDiv_of_density (by fun_prop) (dirichlet_density hp hq) hs2]
  congr 1
  rw [integral_add (integrable_const _) hs, integral_finsetSum _ fun i _ => hi i]
  simp only [integral_const, probReal_univ, one_smul, integral_const_mul, integral_log_dirichlet hq]
  rw [klDirichlet, log_tiltConst hp hq]
  ring

/-! ## Gamma -/

theorem integral_affine {Ω : Type} [MeasurableSpace Ω] {Q : Measure Ω} [IsProbabilityMeasure Q] {f g : Ω → ℝ}
    (hf : Integrable f Q) (hg : Integrable g Q) (k a b : ℝ) :
    Integrable (fun x => k + (a * f x + b * g x)) Q ∧
      ∫ x, k + (a * f x + b * g x) ∂Q = k + (a * ∫ x, f x ∂Q + b * ∫ x, g x ∂Q) := by
  have h1 := hf.const_mul a
  have h2 := hg.const_mul b
  have h3 : Integrable (fun x => a * f x + b * g x) Q := h1.add h2
  refine ⟨(integrable_const k).add h3, ?_⟩
  rw [integral_add (integrable_const _) h3, integral_add h1 h2, integral_const_mul, integral_const_mul]
  simp


theorem gammaPDF_pos_eq {b c x : ℝ} (hx : 0 < x) :
    gammaPDF b c x = ENNReal.ofReal (c ^ b / Real.Gamma b * x ^ (b - 1) * Real.exp (-(c * x))) := by
  rw [gammaPDF_of_nonneg hx.le]

theorem ae_gamma_rate_pos (b c : ℝ) : ∀ᵐ x ∂gammaMeasure b c, 0 < x := by
  rw [gammaMeasure, ae_withDensity_iff (by unfold gammaPDF; fun_prop)]
  have h : ∀ᵐ x : ℝ, x ≠ 0 := by simp [ae_iff]
  filter_upwards [h] with x hx h0
  rcases lt_or_gt_of_ne hx with h | h
  · exact absurd (gammaPDF_of_neg h) h0
  · exact h

/-- `E[x^s]` for a gamma variable. -/
theorem lintegral_gamma_rate {b c s : ℝ} (hb : 0 < b) (hc : 0 < c) (hs : 0 < b + s) :
    ∫⁻ x, ENNReal.ofReal (x ^ s) ∂gammaMeasure b c = ENNReal.ofReal (Real.Gamma (b + s) / Real.Gamma b * c ^ (-s)) := by
  have hg := Real.Gamma_pos_of_pos hb
  have hg' := Real.Gamma_pos_of_pos hs
  have key : (gammaMeasure b c).withDensity (fun x => ENNReal.ofReal (x ^ s)) =
      ENNReal.ofReal (Real.Gamma (b + s) / Real.Gamma b * c ^ (-s)) • gammaMeasure (b + s) c := by
    rw [gammaMeasure, gammaMeasure, ← withDensity_mul _ (by unfold gammaPDF; fun_prop) (by fun_prop),
      ← withDensity_smul _ (by unfold gammaPDF; fun_prop)]
    refine withDensity_congr_ae ?_
    have h : ∀ᵐ x : ℝ, x ≠ 0 := by simp [ae_iff]
    filter_upwards [h] with x hx
    rw [Pi.mul_apply, Pi.smul_apply, smul_eq_mul]
    rcases lt_or_gt_of_ne hx with h | h
    · simp [gammaPDF_of_neg h]
    · rw [gammaPDF_pos_eq h, gammaPDF_pos_eq h, ← ENNReal.ofReal_mul (by positivity), ← ENNReal.ofReal_mul (by positivity)]
      congr 1
      rw [Real.rpow_neg hc.le, Real.rpow_add hc, show b + s - 1 = (b - 1) + s by ring, Real.rpow_add h]
      have := (Real.rpow_pos_of_pos hc s).ne'
      field_simp
  have h := congrArg (fun μ : Measure ℝ => μ univ) key
  have := isProbabilityMeasure_gammaMeasure hs hc
  simpa [withDensity_apply] using h

/-- `E[x]` for a gamma variable. -/
theorem mean_gamma {b c : ℝ} (hb : 0 < b) (hc : 0 < c) :
    Integrable (fun x => x) (gammaMeasure b c) ∧ ∫ x, x ∂gammaMeasure b c = b / c := by
  have h := lintegral_gamma_rate (s := 1) hb hc (by linarith)
  simp only [Real.rpow_one] at h
  have hn : 0 ≤ᵐ[gammaMeasure b c] fun x => x := by
    filter_upwards [ae_gamma_rate_pos b c] with x hx using hx.le
  have e : Real.Gamma (b + 1) / Real.Gamma b * c ^ (-1 : ℝ) = b / c := by
    rw [Real.Gamma_add_one hb.ne', Real.rpow_neg_one, mul_div_assoc, div_self (Real.Gamma_pos_of_pos hb).ne', mul_one]
    rfl
  rw [e] at h
  refine ⟨⟨measurable_id.aestronglyMeasurable, ?_⟩, ?_⟩
  · rw [hasFiniteIntegral_iff_ofReal hn, h]
    exact ENNReal.ofReal_lt_top
  · rw [integral_eq_lintegral_of_nonneg_ae hn measurable_id.aestronglyMeasurable, h,
      ENNReal.toReal_ofReal (div_pos hb hc).le]

/-- `E[ln x]` for a gamma variable. -/
theorem log_gamma {b c : ℝ} (hb : 0 < b) (hc : 0 < c) :
    Integrable Real.log (gammaMeasure b c) ∧ ∫ x, Real.log x ∂gammaMeasure b c = digamma b - Real.log c := by
  have := isProbabilityMeasure_gammaMeasure hb hc
  have hl : ∀ s, -b < s → ∫⁻ x, ENNReal.ofReal (Real.exp (s * Real.log x)) ∂gammaMeasure b c =
      ENNReal.ofReal (Real.Gamma (b + s) / Real.Gamma b * c ^ (-s)) := by
    intro s hs
    rw [← lintegral_gamma_rate hb hc (show 0 < b + s by linarith)]
    refine lintegral_congr_ae ?_
    filter_upwards [ae_gamma_rate_pos b c] with x hx
    rw [Real.rpow_def_of_pos hx, mul_comm]
  have hpos : ∀ s, -b < s → 0 < Real.Gamma (b + s) / Real.Gamma b * c ^ (-s) := fun s hs =>
    mul_pos (div_pos (Real.Gamma_pos_of_pos (by linarith)) (Real.Gamma_pos_of_pos hb)) (Real.rpow_pos_of_pos hc _)
  have hi : ∀ s, -b < s → Integrable (fun x => Real.exp (s * Real.log x)) (gammaMeasure b c) := by
    intro s hs
    refine ⟨Measurable.aestronglyMeasurable (by fun_prop), ?_⟩
    rw [hasFiniteIntegral_iff_ofReal (Filter.Eventually.of_forall fun x => (Real.exp_pos _).le), hl s hs]
    exact ENNReal.ofReal_lt_top
  have h0 : (0 : ℝ) ∈ interior (integrableExpSet Real.log (gammaMeasure b c)) :=
    mem_interior.2 ⟨Ioi (-b), fun s hs => hi s hs, isOpen_Ioi, by simpa using hb⟩
  refine ⟨memLp_one_iff_integrable.1 (memLp_of_mem_interior_integrableExpSet h0 1), ?_⟩
  rw [← deriv_mgf_zero h0]
  have e : mgf Real.log (gammaMeasure b c) =ᶠ[nhds 0] fun s => Real.Gamma (b + s) / Real.Gamma b * c ^ (-s) := by
    filter_upwards [isOpen_Ioi.mem_nhds (show (0 : ℝ) ∈ Ioi (-b) by simpa using hb)] with s hs
    rw [mgf, integral_eq_lintegral_of_nonneg_ae (Filter.Eventually.of_forall fun x => (Real.exp_pos _).le)
      (Measurable.aestronglyMeasurable (by fun_prop)), hl s hs, ENNReal.toReal_ofReal (hpos s hs).le]
  rw [e.deriv_eq]
  have g1 := Real.Gamma_pos_of_pos hb
  have d1 : HasDerivAt (fun s => Real.Gamma (b + s)) (deriv Real.Gamma b) 0 := by
    have := (Real.differentiableAt_Gamma (s := b) fun m => by have : (0 : ℝ) ≤ m := m.cast_nonneg; linarith).hasDerivAt
    simpa using HasDerivAt.comp_const_add b 0 (by simpa using this)
  have d2 : HasDerivAt (fun s : ℝ => c ^ (-s)) (-Real.log c) 0 := by
    have := ((hasDerivAt_id (0 : ℝ)).neg).const_rpow hc
    simpa using this
  have d := (d1.div_const (Real.Gamma b)).mul d2
  refine d.deriv.trans ?_
  simp only [digamma, logDeriv, Pi.div_apply, add_zero, neg_zero, Real.rpow_zero]
  field_simp
  ring

theorem klDiv_gamma {b c b' c' : ℝ} (hb : 0 < b) (hc : 0 < c) (hb' : 0 < b') (hc' : 0 < c') :
    klDiv (gammaMeasure b c) (gammaMeasure b' c') = ENNReal.ofReal (klGamma b c b' c') := by
  have := isProbabilityMeasure_gammaMeasure hb hc
  have := isProbabilityMeasure_gammaMeasure hb' hc'
  obtain ⟨i1, e1⟩ := mean_gamma hb hc
  obtain ⟨i2, e2⟩ := log_gamma hb hc
  obtain ⟨k, hk⟩ : ∃ k, k = b * Real.log c - lnGamma b - (b' * Real.log c' - lnGamma b') := ⟨_, rfl⟩
  have h : gammaMeasure b c = (gammaMeasure b' c').withDensity fun x =>
      ENNReal.ofReal (Real.exp (k + ((b - b') * Real.log x + (c' - c) * x))) := by
    refine withDensity_exp (by unfold gammaPDF; fun_prop) (by fun_prop) ?_
    have h : ∀ᵐ x : ℝ, x ≠ 0 := by simp [ae_iff]
    filter_upwards [h] with x hx
    rcases lt_or_gt_of_ne hx with h | h
    · simp [gammaPDF_of_neg h]
    · have g1 := Real.Gamma_pos_of_pos hb
      have g2 := Real.Gamma_pos_of_pos hb'
      have hp : ∀ {b c : ℝ}, 0 < b → 0 < c → c ^ b / Real.Gamma b * x ^ (b - 1) * Real.exp (-(c * x)) =
          Real.exp (b * Real.log c - lnGamma b + (b - 1) * Real.log x - c * x) := by
        intro b c hb hc
        rw [Real.exp_sub, Real.exp_add, Real.exp_sub, Real.rpow_def_of_pos hc, Real.rpow_def_of_pos h, lnGamma,
          Real.exp_log (Real.Gamma_pos_of_pos hb), Real.exp_neg, mul_comm b, mul_comm (b - 1), div_eq_mul_inv _ (Real.exp (c * x))]
      rw [gammaPDF_pos_eq h, gammaPDF_pos_eq h, hp hb hc, hp hb' hc', ← ENNReal.ofReal_mul (Real.exp_pos _).le,
        ← Real.exp_add, hk]
      congr 2
      ring
  obtain ⟨j, e⟩ := integral_affine i2 i1 k (b - b') (c' - c)
  rw [klDiv_of_density (by fun_prop) h j, e, e1, e2, hk, klGamma, Real.log_div hc.ne' hc'.ne']
  congr 1
  field_simp
  ring

/-! ## Normal -/

theorem klDiv_normal (m m' : ℝ) {v v' : ℝ≥0} (hv : v ≠ 0) (hv' : v' ≠ 0) :
    klDiv (gaussianReal m v) (gaussianReal m' v') = ENNReal.ofReal (klNormal m v m' v') := by
  have hv0 : (0 : ℝ) < v := by positivity
  have hv0' : (0 : ℝ) < v' := by positivity
  have hpi := Real.pi_pos
  obtain ⟨k, hk⟩ : ∃ k, k = 1 / 2 * Real.log (v' / v) := ⟨_, rfl⟩
  have h : gaussianReal m v = (gaussianReal m' v').withDensity fun x =>
      ENNReal.ofReal (Real.exp (k + (-(1 / (2 * v)) * (x - m) ^ 2 + 1 / (2 * v') * (x - m') ^ 2))) := by
    rw [gaussianReal_of_var_ne_zero _ hv, gaussianReal_of_var_ne_zero _ hv']
    refine withDensity_exp (measurable_gaussianPDF _ _) (by fun_prop) (Filter.Eventually.of_forall fun x => ?_)
    have hp : ∀ (m : ℝ) (v : ℝ≥0), (0 : ℝ) < v → gaussianPDFReal m v x =
        Real.exp (-(1 / 2) * Real.log (2 * Real.pi * v) - (x - m) ^ 2 / (2 * v)) := by
      intro m v hv
      rw [gaussianPDFReal, Real.exp_sub, show -(1 / 2) * Real.log (2 * Real.pi * v) = -(Real.log (2 * Real.pi * v) / 2) by ring,
        Real.exp_neg, ← Real.log_sqrt (by positivity), Real.exp_log (Real.sqrt_pos.2 (by positivity)), neg_div, Real.exp_neg]
      rfl
    rw [gaussianPDF, gaussianPDF, hp _ _ hv0, hp _ _ hv0', ← ENNReal.ofReal_mul (Real.exp_pos _).le, ← Real.exp_add, hk,
      Real.log_div hv0'.ne' hv0.ne', Real.log_mul (by positivity) hv0.ne', Real.log_mul (by positivity) hv0'.ne']
    congr 2
    ring
  have hL : ∀ a : ℝ, MemLp (fun x => x - a) 2 (gaussianReal m v) := fun a => (memLp_id_gaussianReal 2).sub (memLp_const a)
  have i0 : Integrable (fun x => x) (gaussianReal m v) := (memLp_id_gaussianReal 1).integrable le_rfl
  have i1 : ∀ a : ℝ, Integrable (fun x => (x - a) ^ 2) (gaussianReal m v) := fun a => (hL a).integrable_sq
  have e1 : ∀ a : ℝ, ∫ x, (x - a) ^ 2 ∂gaussianReal m v = v + (m - a) ^ 2 := by
    intro a
    have hvar : ∫ x, (x - m) ^ 2 ∂gaussianReal m v = v := by
      have := variance_fun_id_gaussianReal (μ := m) (v := v)
      rw [variance_eq_integral (measurable_id'.aemeasurable)] at this
      simpa using this
    have hm : ∫ x, (x - m) ∂gaussianReal m v = 0 := by
      rw [integral_sub i0 (integrable_const _), integral_id_gaussianReal]
      simp
    have e : (fun x : ℝ => (x - a) ^ 2) = fun x => (m - a) ^ 2 + (1 * (x - m) ^ 2 + 2 * (m - a) * (x - m)) := by
      funext x; ring
    have i2 : Integrable (fun x => x - m) (gaussianReal m v) := i0.sub (integrable_const m)
    rw [e, (integral_affine (i1 m) i2 ((m - a) ^ 2) 1 (2 * (m - a))).2, hvar, hm]
    ring
  obtain ⟨j, e⟩ := integral_affine (i1 m) (i1 m') k (-(1 / (2 * v))) (1 / (2 * v'))
  rw [klDiv_of_density (by fun_prop) h j, e, e1, e1, hk, klNormal]
  congr 1
  field_simp
  ring

end Verif
