import Verif.Spec.Evidence
import Mathlib.Probability.Moments.MGFAnalytic
import Mathlib.Probability.Independence.Integration
import Mathlib.MeasureTheory.Integral.Pi
import Mathlib.MeasureTheory.Measure.CharacteristicFunction.Basic

/-!
# Moments and expected logarithms of the Dirichlet distribution
-/

set_option autoImplicit false

namespace Verif
open MeasureTheory ProbabilityTheory Set
open scoped ENNReal NNReal

/-! ## Gamma variables -/

theorem ae_gamma_pos (a : ℝ) : ∀ᵐ x ∂gammaMeasure a 1, 0 < x := by
  rw [gammaMeasure, ae_withDensity_iff (by unfold gammaPDF; fun_prop)]
  have h : ∀ᵐ x : ℝ, x ≠ 0 := by simp [ae_iff]
  filter_upwards [h] with x hx h0
  rcases lt_or_gt_of_ne hx with h | h
  · exact absurd (gammaPDF_of_neg h) h0
  · exact h

/-- Weighting a gamma variable by a power gives a gamma variable. -/
theorem gamma_tilt {a s : ℝ} (ha : 0 < a) (hs : 0 < a + s) :
    (gammaMeasure a 1).withDensity (fun x => ENNReal.ofReal (x ^ s)) =
      ENNReal.ofReal (Real.Gamma (a + s) / Real.Gamma a) • gammaMeasure (a + s) 1 := by
  rw [gammaMeasure, gammaMeasure, ← withDensity_mul _ (by unfold gammaPDF; fun_prop) (by fun_prop),
    ← withDensity_smul _ (by unfold gammaPDF; fun_prop)]
  refine withDensity_congr_ae ?_
  have h : ∀ᵐ x : ℝ, x ≠ 0 := by simp [ae_iff]
  filter_upwards [h] with x hx
  have hg := Real.Gamma_pos_of_pos ha
  have hg' := Real.Gamma_pos_of_pos hs
  rcases lt_or_gt_of_ne hx with h | h
  · simp [gammaPDF_of_neg h]
  · simp only [Pi.mul_apply, Pi.smul_apply, smul_eq_mul, gammaPDF_of_nonneg h.le]
    rw [← ENNReal.ofReal_mul (by positivity), ← ENNReal.ofReal_mul (by positivity)]
    congr 1
    rw [show a + s - 1 = (a - 1) + s by ring, Real.rpow_add h]
    simp only [Real.one_rpow]
    field_simp

theorem lintegral_gamma_rpow {a s : ℝ} (ha : 0 < a) (hs : 0 < a + s) :
    ∫⁻ x, ENNReal.ofReal (x ^ s) ∂gammaMeasure a 1 =
      ENNReal.ofReal (Real.Gamma (a + s) / Real.Gamma a) := by
  have h := congrArg (fun μ : Measure ℝ => μ univ) (gamma_tilt ha hs)
  have := isProbabilityMeasure_gammaMeasure hs one_pos
  simpa [withDensity_apply] using h

theorem mgf_gamma {a : ℝ} (ha : 0 < a) (t : ℝ) :
    mgf id (gammaMeasure a 1) t = if t < 1 then (1 / (1 - t)) ^ a else 0 := by
  have hG := Real.Gamma_pos_of_pos ha
  have hae : (fun x : ℝ => (gammaPDF a 1 x).toReal • Real.exp (t * x)) =ᵐ[volume]
      (Ioi (0 : ℝ)).indicator fun x => 1 / Real.Gamma a * (x ^ (a - 1) * Real.exp (-((1 - t) * x))) := by
    have h : ∀ᵐ x : ℝ, x ≠ 0 := by simp [ae_iff]
    filter_upwards [h] with x hx
    rcases lt_or_gt_of_ne hx with h | h
    · rw [gammaPDF_of_neg h, indicator_of_notMem (by simpa using h.le)]; simp
    · rw [gammaPDF_of_nonneg h.le, indicator_of_mem (by simpa using h), ENNReal.toReal_ofReal (by positivity),
        Real.one_rpow, smul_eq_mul, mul_assoc, mul_assoc, ← Real.exp_add]
      ring_nf
  have hint : Integrable (fun x => Real.exp (t * id x)) (gammaMeasure a 1) ↔
      IntegrableOn (fun x : ℝ => x ^ (a - 1) * Real.exp (-((1 - t) * x))) (Ioi 0) := by
    rw [gammaMeasure, integrable_withDensity_iff_integrable_smul' (by unfold gammaPDF; fun_prop)
      (by simp [gammaPDF])]
    simp only [id]
    rw [integrable_congr hae, integrable_indicator_iff measurableSet_Ioi, IntegrableOn,
      integrable_const_mul_iff (by simp [hG.ne'])]
    rfl
  split_ifs with ht
  · rw [mgf, gammaMeasure, integral_withDensity_eq_integral_toReal_smul (by unfold gammaPDF; fun_prop)
      (by simp [gammaPDF])]
    simp only [id]
    rw [integral_congr_ae hae, integral_indicator measurableSet_Ioi, integral_const_mul,
      Real.integral_rpow_mul_exp_neg_mul_Ioi ha (by linarith)]
    field_simp
  · refine mgf_undef fun h => ?_
    have h1 := (hint.1 h).mono_set (Ioi_subset_Ioi (zero_le_one (α := ℝ)))
    have h2 : IntegrableOn (fun x : ℝ => x ^ (a - 1)) (Ioi 1) := by
      refine h1.mono' (by fun_prop) ?_
      filter_upwards [ae_restrict_mem measurableSet_Ioi] with x hx
      have hx : (1 : ℝ) < x := hx
      have hx0 : (0 : ℝ) < x := by linarith
      rw [Real.norm_of_nonneg (by positivity)]
      refine le_mul_of_one_le_right (by positivity) (Real.one_le_exp ?_)
      nlinarith [not_lt.1 ht]
    rw [integrableOn_Ioi_rpow_iff one_pos] at h2
    linarith

theorem zero_mem_gamma {a : ℝ} (ha : 0 < a) : (0 : ℝ) ∈ interior (integrableExpSet id (gammaMeasure a 1)) := by
  refine mem_interior.2 ⟨Iio 1, fun t ht => ?_, isOpen_Iio, by simp⟩
  by_contra h
  have h1 := mgf_undef h
  have ht : t < 1 := ht
  rw [mgf_gamma ha, if_pos ht] at h1
  have : 0 < (1 / (1 - t)) ^ a := Real.rpow_pos_of_pos (by simpa using ht) _
  linarith

variable {n : ℕ}

/-- The sum of independent gamma variables. -/
theorem map_sum_gamma [NeZero n] {a : Fin n → ℝ} (ha : ∀ i, 0 < a i) :
    (Measure.pi fun i => gammaMeasure (a i) 1).map (fun x => ∑ i, x i) = gammaMeasure (∑ i, a i) 1 := by
  have := fun i => isProbabilityMeasure_gammaMeasure (ha i) one_pos
  have hA : 0 < ∑ i, a i := Finset.sum_pos (fun i _ => ha i) Finset.univ_nonempty
  have := isProbabilityMeasure_gammaMeasure hA one_pos
  have : IsProbabilityMeasure ((Measure.pi fun i => gammaMeasure (a i) 1).map (fun x => ∑ i, x i)) :=
    Measure.isProbabilityMeasure_map (by fun_prop)
  have hm : mgf (fun x : Fin n → ℝ => ∑ i, x i) (Measure.pi fun i => gammaMeasure (a i) 1) =
      mgf id (gammaMeasure (∑ i, a i) 1) := by
    funext t
    have hind := iIndepFun_pi (μ := fun i => gammaMeasure (a i) 1) (X := fun _ (y : ℝ) => y)
      fun i => aemeasurable_id
    have h := hind.mgf_sum (t := t) (fun i => measurable_pi_apply i) Finset.univ
    have e : (∑ i, fun x : Fin n → ℝ => x i) = fun x => ∑ i, x i := by funext x; simp
    rw [e] at h
    rw [h, mgf_gamma hA]
    have h1 : ∀ i, mgf (fun x : Fin n → ℝ => x i) (Measure.pi fun i => gammaMeasure (a i) 1) t =
        if t < 1 then (1 / (1 - t)) ^ a i else 0 := by
      intro i
      rw [← mgf_gamma (ha i), ← (measurePreserving_eval (fun i => gammaMeasure (a i) 1) i).map_eq]
      exact (mgf_map (X := id) (Y := fun x : Fin n → ℝ => x i) (measurable_pi_apply i).aemeasurable
        (by fun_prop)).symm
    simp only [h1]
    split_ifs with ht
    · exact (Real.rpow_sum_of_pos (by simpa using ht) _ _).symm
    · exact Finset.prod_eq_zero (Finset.mem_univ (0 : Fin n)) rfl
  have h0 := zero_mem_gamma hA
  have hc := eqOn_complexMGF_of_mgf hm
  have hset := integrableExpSet_eq_of_mgf hm
  have := Measure.ext_of_charFun (μ := (Measure.pi fun i => gammaMeasure (a i) 1).map (fun x => ∑ i, x i))
    (ν := gammaMeasure (∑ i, a i) 1) ?_
  · exact this
  funext t
  rw [← complexMGF_mul_I (by fun_prop), ← complexMGF_id_mul_I]
  refine hc ?_
  simp [hset, h0]

theorem pi_withDensity {μ : Fin n → Measure ℝ} [∀ i, IsProbabilityMeasure (μ i)] {g : Fin n → ℝ → ℝ≥0∞}
    (hg : ∀ i, Measurable (g i)) [∀ i, SigmaFinite ((μ i).withDensity (g i))] :
    (Measure.pi μ).withDensity (fun x => ∏ i, g i (x i)) = Measure.pi fun i => (μ i).withDensity (g i) := by
  refine (Measure.pi_eq fun s hs => ?_).symm
  rw [withDensity_apply _ (MeasurableSet.univ_pi hs), ← lintegral_indicator (MeasurableSet.univ_pi hs)]
  have h : ∀ x : Fin n → ℝ, (univ.pi s).indicator (fun x => ∏ i, g i (x i)) x =
      ∏ i, (s i).indicator (g i) (x i) := by
    intro x
    by_cases hx : x ∈ univ.pi s
    · rw [indicator_of_mem hx]
      exact Finset.prod_congr rfl fun i _ => by rw [indicator_of_mem (hx i (mem_univ i))]
    · rw [indicator_of_notMem hx]
      simp only [mem_pi, mem_univ, true_imp_iff, not_forall] at hx
      obtain ⟨i, hi⟩ := hx
      exact (Finset.prod_eq_zero (Finset.mem_univ i) (indicator_of_notMem hi _)).symm
  simp only [h]
  have hind := iIndepFun_pi (μ := μ) (X := fun i => (s i).indicator (g i))
    fun i => ((hg i).indicator (hs i)).aemeasurable
  have hm : ∀ i, Measurable fun x : Fin n → ℝ => (s i).indicator (g i) (x i) :=
    fun i => ((hg i).indicator (hs i)).comp (measurable_pi_apply i)
  rw [lintegral_prod_eq_prod_lintegral_of_indepFun Finset.univ
    (fun i (x : Fin n → ℝ) => (s i).indicator (g i) (x i)) hind hm]
  refine Finset.prod_congr rfl fun i _ => ?_
  rw [withDensity_apply _ (hs i), ← lintegral_indicator (hs i),
    ← (measurePreserving_eval μ i).lintegral_comp ((hg i).indicator (hs i))]

theorem pi_smul {μ : Fin n → Measure ℝ} [∀ i, IsFiniteMeasure (μ i)] (c : Fin n → ℝ≥0) :
    Measure.pi (fun i => c i • μ i) = (∏ i, c i) • Measure.pi μ := by
  refine Measure.pi_eq fun s _ => ?_
  simp only [Measure.smul_apply, Measure.pi_pi, ENNReal.smul_def, smul_eq_mul, Finset.prod_mul_distrib]
  push_cast
  rfl

/-- Weighting independent gamma variables by powers. -/
theorem pi_gamma_tilt {a s : Fin n → ℝ} (ha : ∀ i, 0 < a i) (hs : ∀ i, 0 < a i + s i) :
    (Measure.pi fun i => gammaMeasure (a i) 1).withDensity (fun x => ∏ i, ENNReal.ofReal (x i ^ s i)) =
      ENNReal.ofReal (∏ i, Real.Gamma (a i + s i) / Real.Gamma (a i)) •
        Measure.pi fun i => gammaMeasure (a i + s i) 1 := by
  have := fun i => isProbabilityMeasure_gammaMeasure (ha i) one_pos
  have := fun i => isProbabilityMeasure_gammaMeasure (hs i) one_pos
  have e : ∀ i, (gammaMeasure (a i) 1).withDensity (fun x => ENNReal.ofReal (x ^ s i)) =
      (Real.Gamma (a i + s i) / Real.Gamma (a i)).toNNReal • gammaMeasure (a i + s i) 1 := fun i => by
    rw [gamma_tilt (ha i) (hs i)]; rfl
  have : ∀ i, SigmaFinite ((gammaMeasure (a i) 1).withDensity (fun x => ENNReal.ofReal (x ^ s i))) := fun i => by
    rw [e]; infer_instance
  rw [pi_withDensity (μ := fun i => gammaMeasure (a i) 1) (g := fun i x => ENNReal.ofReal (x ^ s i))
    (fun i => by fun_prop)]
  simp only [e]
  rw [pi_smul, ENNReal.ofReal_prod_of_nonneg fun i _ =>
    (div_pos (Real.Gamma_pos_of_pos (hs i)) (Real.Gamma_pos_of_pos (ha i))).le]
  ext t ht
  simp only [Measure.smul_apply, ENNReal.smul_def, smul_eq_mul]
  push_cast
  rfl

open Spec

theorem measurable_normalise : Measurable fun (x : Fin n → ℝ) i => x i / ∑ k, x k := by fun_prop

theorem isProbabilityMeasure_dirichlet {a : Fin n → ℝ} (ha : ∀ i, 0 < a i) : IsProbabilityMeasure (dirichlet a) := by
  have := fun i => isProbabilityMeasure_gammaMeasure (ha i) one_pos
  exact Measure.isProbabilityMeasure_map measurable_normalise.aemeasurable

theorem ae_pi_gamma_pos {a : Fin n → ℝ} (ha : ∀ i, 0 < a i) :
    ∀ᵐ x ∂(Measure.pi fun i => gammaMeasure (a i) 1), ∀ i, 0 < x i := by
  have := fun i => isProbabilityMeasure_gammaMeasure (ha i) one_pos
  refine ae_all_iff.2 fun i => ?_
  exact (measurePreserving_eval (fun i => gammaMeasure (a i) 1) i).quasiMeasurePreserving.ae (ae_gamma_pos (a i))

/-- Dirichlet variables are positive and sum to one. -/
theorem ae_dirichlet [NeZero n] {a : Fin n → ℝ} (ha : ∀ i, 0 < a i) :
    ∀ᵐ x ∂dirichlet a, (∀ i, 0 < x i) ∧ ∑ i, x i = 1 := by
  rw [dirichlet, ae_map_iff measurable_normalise.aemeasurable (by measurability)]
  filter_upwards [ae_pi_gamma_pos ha] with x hx
  have hS : 0 < ∑ k, x k := Finset.sum_pos (fun i _ => hx i) Finset.univ_nonempty
  exact ⟨fun i => div_pos (hx i) hS, by rw [← Finset.sum_div, div_self hS.ne']⟩

/-- The moments of the Dirichlet distribution. -/
theorem lintegral_dirichlet [NeZero n] {a s : Fin n → ℝ} (ha : ∀ i, 0 < a i) (hs : ∀ i, 0 < a i + s i) :
    ∫⁻ x, ∏ i, ENNReal.ofReal (x i ^ s i) ∂dirichlet a =
      ENNReal.ofReal ((∏ i, Real.Gamma (a i + s i) / Real.Gamma (a i)) *
        (Real.Gamma (∑ i, a i) / Real.Gamma (∑ i, (a i + s i)))) := by
  have := fun i => isProbabilityMeasure_gammaMeasure (ha i) one_pos
  have := fun i => isProbabilityMeasure_gammaMeasure (hs i) one_pos
  have hA : 0 < ∑ i, a i := Finset.sum_pos (fun i _ => ha i) Finset.univ_nonempty
  have hB : 0 < ∑ i, (a i + s i) := Finset.sum_pos (fun i _ => hs i) Finset.univ_nonempty
  have hc : 0 ≤ ∏ i, Real.Gamma (a i + s i) / Real.Gamma (a i) :=
    Finset.prod_nonneg fun i _ => (div_pos (Real.Gamma_pos_of_pos (hs i)) (Real.Gamma_pos_of_pos (ha i))).le
  rw [dirichlet, lintegral_map (by fun_prop) measurable_normalise]
  have h : ∀ᵐ x ∂(Measure.pi fun i => gammaMeasure (a i) 1),
      ∏ i, ENNReal.ofReal ((x i / ∑ k, x k) ^ s i) =
        (∏ i, ENNReal.ofReal (x i ^ s i)) * ENNReal.ofReal ((∑ k, x k) ^ (-∑ i, s i)) := by
    filter_upwards [ae_pi_gamma_pos ha] with x hx
    have hS : 0 < ∑ k, x k := Finset.sum_pos (fun i _ => hx i) Finset.univ_nonempty
    rw [← ENNReal.ofReal_prod_of_nonneg fun i _ => (Real.rpow_pos_of_pos (hx i) _).le,
      ← ENNReal.ofReal_prod_of_nonneg fun i _ => (Real.rpow_pos_of_pos (div_pos (hx i) hS) _).le,
      ← ENNReal.ofReal_mul (Finset.prod_nonneg fun i _ => (Real.rpow_pos_of_pos (hx i) _).le)]
    congr 1
    rw [← Finset.sum_neg_distrib, Real.rpow_sum_of_pos hS, ← Finset.prod_mul_distrib]
    refine Finset.prod_congr rfl fun i _ => ?_
    rw [Real.div_rpow (hx i).le hS.le, Real.rpow_neg hS.le, div_eq_mul_inv]
  have e2 := lintegral_withDensity_eq_lintegral_mul (Measure.pi fun i => gammaMeasure (a i) 1)
    (f := fun x : Fin n → ℝ => ∏ i, ENNReal.ofReal (x i ^ s i)) (by fun_prop)
    (g := fun x => ENNReal.ofReal ((∑ k, x k) ^ (-∑ i, s i))) (by fun_prop)
  refine (lintegral_congr_ae h).trans (e2.symm.trans ?_)
  rw [pi_gamma_tilt ha hs, lintegral_smul_measure]
  have e := lintegral_map (μ := Measure.pi fun i => gammaMeasure (a i + s i) 1) (g := fun x => ∑ k, x k)
    (f := fun u => ENNReal.ofReal (u ^ (-∑ i, s i))) (by fun_prop) (by fun_prop)
  rw [← e, map_sum_gamma hs, lintegral_gamma_rpow hB (by rw [Finset.sum_add_distrib]; simpa using hA), smul_eq_mul,
    ← ENNReal.ofReal_mul hc]
  congr 4
  rw [Finset.sum_add_distrib]
  ring

/-- `E[Π x_i ^ n_i]` for `x ~ Dir(a)`. -/
theorem integral_dirichlet [NeZero n] {a : Fin n → ℝ} (ha : ∀ i, 0 < a i) (k : Fin n → ℕ) :
    ∫ x, ∏ i, x i ^ k i ∂dirichlet a = (∏ i, Real.Gamma (a i + k i) / Real.Gamma (a i)) *
        (Real.Gamma (∑ i, a i) / Real.Gamma (∑ i, (a i + k i))) := by
  have hs : ∀ i, 0 < a i + k i := fun i => by have := ha i; positivity
  have hA : 0 < ∑ i, a i := Finset.sum_pos (fun i _ => ha i) Finset.univ_nonempty
  have hB : 0 < ∑ i, (a i + k i) := Finset.sum_pos (fun i _ => hs i) Finset.univ_nonempty
  have hc : 0 ≤ ∏ i, Real.Gamma (a i + k i) / Real.Gamma (a i) :=
    Finset.prod_nonneg fun i _ => (div_pos (Real.Gamma_pos_of_pos (hs i)) (Real.Gamma_pos_of_pos (ha i))).le
  have h := lintegral_dirichlet ha hs
  rw [integral_eq_lintegral_of_nonneg_ae]
  · have e : ∀ᵐ x ∂dirichlet a, ENNReal.ofReal (∏ i, x i ^ k i) = ∏ i, ENNReal.ofReal (x i ^ (k i : ℝ)) := by
      filter_upwards [ae_dirichlet ha] with x hx
      simp only [Real.rpow_natCast]
      exact ENNReal.ofReal_prod_of_nonneg fun i _ => pow_nonneg (hx.1 i).le _
    rw [lintegral_congr_ae e, h, ENNReal.toReal_ofReal]
    exact mul_nonneg hc (div_pos (Real.Gamma_pos_of_pos hA) (Real.Gamma_pos_of_pos hB)).le
  · filter_upwards [ae_dirichlet ha] with x hx
    exact Finset.prod_nonneg fun i _ => pow_nonneg (hx.1 i).le _
  · exact Measurable.aestronglyMeasurable (by fun_prop)

theorem integrable_dirichlet [NeZero n] {a : Fin n → ℝ} (ha : ∀ i, 0 < a i) (k : Fin n → ℕ) :
    Integrable (fun x => ∏ i, x i ^ k i) (dirichlet a) := by
  have := isProbabilityMeasure_dirichlet ha
  refine Integrable.of_bound (C := 1) (Measurable.aestronglyMeasurable (by fun_prop)) ?_
  filter_upwards [ae_dirichlet ha] with x hx
  rw [Real.norm_of_nonneg (Finset.prod_nonneg fun i _ => pow_nonneg (hx.1 i).le _)]
  refine Finset.prod_le_one (fun i _ => pow_nonneg (hx.1 i).le _) fun i _ => pow_le_one₀ (hx.1 i).le ?_
  rw [← hx.2]
  exact Finset.single_le_sum (fun j _ => (hx.1 j).le) (Finset.mem_univ i)

theorem log_dirichlet [NeZero n] {a : Fin n → ℝ} (ha : ∀ i, 0 < a i) (i : Fin n) :
    Integrable (fun x => Real.log (x i)) (dirichlet a) ∧
      ∫ x, Real.log (x i) ∂dirichlet a = digamma (a i) - digamma (∑ k, a k) := by
  have := isProbabilityMeasure_dirichlet ha
  have hA : 0 < ∑ i, a i := Finset.sum_pos (fun i _ => ha i) Finset.univ_nonempty
  have hl : ∀ s, -a i < s → ∫⁻ x, ENNReal.ofReal (Real.exp (s * Real.log (x i))) ∂dirichlet a =
      ENNReal.ofReal (Real.Gamma (a i + s) / Real.Gamma (a i) *
        (Real.Gamma (∑ k, a k) / Real.Gamma (∑ k, a k + s))) := by
    intro s hs
    have h := lintegral_dirichlet ha (s := fun k => if k = i then s else 0) (fun k => by
      split_ifs with hk
      · rw [hk]; linarith
      · simpa using ha k)
    have e1 : ∀ᵐ x ∂dirichlet a, ENNReal.ofReal (Real.exp (s * Real.log (x i))) =
        ∏ k, ENNReal.ofReal (x k ^ (if k = i then s else 0)) := by
      filter_upwards [ae_dirichlet ha] with x hx
      rw [Finset.prod_eq_single i]
      · rw [if_pos rfl, Real.rpow_def_of_pos (hx.1 i), mul_comm]
      · intro k _ hk; simp [hk]
      · simp
    rw [lintegral_congr_ae e1, h]
    congr 1
    rw [Finset.sum_add_distrib, Finset.sum_ite_eq' Finset.univ i, if_pos (Finset.mem_univ i)]
    congr 1
    rw [Finset.prod_eq_single i]
    · simp
    · intro k _ hk
      simp [hk, (Real.Gamma_pos_of_pos (ha k)).ne']
    · simp
  have hpos : ∀ s, -a i < s → 0 < Real.Gamma (a i + s) / Real.Gamma (a i) *
        (Real.Gamma (∑ k, a k) / Real.Gamma (∑ k, a k + s)) := by
    intro s hs
    have h1 : 0 < ∑ k, a k + s := by
      have := Finset.single_le_sum (fun j _ => (ha j).le) (Finset.mem_univ i)
      linarith
    exact mul_pos (div_pos (Real.Gamma_pos_of_pos (by linarith)) (Real.Gamma_pos_of_pos (ha i)))
      (div_pos (Real.Gamma_pos_of_pos hA) (Real.Gamma_pos_of_pos h1))
  have hi : ∀ s, -a i < s → Integrable (fun x => Real.exp (s * Real.log (x i))) (dirichlet a) := by
    intro s hs
    refine ⟨Measurable.aestronglyMeasurable (by fun_prop), ?_⟩
    rw [hasFiniteIntegral_iff_ofReal (Filter.Eventually.of_forall fun x => (Real.exp_pos _).le), hl s hs]
    exact ENNReal.ofReal_lt_top
  have h0 : (0 : ℝ) ∈ interior (integrableExpSet (fun x : Fin n → ℝ => Real.log (x i)) (dirichlet a)) :=
    mem_interior.2 ⟨Ioi (-a i), fun s hs => hi s hs, isOpen_Ioi, by simpa using ha i⟩
  refine ⟨memLp_one_iff_integrable.1 (memLp_of_mem_interior_integrableExpSet h0 1), ?_⟩
  rw [← deriv_mgf_zero h0]
  have e : mgf (fun x : Fin n → ℝ => Real.log (x i)) (dirichlet a) =ᶠ[nhds 0] fun s =>
      Real.Gamma (a i + s) / Real.Gamma (a i) * (Real.Gamma (∑ k, a k) / Real.Gamma (∑ k, a k + s)) := by
    filter_upwards [isOpen_Ioi.mem_nhds (show (0 : ℝ) ∈ Ioi (-a i) by simpa using ha i)] with s hs
    rw [mgf, integral_eq_lintegral_of_nonneg_ae (Filter.Eventually.of_forall fun x => (Real.exp_pos _).le)
      (Measurable.aestronglyMeasurable (by fun_prop)), hl s hs, ENNReal.toReal_ofReal (hpos s hs).le]
  rw [e.deriv_eq]
  have g1 := Real.Gamma_pos_of_pos (ha i)
  have g2 := Real.Gamma_pos_of_pos hA
  have d1 : HasDerivAt (fun s => Real.Gamma (a i + s)) (deriv Real.Gamma (a i)) 0 := by
    have := (Real.differentiableAt_Gamma (s := a i) fun m => by have := ha i; have : (0 : ℝ) ≤ m := m.cast_nonneg; linarith).hasDerivAt
    simpa using HasDerivAt.comp_const_add (a i) 0 (by simpa using this)
  have d2 : HasDerivAt (fun s => Real.Gamma (∑ k, a k + s)) (deriv Real.Gamma (∑ k, a k)) 0 := by
    have := (Real.differentiableAt_Gamma (s := ∑ k, a k) fun m => by have : (0 : ℝ) ≤ m := m.cast_nonneg; linarith).hasDerivAt
    simpa using HasDerivAt.comp_const_add (∑ k, a k) 0 (by simpa using this)
  have d := (d1.div_const (Real.Gamma (a i))).mul ((hasDerivAt_const 0 (Real.Gamma (∑ k, a k))).div d2
    (by simpa using g2.ne'))
  refine d.deriv.trans ?_
  simp only [digamma, logDeriv, Pi.div_apply, add_zero]
  field_simp
  ring

theorem integrable_log_dirichlet [NeZero n] {a : Fin n → ℝ} (ha : ∀ i, 0 < a i) (i : Fin n) :
    Integrable (fun x => Real.log (x i)) (dirichlet a) := (log_dirichlet ha i).1

/-- `E[ln x_i]` for `x ~ Dir(a)`. -/
theorem integral_log_dirichlet [NeZero n] {a : Fin n → ℝ} (ha : ∀ i, 0 < a i) (i : Fin n) :
    ∫ x, Real.log (x i) ∂dirichlet a = digamma (a i) - digamma (∑ k, a k) := (log_dirichlet ha i).2

end Verif
