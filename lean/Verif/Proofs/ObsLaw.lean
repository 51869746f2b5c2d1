import Verif.Proofs.Paths
import Verif.Spec.ObsLaw
import Mathlib.MeasureTheory.Constructions.Pi
import Mathlib.MeasureTheory.Measure.WithDensity
import Mathlib.MeasureTheory.Measure.Prod

/-!
# The law of the observations has the likelihood as density
-/

set_option autoImplicit false

namespace Verif
open MeasureTheory Spec
open scoped ENNReal

variable {D : Type} [MeasurableSpace D]

/-- The integral of a product over a product space. -/
theorem lintegral_pi_prod (ν : Measure D) [SigmaFinite ν] : ∀ {n : ℕ} {f : Fin n → D → ℝ≥0∞},
    (∀ i, Measurable (f i)) → ∫⁻ x, ∏ i, f i (x i) ∂(Measure.pi fun _ : Fin n => ν) = ∏ i, ∫⁻ x, f i x ∂ν
  | 0, f, _ => by simp
  | n + 1, f, hf => by
    have hmp := measurePreserving_piFinSuccAbove (fun _ : Fin (n + 1) => ν) 0
    have hm : Measurable fun x : Fin n → D => ∏ i, f i.succ (x i) :=
      Finset.measurable_prod _ fun i _ => (hf _).comp (measurable_pi_apply i)
    rw [← (hmp.symm _).lintegral_comp_emb (MeasurableEquiv.measurableEmbedding _)]
    have e : ∀ p : D × (Fin n → D), ∏ i, f i ((MeasurableEquiv.piFinSuccAbove (fun _ => D) 0).symm p i) =
        f 0 p.1 * ∏ i, f (Fin.succ i) (p.2 i) := by
      intro p
      rw [Fin.prod_univ_succ]
      rfl
    simp only [e]
    rw [lintegral_prod_mul (hf 0).aemeasurable hm.aemeasurable, lintegral_pi_prod ν fun i => hf i.succ,
      Fin.prod_univ_succ]

/-- Independent variables with densities. -/
theorem pi_density {ν : Measure D} [SigmaFinite ν] {n : ℕ} {f : Fin n → D → ℝ≥0∞} (hf : ∀ i, Measurable (f i))
    {P : Fin n → Measure D} [∀ i, SigmaFinite (P i)] (hP : ∀ i, P i = ν.withDensity (f i)) :
    Measure.pi P = (Measure.pi fun _ => ν).withDensity fun x => ∏ i, f i (x i) := by
  refine Measure.pi_eq fun s hs => ?_
  rw [withDensity_apply _ (MeasurableSet.univ_pi hs), ← lintegral_indicator (MeasurableSet.univ_pi hs)]
  have h : ∀ x : Fin n → D, (Set.univ.pi s).indicator (fun x => ∏ i, f i (x i)) x =
      ∏ i, (s i).indicator (f i) (x i) := by
    intro x
    by_cases hx : x ∈ Set.univ.pi s
    · rw [Set.indicator_of_mem hx]
      exact Finset.prod_congr rfl fun i _ => by rw [Set.indicator_of_mem (hx i (Set.mem_univ i))]
    · rw [Set.indicator_of_notMem hx]
      simp only [Set.mem_pi, Set.mem_univ, true_implies, not_forall] at hx
      obtain ⟨i, hi⟩ := hx
      exact (Finset.prod_eq_zero (Finset.mem_univ i) (Set.indicator_of_notMem hi _)).symm
  simp only [h]
  rw [lintegral_pi_prod ν fun i => (hf i).indicator (hs i)]
  refine Finset.prod_congr rfl fun i _ => ?_
  rw [hP, withDensity_apply _ (hs i), lintegral_indicator (hs i)]

variable {nc : ℕ} {π : Fin nc → ℝ} {A : Fin nc → Fin nc → ℝ}

/-- If the emission laws have the densities `b`, the observations have the likelihood as density. -/
theorem obsLaw_density {ν : Measure D} [SigmaFinite ν] {b : D → Fin nc → ℝ} (hπ : ∀ i, 0 ≤ π i)
    (hA : ∀ i j, 0 ≤ A i j) (hb : ∀ x i, 0 ≤ b x i) (hm : ∀ i, Measurable fun x => b x i) {P : Fin nc → Measure D}
    [∀ i, IsProbabilityMeasure (P i)] (hP : ∀ i, P i = ν.withDensity fun x => ENNReal.ofReal (b x i)) (n : ℕ) :
    obsLaw π A P n = (Measure.pi fun _ => ν).withDensity fun x =>
      ENNReal.ofReal (likelihood π A fun t => b (x t)) := by
  have hw : ∀ z : Fin (n + 1) → Fin nc, 0 ≤ π (z 0) * ∏ t : Fin n, A (z t.castSucc) (z t.succ) := fun z =>
    mul_nonneg (hπ _) (Finset.prod_nonneg fun t _ => hA _ _)
  have hme : ∀ z : Fin (n + 1) → Fin nc, Measurable fun x : Fin (n + 1) → D => ∏ t, ENNReal.ofReal (b (x t) (z t)) :=
    fun z => Finset.measurable_prod _ fun t _ => (ENNReal.measurable_ofReal.comp (hm (z t))).comp (measurable_pi_apply t)
  have e : (fun x : Fin (n + 1) → D => ENNReal.ofReal (likelihood π A fun t => b (x t))) = fun x =>
      ∑ z : Fin (n + 1) → Fin nc, ENNReal.ofReal (π (z 0) * ∏ t : Fin n, A (z t.castSucc) (z t.succ)) *
        ∏ t, ENNReal.ofReal (b (x t) (z t)) := by
    funext x
    have h0 : ∀ z, 0 ≤ joint π A (fun t => b (x t)) z := fun z =>
      mul_nonneg (hw z) (Finset.prod_nonneg fun t _ => hb _ _)
    rw [likelihood, ENNReal.ofReal_sum_of_nonneg fun z _ => h0 z]
    refine Finset.sum_congr rfl fun z _ => ?_
    rw [joint, ENNReal.ofReal_mul (hw z), ENNReal.ofReal_prod_of_nonneg fun t _ => hb _ _]
  rw [e, obsLaw]
  ext s hs
  rw [withDensity_apply _ hs, lintegral_finsetSum _ fun z _ => (hme z).const_mul _, Measure.finsetSum_apply]
  refine Finset.sum_congr rfl fun z _ => ?_
  rw [lintegral_const_mul _ (hme z), Measure.smul_apply, smul_eq_mul,
    pi_density (fun t => ENNReal.measurable_ofReal.comp (hm (z t))) fun t => hP (z t), withDensity_apply _ hs]
  rfl

theorem likelihood_ones (hs : ∀ i, ∑ j, A i j = 1) : ∀ (n : ℕ) (p : Fin nc → ℝ),
    likelihood p A (fun (_ : Fin (n + 1)) _ => 1) = ∑ i, p i
  | 0, p => by rw [likelihood_one]; simp
  | n + 1, p => by
    rw [likelihood_succ]
    refine (likelihood_ones hs n _).trans ?_
    simp only [push, mul_one]
    rw [Finset.sum_comm]
    exact Finset.sum_congr rfl fun i _ => by rw [← Finset.mul_sum, hs, mul_one]

/-- The law of the observations is a probability. -/
theorem isProbabilityMeasure_obsLaw (hπ : ∀ i, 0 ≤ π i) (hπs : ∑ i, π i = 1) (hA : ∀ i j, 0 ≤ A i j)
    (hs : ∀ i, ∑ j, A i j = 1) {P : Fin nc → Measure D} [∀ i, IsProbabilityMeasure (P i)] (n : ℕ) :
    IsProbabilityMeasure (obsLaw π A P n) := by
  have hw : ∀ z : Fin (n + 1) → Fin nc, 0 ≤ π (z 0) * ∏ t : Fin n, A (z t.castSucc) (z t.succ) := fun z =>
    mul_nonneg (hπ _) (Finset.prod_nonneg fun t _ => hA _ _)
  refine ⟨?_⟩
  rw [obsLaw, Measure.finsetSum_apply]
  simp only [Measure.smul_apply, measure_univ, smul_eq_mul, mul_one]
  rw [← ENNReal.ofReal_sum_of_nonneg fun z _ => hw z]
  have h := likelihood_ones hs n π
  simp only [likelihood, joint, Finset.prod_const_one, mul_one] at h
  rw [h, hπs, ENNReal.ofReal_one]

end Verif
