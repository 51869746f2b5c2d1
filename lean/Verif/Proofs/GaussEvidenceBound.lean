import Verif.Proofs.GaussEvidence

/-!
# The evidence of a Gaussian model in closed form, and the lower bound
-/

set_option autoImplicit false

namespace Verif
open MeasureTheory ProbabilityTheory Spec Matrix Gaussian VGaussian
open scoped ENNReal NNReal

variable {nc nf : ℕ}

/-! ## The precision matrices -/

theorem lintegral_wishart_exp {ν a : ℝ} (hν : (nf : ℝ) - 1 < ν) (ha : 0 ≤ a) {S C : Matrix (Fin nf) (Fin nf) ℝ}
    (hS : S.PosDef) (hC : (S + C).PosDef) :
    ∫⁻ Λ, ENNReal.ofReal ((Matrix.of Λ).det ^ (a / 2) * Real.exp (-(1 / 2) * (Matrix.of Λ * C).trace)) ∂wishart ν S⁻¹ =
      ENNReal.ofReal (Real.exp (a * (nf / 2 * Real.log 2) + logZ ν S a C)) := by
  rw [lintegral_wishart hν (by linarith) hS hC]
  congr 1
  have hi : ∀ i : Fin nf, 0 < (ν - i) / 2 := fun i => by
    have : (i : ℕ) + 1 ≤ nf := i.isLt
    have : ((i : ℕ) : ℝ) + 1 ≤ nf := by exact_mod_cast this
    linarith
  have h1 : ∀ i : Fin nf, 2 ^ (a / 2) * (Real.Gamma ((ν + a - i) / 2) / Real.Gamma ((ν - i) / 2)) =
      Real.exp (a / 2 * Real.log 2 + (lnGamma ((ν + a - i) / 2) - lnGamma ((ν - i) / 2))) := by
    intro i
    have p1 := Real.Gamma_pos_of_pos (hi i)
    have p2 : 0 < Real.Gamma ((ν + a - i) / 2) := Real.Gamma_pos_of_pos (by have := hi i; linarith)
    rw [Real.exp_add, Real.exp_sub, lnGamma, lnGamma, Real.exp_log p1, Real.exp_log p2, Real.rpow_def_of_pos two_pos,
      mul_comm (Real.log 2)]
  rw [Finset.prod_congr rfl fun i _ => h1 i, ← Real.exp_sum, Real.rpow_def_of_pos (det_pos hS), Real.rpow_def_of_pos (det_pos hC),
    ← Real.exp_add, ← Real.exp_add, logZ]
  congr 1
  simp only [Finset.sum_add_distrib, Finset.sum_sub_distrib, Finset.sum_const, Finset.card_univ, Fintype.card_fin, nsmul_eq_mul]
  ring

theorem ae_precisionPrior [NeZero nc] (ty : CovType) {p₀ : Fin nc → NW nf} (h₀ : ∀ i, (p₀ i).Proper) :
    ∀ᵐ Λ ∂precisionPrior ty p₀, ∀ i, (Matrix.of (Λ i)).PosDef := by
  have hw := fun i => isProbabilityMeasure_wishart (h₀ i).ν (p₀ i).S⁻¹
  unfold precisionPrior
  split
  · refine (ae_map_iff (measurable_pi_lambda _ fun _ => measurable_id).aemeasurable ?_).2 ?_
    · have : {Λ : Fin nc → Fin nf → Fin nf → ℝ | ∀ i, (Matrix.of (Λ i)).PosDef} =
          ⋂ i, (fun Λ => Λ i) ⁻¹' {Λ : Fin nf → Fin nf → ℝ | (Matrix.of Λ).PosDef} := by ext; simp
      rw [this]
      exact MeasurableSet.iInter fun i => measurableSet_posDef.preimage (measurable_pi_apply i)
    · filter_upwards [ae_wishart (h₀ 0).ν (h₀ 0).S.inv] with Λ h
      exact fun _ => h
  · refine ae_all_iff.2 fun i => ?_
    exact (measurePreserving_eval (fun i => wishart (p₀ i).ν (p₀ i).S⁻¹) i).quasiMeasurePreserving.ae
      (ae_wishart (h₀ i).ν (h₀ i).S.inv)

/-- The logarithm of the density of the samples of each state. -/
noncomputable def logEmits [NeZero nc] (ty : CovType) (p₀ : Fin nc → NW nf) (e : Fin nc → List (Fin nf → ℝ)) : ℝ :=
  ∑ i, (-((e i).length * (nf / 2 * Real.log (2 * Real.pi))) + meanConst p₀ (hard e) i +
    (e i).length * (nf / 2 * Real.log 2)) + logZs ty p₀ (hard e)

theorem lintegral_precisions [NeZero nc] (ty : CovType) (e : Fin nc → List (Fin nf → ℝ)) {p₀ : Fin nc → NW nf}
    (h₀ : ∀ i, (p₀ i).Proper) :
    ∫⁻ Λ, ∏ i, ENNReal.ofReal (stateZ e p₀ i (Λ i)) ∂precisionPrior ty p₀ =
      ENNReal.ofReal (Real.exp (logEmits ty p₀ e)) := by
  have hw := fun i => isProbabilityMeasure_wishart (h₀ i).ν (p₀ i).S⁻¹
  have hT := hard_posLin e
  have hCp := CNext_psd hT h₀
  have hm := fun i => (measurable_stateZ e p₀ i).ennreal_ofReal
  unfold precisionPrior
  split
  · next ht =>
    subst ht
    have hM : Measurable fun Λ : Fin nc → Fin nf → Fin nf → ℝ => ∏ i, ENNReal.ofReal (stateZ e p₀ i (Λ i)) :=
      Finset.measurable_prod _ fun i _ => (hm i).comp (measurable_pi_apply i)
    have hc : Measurable fun (Λ : Fin nf → Fin nf → ℝ) (_ : Fin nc) => Λ := measurable_pi_lambda _ fun _ => measurable_id
    rw [lintegral_map hM hc]
    have h1 : ∀ᵐ Λ ∂wishart (p₀ 0).ν (p₀ 0).S⁻¹, ∏ i, ENNReal.ofReal (stateZ e p₀ i Λ) =
        ENNReal.ofReal (Real.exp (∑ i, (-((e i).length * (nf / 2 * Real.log (2 * Real.pi))) + meanConst p₀ (hard e) i))) *
        ENNReal.ofReal ((Matrix.of Λ).det ^ ((∑ i, hard e i fun _ => 1) / 2) *
          Real.exp (-(1 / 2) * (Matrix.of Λ * ∑ i, CNext p₀ (hard e) i).trace)) := by
      filter_upwards [ae_wishart (h₀ 0).ν (h₀ 0).S.inv] with Λ h
      have hd := det_pos h
      rw [← ENNReal.ofReal_prod_of_nonneg fun i _ => stateZ_nonneg e p₀ i h, ← ENNReal.ofReal_mul (Real.exp_pos _).le]
      congr 1
      simp only [stateZ, Finset.prod_mul_distrib, hard_one]
      rw [← Real.exp_sum, ← Real.exp_sum, ← Real.rpow_sum_of_pos hd, Matrix.mul_sum, Matrix.trace_sum, Finset.mul_sum,
        Finset.sum_div]
    rw [lintegral_congr_ae h1, lintegral_const_mul' _ _ ENNReal.ofReal_ne_top,
      lintegral_wishart_exp (h₀ 0).ν (Finset.sum_nonneg fun j _ => T_one_nonneg hT j) (h₀ 0).S
        ((h₀ 0).S.add_posSemidef (Matrix.posSemidef_sum _ fun j _ => hCp j)), ← ENNReal.ofReal_mul (Real.exp_pos _).le,
      ← Real.exp_add, logEmits, logZs, if_pos rfl, Finset.sum_add_distrib (g := fun i => ((e i).length : ℝ) * _)]
    simp only [hard_one, Finset.sum_mul]
    congr 2
    ring
  · next ht =>
    rw [lintegral_fin_prod (fun i => wishart (p₀ i).ν (p₀ i).S⁻¹) (fun i Λ => ENNReal.ofReal (stateZ e p₀ i Λ)) hm]
    have h1 : ∀ i, ∫⁻ Λ, ENNReal.ofReal (stateZ e p₀ i Λ) ∂wishart (p₀ i).ν (p₀ i).S⁻¹ =
        ENNReal.ofReal (Real.exp (-((e i).length * (nf / 2 * Real.log (2 * Real.pi))) + meanConst p₀ (hard e) i +
          (e i).length * (nf / 2 * Real.log 2) + logZ (p₀ i).ν (p₀ i).S (e i).length (CNext p₀ (hard e) i))) := by
      intro i
      simp only [stateZ, ENNReal.ofReal_mul (Real.exp_pos _).le]
      rw [lintegral_const_mul' _ _ ENNReal.ofReal_ne_top, lintegral_wishart_exp (h₀ i).ν (Nat.cast_nonneg _) (h₀ i).S
        ((h₀ i).S.add_posSemidef (hCp i)), ← ENNReal.ofReal_mul (Real.exp_pos _).le, ← Real.exp_add]
      congr 2
      ring
    rw [Finset.prod_congr rfl fun i _ => h1 i, ← ENNReal.ofReal_prod_of_nonneg fun i _ => (Real.exp_pos _).le, ← Real.exp_sum,
      logEmits, logZs, if_neg ht, Finset.sum_add_distrib (g := fun i => logZ _ _ _ _)]
    simp only [hard_one]

/-! ## Start probabilities and transition matrix -/

theorem lintegral_list_sum {X ι : Type} [MeasurableSpace X] (μ : Measure X) {f : ι → X → ℝ≥0∞} (hf : ∀ c, Measurable (f c))
    (l : List ι) : ∫⁻ x, (l.map fun c => f c x).sum ∂μ = (l.map fun c => ∫⁻ x, f c x ∂μ).sum := by
  induction l with
  | nil => simp
  | cons c l ih =>
    simp only [List.map_cons, List.sum_cons]
    rw [lintegral_add_left (hf c), ih]

theorem ofReal_list_sum {ι : Type} {f : ι → ℝ} (l : List ι) (hf : ∀ c, 0 ≤ f c) :
    ENNReal.ofReal (l.map f).sum = (l.map fun c => ENNReal.ofReal (f c)).sum := by
  induction l with
  | nil => simp
  | cons c l ih =>
    have : 0 ≤ (l.map f).sum := List.sum_nonneg fun x hx => by
      obtain ⟨c, -, rfl⟩ := List.mem_map.1 hx
      exact hf c
    simp only [List.map_cons, List.sum_cons]
    rw [ENNReal.ofReal_add (hf c) this, ih]

/-- The mean of the probabilities of an assignment. -/
noncomputable def meanProbs (sp : Fin nc → ℝ) (tp : Fin nc → Fin nc → ℝ) {D : Type} (c : Assign nc D) : ℝ :=
  (∫ x, ∏ i, x i ^ c.s i ∂dirichlet sp) * ∏ i, ∫ x, ∏ j, x j ^ c.t i j ∂dirichlet (tp i)

section Evidence
variable [NeZero nc] {sp : Fin nc → ℝ} {tp : Fin nc → Fin nc → ℝ} {p₀ : Fin nc → NW nf}
  (hsp : ∀ i, 0 < sp i) (htp : ∀ i j, 0 < tp i j) (h₀ : ∀ i, (p₀ i).Proper)

include hsp in
theorem lintegral_moment (k : Fin nc → ℕ) :
    ∫⁻ x, ENNReal.ofReal (∏ i, x i ^ k i) ∂dirichlet sp = ENNReal.ofReal (∫ x, ∏ i, x i ^ k i ∂dirichlet sp) := by
  rw [ofReal_integral_eq_lintegral_ofReal (integrable_dirichlet hsp k)]
  filter_upwards [ae_dirichlet hsp] with x hx
  exact Finset.prod_nonneg fun i _ => pow_nonneg (hx.1 i).le _

include hsp in
theorem moment_nonneg (k : Fin nc → ℕ) : 0 ≤ ∫ x, ∏ i, x i ^ k i ∂dirichlet sp := by
  refine integral_nonneg_of_ae ?_
  filter_upwards [ae_dirichlet hsp] with x hx
  exact Finset.prod_nonneg fun i _ => pow_nonneg (hx.1 i).le _

include hsp htp in
theorem meanProbs_nonneg {D : Type} (c : Assign nc D) : 0 ≤ meanProbs sp tp c :=
  mul_nonneg (moment_nonneg hsp _) (Finset.prod_nonneg fun i _ => moment_nonneg (htp i) _)

omit [NeZero nc] in
theorem emits_nonneg (e : Fin nc → List (Fin nf → ℝ)) (μ : Fin nc → Fin nf → ℝ) {Λ : Fin nc → Fin nf → Fin nf → ℝ}
    (hΛ : ∀ i, (Matrix.of (Λ i)).PosDef) : 0 ≤ emits e (mvnB μ fun i => (Matrix.of (Λ i))⁻¹) := by
  refine Finset.prod_nonneg fun i _ => List.prod_nonneg fun y hy => ?_
  obtain ⟨x, -, rfl⟩ := List.mem_map.1 hy
  exact (mvnPdf_pos (hΛ i).inv _ _).le

omit [NeZero nc] in
theorem measurable_emits (e : Fin nc → List (Fin nf → ℝ)) (Λ : Fin nc → Fin nf → Fin nf → ℝ) :
    Measurable fun μ : Fin nc → Fin nf → ℝ => emits e (mvnB μ fun i => (Matrix.of (Λ i))⁻¹) := by
  refine Finset.measurable_prod _ fun i _ => ?_
  exact (measurable_list_prod (fun x => measurable_mvnPdf_mean ((Matrix.of (Λ i))⁻¹) x) (e i)).comp (measurable_pi_apply i)

/-- The mean of the density of the data over means and precision matrices. -/
noncomputable def condEvidence (ty : CovType) (p₀ : Fin nc → NW nf) (ss : List (ObsSeq (Fin nf → ℝ))) (π : Fin nc → ℝ)
    (A : Fin nc → Fin nc → ℝ) : ℝ≥0∞ :=
  ∫⁻ Λ, ∫⁻ μ, ENNReal.ofReal (dataLikelihood π A (mvnB μ fun i => (Matrix.of (Λ i))⁻¹) ss)
    ∂meanPrior p₀ (fun i => Matrix.of (Λ i)) ∂precisionPrior ty p₀

section
variable {ss : List (ObsSeq (Fin nf → ℝ))} {l : List (Assign nc (Fin nf → ℝ))}
  (hl : ∀ (π : Fin nc → ℝ) A b, dataLikelihood π A b ss = (l.map fun c => c.probs π A * emits c.e b).sum)
include hl

include h₀ in
omit [NeZero nc] in
theorem means_terms {Λ : Fin nc → Fin nf → Fin nf → ℝ} (hΛ : ∀ i, (Matrix.of (Λ i)).PosDef) {π : Fin nc → ℝ}
    {A : Fin nc → Fin nc → ℝ} (np : ∀ c : Assign nc (Fin nf → ℝ), 0 ≤ c.probs π A) :
    ∫⁻ μ, ENNReal.ofReal (dataLikelihood π A (mvnB μ fun i => (Matrix.of (Λ i))⁻¹) ss) ∂meanPrior p₀ (fun i => Matrix.of (Λ i)) =
      (l.map fun c => ENNReal.ofReal (c.probs π A) * ∏ i, ENNReal.ofReal (stateZ c.e p₀ i (Λ i))).sum := by
  have h1 : ∀ μ, ENNReal.ofReal (dataLikelihood π A (mvnB μ fun i => (Matrix.of (Λ i))⁻¹) ss) =
      (l.map fun c => ENNReal.ofReal (c.probs π A) * ENNReal.ofReal (emits c.e (mvnB μ fun i => (Matrix.of (Λ i))⁻¹))).sum := by
    intro μ
    rw [hl, ofReal_list_sum l fun c => mul_nonneg (np c) (emits_nonneg c.e μ hΛ)]
    exact congrArg List.sum (List.map_congr_left fun c _ => ENNReal.ofReal_mul (np c))
  rw [lintegral_congr h1, lintegral_list_sum (f := fun (c : Assign nc (Fin nf → ℝ)) μ => ENNReal.ofReal (c.probs π A) *
    ENNReal.ofReal (emits c.e (mvnB μ fun i => (Matrix.of (Λ i))⁻¹))) _ fun c => (measurable_emits c.e Λ).ennreal_ofReal.const_mul _]
  congr 1
  refine List.map_congr_left fun c _ => ?_
  rw [lintegral_const_mul' _ _ ENNReal.ofReal_ne_top, lintegral_means c.e h₀ hΛ]

include h₀ in
theorem condEvidence_eq (ty : CovType) {π : Fin nc → ℝ} {A : Fin nc → Fin nc → ℝ} (hπ : ∀ i, 0 < π i) (hA : ∀ i j, 0 < A i j) :
    condEvidence ty p₀ ss π A = (l.map fun c => ENNReal.ofReal (∏ i, π i ^ c.s i) *
      (∏ i, ENNReal.ofReal (∏ j, A i j ^ c.t i j)) * ENNReal.ofReal (Real.exp (logEmits ty p₀ c.e))).sum := by
  have nπ : ∀ c : Assign nc (Fin nf → ℝ), 0 ≤ ∏ i, π i ^ c.s i := fun c => Finset.prod_nonneg fun i _ => pow_nonneg (hπ i).le _
  have nA : ∀ (c : Assign nc (Fin nf → ℝ)) i, 0 ≤ ∏ j, A i j ^ c.t i j := fun c i =>
    Finset.prod_nonneg fun j _ => pow_nonneg (hA i j).le _
  have np : ∀ c : Assign nc (Fin nf → ℝ), 0 ≤ c.probs π A := fun c => mul_nonneg (nπ c) (Finset.prod_nonneg fun i _ => nA c i)
  have a1 : ∀ᵐ Λ ∂precisionPrior ty p₀, ∫⁻ μ, ENNReal.ofReal (dataLikelihood π A (mvnB μ fun i => (Matrix.of (Λ i))⁻¹) ss)
      ∂meanPrior p₀ (fun i => Matrix.of (Λ i)) =
      (l.map fun c => ENNReal.ofReal (c.probs π A) * ∏ i, ENNReal.ofReal (stateZ c.e p₀ i (Λ i))).sum := by
    filter_upwards [ae_precisionPrior ty h₀] with Λ hΛ
    exact means_terms h₀ hl hΛ np
  rw [condEvidence, lintegral_congr_ae a1, lintegral_list_sum (f := fun (c : Assign nc (Fin nf → ℝ)) (Λ : Fin nc → Fin nf → Fin nf → ℝ) =>
    ENNReal.ofReal (c.probs π A) * ∏ i, ENNReal.ofReal (stateZ c.e p₀ i (Λ i))) _ fun c => (Finset.measurable_prod _ fun i _ =>
      ((measurable_stateZ c.e p₀ i).comp (measurable_pi_apply i)).ennreal_ofReal).const_mul _]
  congr 1
  refine List.map_congr_left fun c _ => ?_
  rw [lintegral_const_mul' _ _ ENNReal.ofReal_ne_top, lintegral_precisions ty c.e h₀, Assign.probs,
    ENNReal.ofReal_mul (nπ c), ENNReal.ofReal_prod_of_nonneg fun i _ => nA c i]

omit [NeZero nc] hl in
theorem measurable_row (k : Fin nc → ℕ) : Measurable fun x : Fin nc → ℝ => ENNReal.ofReal (∏ j, x j ^ k j) :=
  Measurable.ennreal_ofReal (by fun_prop)

include htp h₀ in
theorem transEvidence_eq (ty : CovType) {π : Fin nc → ℝ} (hπ : ∀ i, 0 < π i) :
    ∫⁻ A, condEvidence ty p₀ ss π A ∂(Measure.pi fun i => dirichlet (tp i)) = (l.map fun c => ENNReal.ofReal (∏ i, π i ^ c.s i) *
      (ENNReal.ofReal (∏ i, ∫ x, ∏ j, x j ^ c.t i j ∂dirichlet (tp i)) *
      ENNReal.ofReal (Real.exp (logEmits ty p₀ c.e)))).sum := by
  have i2 := fun i => isProbabilityMeasure_dirichlet (htp i)
  have a2 : ∀ᵐ A ∂(Measure.pi fun i => dirichlet (tp i)), condEvidence ty p₀ ss π A =
      (l.map fun c => ENNReal.ofReal (∏ i, π i ^ c.s i) * (∏ i, ENNReal.ofReal (∏ j, A i j ^ c.t i j)) *
      ENNReal.ofReal (Real.exp (logEmits ty p₀ c.e))).sum := by
    have : ∀ᵐ A ∂(Measure.pi fun i => dirichlet (tp i)), ∀ i, (∀ j, 0 < A i j) ∧ ∑ j, A i j = 1 :=
      ae_all_iff.2 fun i => (measurePreserving_eval (fun i => dirichlet (tp i)) i).quasiMeasurePreserving.ae
        (ae_dirichlet (htp i))
    filter_upwards [this] with A hA
    exact condEvidence_eq h₀ hl ty hπ fun i j => (hA i).1 j
  have hm : ∀ c : Assign nc (Fin nf → ℝ), Measurable fun A : Fin nc → Fin nc → ℝ => ENNReal.ofReal (∏ i, π i ^ c.s i) *
      (∏ i, ENNReal.ofReal (∏ j, A i j ^ c.t i j)) * ENNReal.ofReal (Real.exp (logEmits ty p₀ c.e)) := fun c =>
    ((Finset.measurable_prod _ fun i _ => (measurable_row (c.t i)).comp (measurable_pi_apply i)).const_mul _).mul_const _
  rw [lintegral_congr_ae a2, lintegral_list_sum _ hm]
  congr 1
  refine List.map_congr_left fun c _ => ?_
  rw [lintegral_mul_const' _ _ ENNReal.ofReal_ne_top, lintegral_const_mul' _ _ ENNReal.ofReal_ne_top,
    lintegral_fin_prod (fun i => dirichlet (tp i)) (fun i x => ENNReal.ofReal (∏ j, x j ^ c.t i j)) (fun i => measurable_row _),
    Finset.prod_congr rfl fun i _ => lintegral_moment (htp i) (c.t i),
    ← ENNReal.ofReal_prod_of_nonneg fun i _ => moment_nonneg (htp i) _, mul_assoc]

include hsp htp h₀ in
/-- The evidence in closed form. -/
theorem gaussEvidence_eq (ty : CovType) :
    gaussEvidence ty sp tp p₀ ss =
      ENNReal.ofReal (l.map fun c => meanProbs sp tp c * Real.exp (logEmits ty p₀ c.e)).sum := by
  have a3 : ∀ᵐ π ∂dirichlet sp, ∫⁻ A, condEvidence ty p₀ ss π A ∂(Measure.pi fun i => dirichlet (tp i)) =
      (l.map fun c => ENNReal.ofReal (∏ i, π i ^ c.s i) *
        (ENNReal.ofReal (∏ i, ∫ x, ∏ j, x j ^ c.t i j ∂dirichlet (tp i)) *
        ENNReal.ofReal (Real.exp (logEmits ty p₀ c.e)))).sum := by
    filter_upwards [ae_dirichlet hsp] with π hπ
    exact transEvidence_eq htp h₀ hl ty hπ.1
  have hm : ∀ c : Assign nc (Fin nf → ℝ), Measurable fun π : Fin nc → ℝ => ENNReal.ofReal (∏ i, π i ^ c.s i) *
      (ENNReal.ofReal (∏ i, ∫ x, ∏ j, x j ^ c.t i j ∂dirichlet (tp i)) * ENNReal.ofReal (Real.exp (logEmits ty p₀ c.e))) :=
    fun c => (measurable_row c.s).mul_const _
  refine (lintegral_congr_ae a3).trans ?_
  rw [lintegral_list_sum _ hm, ofReal_list_sum l fun c => mul_nonneg (meanProbs_nonneg hsp htp c) (Real.exp_pos _).le]
  congr 1
  refine List.map_congr_left fun c _ => ?_
  rw [lintegral_mul_const _ (measurable_row c.s), lintegral_moment hsp, meanProbs, ENNReal.ofReal_mul (mul_nonneg (moment_nonneg hsp _)
    (Finset.prod_nonneg fun i _ => moment_nonneg (htp i) _)), ENNReal.ofReal_mul (moment_nonneg hsp _), mul_assoc]

end

/-! ## The bound -/

variable {s : Fin nc → ℝ} {t : Fin nc → Fin nc → ℝ} (hs : ∀ i, 0 < s i) (ht : ∀ i j, 0 < t i j)

include hsp htp hs ht in
theorem probs_le {D : Type} (c : Assign nc D) :
    c.probs (expWeight s) (fun i => expWeight (t i)) * Real.exp (-(klDirichlet s sp + ∑ i, klDirichlet (t i) (tp i))) ≤
      meanProbs sp tp c := by
  have h1 := weights_le_moment hs hsp c.s
  have h2 : ∏ i, ((∏ j, expWeight (t i) j ^ c.t i j) * Real.exp (-klDirichlet (t i) (tp i))) ≤ _ :=
    Finset.prod_le_prod (s := Finset.univ)
    (fun i _ => mul_nonneg (Finset.prod_nonneg fun j _ => pow_nonneg (Real.exp_pos _).le _) (Real.exp_pos _).le)
    fun i _ => weights_le_moment (ht i) (htp i) (c.t i)
  have n1 : 0 ≤ (∏ i, expWeight s i ^ c.s i) * Real.exp (-klDirichlet s sp) :=
    mul_nonneg (Finset.prod_nonneg fun j _ => pow_nonneg (Real.exp_pos _).le _) (Real.exp_pos _).le
  have n2 : 0 ≤ ∏ i, ((∏ j, expWeight (t i) j ^ c.t i j) * Real.exp (-klDirichlet (t i) (tp i))) :=
    Finset.prod_nonneg fun i _ =>
      mul_nonneg (Finset.prod_nonneg fun j _ => pow_nonneg (Real.exp_pos _).le _) (Real.exp_pos _).le
  refine le_trans (le_of_eq ?_) (mul_le_mul h1 h2 n2 (n1.trans h1))
  rw [Finset.prod_mul_distrib, ← Real.exp_sum]
  simp only [Assign.probs, neg_add, Real.exp_add, Finset.sum_neg_distrib]
  ring

include h₀ in
theorem emits_le [NeZero nf] {ty : CovType} {p : Fin nc → NW nf} (hp : ∀ i, (p i).Proper) (hA : Allowed ty p)
    (c : Assign nc (Fin nf → ℝ)) :
    emits c.e (nwB p) * Real.exp (-klGauss ty p p₀) ≤
      Real.exp (c.size * (nf / 2 * Real.log (2 * Real.pi))) * Real.exp (logEmits ty p₀ c.e) := by
  have h := gaussObj_le (hard_posLin c.e) h₀ hp hA
  have e1 : emits c.e (nwB p) * Real.exp (-klGauss ty p p₀) = Real.exp (gaussObj ty p₀ (hard c.e) p) := by
    have : emits c.e (nwB p) = Real.exp (∑ i, hard c.e i fun x => Real.log ((p i).weight x)) := by
      rw [Real.exp_sum]
      exact Finset.prod_congr rfl fun i _ => exp_hard c.e i fun x => Real.exp_pos _
    rw [this, ← Real.exp_add, gaussObj, klGauss]
    simp only [stateObj, Finset.sum_sub_distrib]
    congr 1
    ring
  rw [e1, ← Real.exp_add]
  refine Real.exp_le_exp.2 (h.trans (le_of_eq ?_))
  simp only [logEmits, hard_one, Assign.size, Finset.sum_add_distrib, Finset.sum_neg_distrib, ← Finset.sum_mul, Nat.cast_sum]
  ring

include hsp htp h₀ hs ht in
theorem likelihood_le_gaussEvidence [NeZero nf] {ty : CovType} {p : Fin nc → NW nf} (hp : ∀ i, (p i).Proper)
    (hA : Allowed ty p) (ss : List (ObsSeq (Fin nf → ℝ))) :
    gaussEvidence ty sp tp p₀ ss ≠ ⊤ ∧
    dataLikelihood (expWeight s) (fun i => expWeight (t i)) (nwB p) ss *
      Real.exp (-(klDirichlet s sp + ∑ i, klDirichlet (t i) (tp i) + klGauss ty p p₀)) ≤
      Real.exp (numSamples ss * (nf / 2 * Real.log (2 * Real.pi))) * (gaussEvidence ty sp tp p₀ ss).toReal := by
  obtain ⟨l, hk, hl⟩ := isTerms_dataLikelihood (nc := nc) ss
  have he := gaussEvidence_eq hsp htp h₀ hl ty
  refine ⟨by rw [he]; exact ENNReal.ofReal_ne_top, ?_⟩
  have hnn : ∀ c : Assign nc (Fin nf → ℝ), 0 ≤ meanProbs sp tp c * Real.exp (logEmits ty p₀ c.e) := fun c =>
    mul_nonneg (meanProbs_nonneg hsp htp c) (Real.exp_pos _).le
  rw [he, ENNReal.toReal_ofReal (List.sum_nonneg fun x hx => by
    obtain ⟨c, -, rfl⟩ := List.mem_map.1 hx
    exact hnn c)]
  have hl' := hl (expWeight s) (fun i => expWeight (t i)) (nwB p)
  simp only at hl'
  rw [hl', ← List.sum_map_mul_right, ← List.sum_map_mul_left]
  refine List.sum_le_sum fun c hc => ?_
  have h1 := probs_le hsp htp hs ht c
  have h2 := emits_le h₀ hp hA c
  have n2 : 0 ≤ emits c.e (nwB p) * Real.exp (-klGauss ty p p₀) := by
    refine mul_nonneg (Finset.prod_nonneg fun i _ => List.prod_nonneg fun y hy => ?_) (Real.exp_pos _).le
    obtain ⟨x, -, rfl⟩ := List.mem_map.1 hy
    exact (Real.exp_pos _).le
  have := mul_le_mul h1 h2 n2 (meanProbs_nonneg hsp htp c)
  rw [hk c hc] at this
  refine le_trans (le_of_eq ?_) (this.trans (le_of_eq (by ring)))
  rw [neg_add _ (klGauss ty p p₀), Real.exp_add]
  ring

end Evidence

end Verif
