import Verif.Spec.Wishart
import Verif.Proofs.MvnLaw
import Verif.Proofs.GaussianFull

/-!
# The Laplace transform of the Wishart law
-/

set_option autoImplicit false

namespace Verif
open MeasureTheory ProbabilityTheory Spec Set Matrix Gaussian
open scoped ENNReal NNReal MatrixOrder

variable {n : ℕ}

/-! ## Triangular integrals -/

/-- A product of functions, each of the first coordinates only, integrated from the last coordinate on. -/
theorem lintegral_tri {X : Type} [MeasurableSpace X] [Inhabited X] : ∀ {m : ℕ} (μ : Fin m → Measure X)
    [∀ i, SigmaFinite (μ i)] (G : Fin m → (Fin m → X) → ℝ≥0∞) (K : Fin m → ℝ≥0∞), (∀ i, Measurable (G i)) →
    (∀ i x y, (∀ l ≤ i, x l = y l) → G i x = G i y) →
    (∀ i x, ∫⁻ y, G i (Function.update x i y) ∂μ i = K i) →
    ∫⁻ x, ∏ i, G i x ∂Measure.pi μ = ∏ i, K i := by
  intro m
  induction m with
  | zero =>
    intro μ _ G K _ _ _
    simp
  | succ m ih =>
    intro μ _ G K hm hd hK
    have hmp := measurePreserving_piFinSuccAbove μ (Fin.last m)
    have hF : Measurable fun x : Fin (m + 1) → X => ∏ i, G i x := Finset.measurable_prod _ fun i _ => hm i
    rw [← hmp.symm.lintegral_comp hF]
    have hF' : Measurable fun p : X × (Fin m → X) =>
        ∏ i, G i ((MeasurableEquiv.piFinSuccAbove (fun _ => X) (Fin.last m)).symm p) :=
      hF.comp (MeasurableEquiv.measurable _)
    rw [lintegral_prod_symm _ hF'.aemeasurable]
    have es : ∀ (a : X) (y : Fin m → X), (MeasurableEquiv.piFinSuccAbove (fun _ => X) (Fin.last m)).symm (a, y) =
        (Fin.snoc y a : Fin (m + 1) → X) := fun a y => Fin.insertNth_last' a y
    have inner : ∀ y : Fin m → X, ∫⁻ a, ∏ i, G i ((MeasurableEquiv.piFinSuccAbove (fun _ => X) (Fin.last m)).symm (a, y))
        ∂μ (Fin.last m) = (∏ i : Fin m, G i.castSucc (Fin.snoc y default : Fin (m + 1) → X)) * K (Fin.last m) := by
      intro y
      have e1 : ∀ (i : Fin m) (a : X), G i.castSucc (Fin.snoc y a : Fin (m + 1) → X) =
          G i.castSucc (Fin.snoc y default : Fin (m + 1) → X) := by
        intro i a
        refine hd _ _ _ fun l hl => ?_
        obtain ⟨l, rfl⟩ : ∃ k : Fin m, l = k.castSucc :=
          ⟨⟨l.val, lt_of_le_of_lt hl i.isLt⟩, rfl⟩
        simp
      have e2 : ∀ a : X, (Fin.snoc y a : Fin (m + 1) → X) =
          Function.update (Fin.snoc y default : Fin (m + 1) → X) (Fin.last m) a := by
        intro a
        rw [Fin.update_snoc_last]
      simp only [es, Fin.prod_univ_castSucc, e1]
      rw [lintegral_const_mul]
      · rw [← hK (Fin.last m) (Fin.snoc y default : Fin (m + 1) → X)]
        simp only [← e2]
      · have : Measurable fun a : X => (MeasurableEquiv.piFinSuccAbove (fun _ => X) (Fin.last m)).symm (a, y) :=
          (MeasurableEquiv.measurable _).comp measurable_prodMk_right
        simp only [es] at this
        exact (hm _).comp this
    simp only [inner]
    have hsn : Measurable fun y : Fin m → X => (Fin.snoc y default : Fin (m + 1) → X) := by
      have : Measurable fun y : Fin m → X => (MeasurableEquiv.piFinSuccAbove (fun _ => X) (Fin.last m)).symm (default, y) :=
        (MeasurableEquiv.measurable _).comp measurable_prodMk_left
      simp only [es] at this
      exact this
    have hprod : Measurable fun y : Fin m → X => ∏ i : Fin m, G i.castSucc (Fin.snoc y default : Fin (m + 1) → X) :=
      Finset.measurable_prod _ fun i _ => (hm _).comp hsn
    rw [lintegral_mul_const _ hprod, Fin.prod_univ_castSucc]
    congr 1
    simp only [Fin.succAbove_last]
    refine ih (fun i => μ i.castSucc) (fun i y => G i.castSucc (Fin.snoc y default : Fin (m + 1) → X))
      (fun i => K i.castSucc) (fun i => (hm _).comp hsn) ?_ ?_
    · intro i x y h
      refine hd _ _ _ fun l hl => ?_
      obtain ⟨l, rfl⟩ : ∃ k : Fin m, l = k.castSucc := ⟨⟨l.val, lt_of_le_of_lt hl i.isLt⟩, rfl⟩
      simpa using h l hl
    · intro i x
      rw [← hK i.castSucc (Fin.snoc x default : Fin (m + 1) → X)]
      refine lintegral_congr fun a => ?_
      congr 1
      exact Fin.snoc_update (α := fun _ => X) ..

/-- Independent variables. -/
theorem lintegral_fin_prod {X : Type} [MeasurableSpace X] [Inhabited X] {m : ℕ} (μ : Fin m → Measure X)
    [∀ i, SigmaFinite (μ i)] (g : Fin m → X → ℝ≥0∞) (hg : ∀ i, Measurable (g i)) :
    ∫⁻ x, ∏ i, g i (x i) ∂Measure.pi μ = ∏ i, ∫⁻ y, g i y ∂μ i := by
  refine lintegral_tri μ (fun i x => g i (x i)) _ (fun i => (hg i).comp (measurable_pi_apply i)) ?_ ?_
  · intro i x y h
    rw [h i le_rfl]
  · intro i x
    simp

/-! ## One entry -/

theorem lintegral_shift {t : ℝ} (ht : 0 < t) (c : ℝ) :
    ∫⁻ y, ENNReal.ofReal (Real.exp (-(1 / 2) * (t * y + c) ^ 2 + 1 / 2 * y ^ 2)) ∂gaussianReal 0 1 =
      ENNReal.ofReal t⁻¹ := by
  have hv : (Real.toNNReal (t⁻¹ ^ 2)) ≠ 0 := by
    have : 0 < t⁻¹ ^ 2 := by positivity
    simpa using this.ne'
  have hv' : ((Real.toNNReal (t⁻¹ ^ 2) : ℝ≥0) : ℝ) = t⁻¹ ^ 2 := Real.coe_toNNReal _ (by positivity)
  rw [gaussianReal_of_var_ne_zero _ one_ne_zero, lintegral_withDensity_eq_lintegral_mul _ (measurable_gaussianPDF _ _)
    (by fun_prop)]
  have e : ∀ y, (gaussianPDF 0 1 * fun y => ENNReal.ofReal (Real.exp (-(1 / 2) * (t * y + c) ^ 2 + 1 / 2 * y ^ 2))) y =
      ENNReal.ofReal t⁻¹ * gaussianPDF (-c / t) (Real.toNNReal (t⁻¹ ^ 2)) y := by
    intro y
    simp only [Pi.mul_apply, gaussianPDF]
    rw [← ENNReal.ofReal_mul (gaussianPDFReal_nonneg _ _ _), ← ENNReal.ofReal_mul (by positivity)]
    congr 1
    simp only [gaussianPDFReal, hv', NNReal.coe_one, mul_one, sub_zero]
    rw [mul_assoc, ← Real.exp_add, Real.sqrt_mul (show 0 ≤ 2 * Real.pi by positivity) (t⁻¹ ^ 2),
      Real.sqrt_sq (by positivity), ← mul_assoc]
    congr 1
    · field_simp
    · congr 1
      field_simp
      ring
  simp only [e]
  rw [lintegral_const_mul _ (measurable_gaussianPDF _ _), lintegral_gaussianPDF_eq_one _ hv, mul_one]

theorem lintegral_chi {b a t : ℝ} (hb : 0 < b) (ha : 0 < b + a / 2) (ht : 0 < t) :
    ∫⁻ x, ENNReal.ofReal (x ^ (a / 2) * Real.exp (-(1 / 2) * (t ^ 2 - 1) * x)) ∂gammaMeasure b (1 / 2) =
      ENNReal.ofReal (2 ^ (a / 2) * (Real.Gamma (b + a / 2) / Real.Gamma b) * t ^ (-(2 * b + a))) := by
  have hg := Real.Gamma_pos_of_pos hb
  have hg' := Real.Gamma_pos_of_pos ha
  have ht2 : 0 < t ^ 2 / 2 := by positivity
  have key : (gammaMeasure b (1 / 2)).withDensity (fun x => ENNReal.ofReal (x ^ (a / 2) * Real.exp (-(1 / 2) * (t ^ 2 - 1) * x))) =
      ENNReal.ofReal (2 ^ (a / 2) * (Real.Gamma (b + a / 2) / Real.Gamma b) * t ^ (-(2 * b + a))) •
        gammaMeasure (b + a / 2) (t ^ 2 / 2) := by
    rw [gammaMeasure, gammaMeasure, ← withDensity_mul _ (by unfold gammaPDF; fun_prop) (by fun_prop),
      ← withDensity_smul _ (by unfold gammaPDF; fun_prop)]
    refine withDensity_congr_ae ?_
    have h : ∀ᵐ x : ℝ, x ≠ 0 := by simp [ae_iff]
    filter_upwards [h] with x hx
    rw [Pi.mul_apply, Pi.smul_apply, smul_eq_mul]
    rcases lt_or_gt_of_ne hx with h | h
    · simp [gammaPDF_of_neg h]
    · rw [gammaPDF_pos_eq h, gammaPDF_pos_eq h, ← ENNReal.ofReal_mul (by positivity), ← ENNReal.ofReal_mul (by positivity)]
      congr 1
      have e1 : (t ^ 2 / 2 : ℝ) ^ (b + a / 2) = t ^ (2 * b + a) * (2 ^ b)⁻¹ * (2 ^ (a / 2))⁻¹ := by
        rw [Real.div_rpow (by positivity) (by norm_num), ← Real.rpow_natCast t 2, ← Real.rpow_mul ht.le,
          Real.rpow_add two_pos]
        push_cast
        rw [show 2 * (b + a / 2) = 2 * b + a by ring]
        field_simp
      have e2 : ((1 : ℝ) / 2) ^ b = (2 ^ b)⁻¹ := by rw [one_div, Real.inv_rpow (by norm_num)]
      have e3 : Real.exp (-(t ^ 2 / 2 * x)) = Real.exp (-(1 / 2 * x)) * Real.exp (-(1 / 2) * (t ^ 2 - 1) * x) := by
        rw [← Real.exp_add]; congr 1; ring
      rw [e1, e2, e3, Real.rpow_neg ht.le, show b + a / 2 - 1 = (b - 1) + a / 2 by ring, Real.rpow_add h]
      have h1 := (Real.rpow_pos_of_pos ht (2 * b + a)).ne'
      have h2 := (Real.rpow_pos_of_pos two_pos b).ne'
      have h3 := (Real.rpow_pos_of_pos two_pos (a / 2)).ne'
      generalize Real.Gamma (b + a / 2) = γ at hg' ⊢
      field_simp
  have h := congrArg (fun μ : Measure ℝ => μ univ) key
  have := isProbabilityMeasure_gammaMeasure ha ht2
  simpa [withDensity_apply] using h

/-! ## Reverse Cholesky factors -/

theorem exists_rev_factor {M : Matrix (Fin n) (Fin n) ℝ} (h : M.PosDef) :
    ∃ T : Matrix (Fin n) (Fin n) ℝ, (∀ i j, i < j → T i j = 0) ∧ (∀ i, 0 < T i i) ∧ Tᵀ * T = M ∧
      M.det = (∏ i, T i i) ^ 2 := by
  have hB : (M.submatrix Fin.rev Fin.rev).PosDef := h.submatrix Fin.rev_injective
  obtain ⟨C, -, hC⟩ := exists_factor hB
  refine ⟨Matrix.of fun i j => C (Fin.rev j) (Fin.rev i), fun i j hij => ?_, fun i => hC.lower.diag _, ?_, ?_⟩
  · exact hC.lower.upper _ _ (Fin.rev_lt_rev.2 hij)
  · ext i j
    rw [Matrix.mul_apply]
    have := congrFun (congrFun hC.mul (Fin.rev i)) (Fin.rev j)
    rw [Matrix.mul_apply] at this
    simp only [Matrix.transpose_apply, Matrix.submatrix_apply, Fin.rev_rev] at this
    rw [← this, ← Equiv.sum_comp Fin.revPerm]
    simp
  · have h1 := hC.det
    have e : (M.submatrix Fin.rev Fin.rev) = M.submatrix Fin.revPerm Fin.revPerm := rfl
    rw [e, Matrix.det_submatrix_equiv_self] at h1
    rw [h1, ← Equiv.prod_comp Fin.revPerm]
    simp

/-! ## The Laplace transform -/

section Laplace
variable {T : Matrix (Fin n) (Fin n) ℝ}

/-- What the rows above contribute to an entry of `T A`. -/
noncomputable def rowShift (T : Matrix (Fin n) (Fin n) ℝ) (r : Fin n → ℝ) (z : Fin n → Fin n → ℝ) (i j : Fin n) : ℝ :=
  ∑ l, if l < i then T i l * bartlettMat r z l j else 0

theorem mul_bartlett (hT : ∀ i j, i < j → T i j = 0) (r : Fin n → ℝ) (z : Fin n → Fin n → ℝ) (i j : Fin n) :
    (T * bartlettMat r z) i j =
      if j < i then T i i * z i j + rowShift T r z i j else if i = j then T i i * √(r i) else 0 := by
  have e : (T * bartlettMat r z) i j = T i i * bartlettMat r z i j + rowShift T r z i j := by
    rw [Matrix.mul_apply, rowShift, ← Finset.add_sum_erase _ _ (Finset.mem_univ i),
      ← Finset.add_sum_erase _ (fun l => if l < i then T i l * bartlettMat r z l j else 0) (Finset.mem_univ i)]
    simp only [lt_irrefl, if_false, zero_add]
    congr 1
    refine Finset.sum_congr rfl fun l hl => ?_
    have hl := Finset.ne_of_mem_erase hl
    split
    · rfl
    · rw [hT i l (lt_of_le_of_ne (not_lt.1 ‹_›) hl.symm), zero_mul]
  rw [e]
  by_cases h : j < i
  · simp [h, bartlettMat]
  · have h0 : rowShift T r z i j = 0 := by
      refine Finset.sum_eq_zero fun l _ => ?_
      split
      · have h1 : ¬ j < l := fun h' => h (h'.trans ‹_›)
        have h2 : l ≠ j := fun h' => h (h' ▸ ‹_›)
        simp [bartlettMat, h1, h2]
      · rfl
    rw [h0, add_zero, if_neg h]
    split
    · subst ‹i = j›; simp [bartlettMat]
    · simp [bartlettMat, h, ‹¬ i = j›]

theorem trace_sq (B : Matrix (Fin n) (Fin n) ℝ) : (Bᵀ * B).trace = ∑ i, ∑ j, B i j ^ 2 := by
  rw [Finset.sum_comm]
  simp [Matrix.trace, Matrix.mul_apply, pow_two]

/-- The exponent, as a sum over rows. -/
theorem bartlett_exponent {M : Matrix (Fin n) (Fin n) ℝ} (hT : ∀ i j, i < j → T i j = 0) (hM : Tᵀ * T = 1 + M)
    {r : Fin n → ℝ} (hr : ∀ i, 0 ≤ r i) (z : Fin n → Fin n → ℝ) :
    -(1 / 2) * ((bartlettMat r z)ᵀ * M * bartlettMat r z).trace =
      ∑ i, -(1 / 2) * (T i i ^ 2 - 1) * r i +
        ∑ i, ∑ j, if j < i then -(1 / 2) * (T i i * z i j + rowShift T r z i j) ^ 2 + 1 / 2 * z i j ^ 2 else 0 := by
  have e1 : ((bartlettMat r z)ᵀ * M * bartlettMat r z).trace =
      ∑ i, ∑ j, (T * bartlettMat r z) i j ^ 2 - ∑ i, ∑ j, bartlettMat r z i j ^ 2 := by
    rw [← trace_sq, ← trace_sq, Matrix.transpose_mul, show M = Tᵀ * T - 1 by rw [hM]; abel]
    rw [Matrix.mul_sub, Matrix.sub_mul, Matrix.trace_sub, Matrix.mul_one]
    simp only [Matrix.mul_assoc]
  rw [e1, ← Finset.sum_sub_distrib, Finset.mul_sum, ← Finset.sum_add_distrib]
  refine Finset.sum_congr rfl fun i _ => ?_
  rw [← Finset.sum_sub_distrib, Finset.mul_sum]
  have e2 : -(1 / 2) * (T i i ^ 2 - 1) * r i = ∑ j, if i = j then -(1 / 2) * (T i i ^ 2 - 1) * r i else 0 := by
    simp
  rw [e2, ← Finset.sum_add_distrib]
  refine Finset.sum_congr rfl fun j _ => ?_
  rw [mul_bartlett hT]
  by_cases h : j < i
  · simp only [h, if_true, bartlettMat, Matrix.of_apply, h.ne', if_false]
    ring
  · by_cases h' : i = j
    · subst h'
      simp only [lt_irrefl, if_false, if_true, bartlettMat, Matrix.of_apply, mul_pow, Real.sq_sqrt (hr i)]
      ring
    · simp [h, h', bartlettMat]

theorem measurable_rowShift (T : Matrix (Fin n) (Fin n) ℝ) (i j : Fin n) :
    Measurable fun ω : (Fin n → ℝ) × (Fin n → Fin n → ℝ) => rowShift T ω.1 ω.2 i j := by
  refine Finset.measurable_sum _ fun l _ => ?_
  split
  · refine measurable_const.mul ?_
    simp only [bartlettMat, Matrix.of_apply]
    split
    · fun_prop
    · split
      · fun_prop
      · fun_prop
  · fun_prop

/-- One row. -/
theorem lintegral_row (i : Fin n) {t : ℝ} (ht : 0 < t) (c : Fin n → ℝ) :
    ∫⁻ y : Fin n → ℝ, ENNReal.ofReal (Real.exp (∑ j, if j < i then -(1 / 2) * (t * y j + c j) ^ 2 + 1 / 2 * y j ^ 2 else 0))
      ∂Measure.pi (fun _ => gaussianReal 0 1) = ENNReal.ofReal (t⁻¹ ^ (i : ℕ)) := by
  have e : ∀ y : Fin n → ℝ, ENNReal.ofReal (Real.exp (∑ j, if j < i then -(1 / 2) * (t * y j + c j) ^ 2 + 1 / 2 * y j ^ 2 else 0)) =
      ∏ j, ENNReal.ofReal (Real.exp (if j < i then -(1 / 2) * (t * y j + c j) ^ 2 + 1 / 2 * y j ^ 2 else 0)) := by
    intro y
    rw [Real.exp_sum, ENNReal.ofReal_prod_of_nonneg fun j _ => (Real.exp_pos _).le]
  simp only [e]
  rw [lintegral_fin_prod (fun _ => gaussianReal 0 1)
    (fun j x => ENNReal.ofReal (Real.exp (if j < i then -(1 / 2) * (t * x + c j) ^ 2 + 1 / 2 * x ^ 2 else 0)))]
  · have : ∀ j : Fin n, ∫⁻ x, ENNReal.ofReal (Real.exp (if j < i then -(1 / 2) * (t * x + c j) ^ 2 + 1 / 2 * x ^ 2 else 0))
        ∂gaussianReal 0 1 = if j < i then ENNReal.ofReal t⁻¹ else 1 := by
      intro j
      by_cases h : j < i
      · simp only [h, if_true]; exact lintegral_shift ht _
      · simp [h]
    simp only [this]
    rw [Finset.prod_ite, Finset.prod_const_one, mul_one, Finset.prod_const, ENNReal.ofReal_pow (by positivity)]
    congr 1
    rw [show ({x | x < i} : Finset (Fin n)) = Finset.Iio i by ext; simp]
    exact Fin.card_Iio i
  · intro j
    split <;> fun_prop

/-- `E[∏ a_ii^a exp(-½ tr(Aᵀ M A))]` for the random triangular matrix `A`. -/
theorem lintegral_bartlett {ν a : ℝ} (hν : (n : ℝ) - 1 < ν) (ha : (n : ℝ) - 1 < ν + a) {M : Matrix (Fin n) (Fin n) ℝ}
    (hM : (1 + M).PosDef) :
    ∫⁻ ω, ENNReal.ofReal ((∏ i, ω.1 i ^ (a / 2)) *
        Real.exp (-(1 / 2) * ((bartlettMat ω.1 ω.2)ᵀ * M * bartlettMat ω.1 ω.2).trace)) ∂bartlett n ν =
      ENNReal.ofReal ((∏ i : Fin n, (2 ^ (a / 2) * (Real.Gamma ((ν + a - i) / 2) / Real.Gamma ((ν - i) / 2)))) *
        (1 + M).det ^ (-((ν + a) / 2))) := by
  obtain ⟨T, hT, hpos, hTM, hdet⟩ := exists_rev_factor hM
  have hi : ∀ i : Fin n, (i : ℝ) ≤ (n : ℝ) - 1 := fun i => by
    have : (i : ℕ) + 1 ≤ n := i.isLt
    have : ((i : ℕ) : ℝ) + 1 ≤ n := by exact_mod_cast this
    linarith
  have hb : ∀ i : Fin n, 0 < (ν - i) / 2 := fun i => by have := hi i; linarith
  have hba : ∀ i : Fin n, 0 < (ν - i) / 2 + a / 2 := fun i => by have := hi i; linarith
  have hp : ∀ i : Fin n, IsProbabilityMeasure (gammaMeasure ((ν - i) / 2) (1 / 2)) := fun i =>
    isProbabilityMeasure_gammaMeasure (hb i) (by norm_num)
  -- the integrand as a product
  let F : (Fin n → ℝ) → ℝ≥0∞ := fun r => ∏ i, ENNReal.ofReal (r i ^ (a / 2) * Real.exp (-(1 / 2) * (T i i ^ 2 - 1) * r i))
  let G : (Fin n → ℝ) → Fin n → (Fin n → Fin n → ℝ) → ℝ≥0∞ := fun r i z => ENNReal.ofReal (Real.exp (∑ j,
    if j < i then -(1 / 2) * (T i i * z i j + rowShift T r z i j) ^ 2 + 1 / 2 * z i j ^ 2 else 0))
  have hFm : Measurable F := by
    refine Finset.measurable_prod _ fun i _ => ?_
    fun_prop
  have hGm : ∀ i, Measurable fun ω : (Fin n → ℝ) × (Fin n → Fin n → ℝ) => G ω.1 i ω.2 := by
    intro i
    refine ENNReal.measurable_ofReal.comp (Real.measurable_exp.comp (Finset.measurable_sum _ fun j _ => ?_))
    have h := measurable_rowShift T i j
    split
    · exact (((((measurable_const.mul (by fun_prop : Measurable fun ω : (Fin n → ℝ) × (Fin n → Fin n → ℝ) => ω.2 i j)).add
        h).pow_const 2).const_mul _)).add (by fun_prop)
    · fun_prop
  have hr : ∀ᵐ ω ∂bartlett n ν, ∀ i, 0 < ω.1 i := by
    refine ae_all_iff.2 fun i => ?_
    exact Measure.quasiMeasurePreserving_fst.ae
      ((measurePreserving_eval (fun i : Fin n => gammaMeasure ((ν - i) / 2) (1 / 2)) i).quasiMeasurePreserving.ae
        (ae_gamma_rate_pos _ _))
  have e1 : ∀ᵐ ω ∂bartlett n ν, ENNReal.ofReal ((∏ i, ω.1 i ^ (a / 2)) *
        Real.exp (-(1 / 2) * ((bartlettMat ω.1 ω.2)ᵀ * M * bartlettMat ω.1 ω.2).trace)) =
      F ω.1 * ∏ i, G ω.1 i ω.2 := by
    filter_upwards [hr] with ω hω
    have hn : ∀ i, 0 ≤ ω.1 i ^ (a / 2) * Real.exp (-(1 / 2) * (T i i ^ 2 - 1) * ω.1 i) := fun i =>
      mul_nonneg (Real.rpow_nonneg (hω i).le _) (Real.exp_pos _).le
    simp only [F, G]
    rw [← ENNReal.ofReal_prod_of_nonneg fun i _ => hn i, ← ENNReal.ofReal_prod_of_nonneg fun i _ => (Real.exp_pos _).le,
      ← ENNReal.ofReal_mul (Finset.prod_nonneg fun i _ => hn i), bartlett_exponent hT hTM (fun i => (hω i).le),
      Real.exp_add, Real.exp_sum, Real.exp_sum, Finset.prod_mul_distrib, mul_assoc]
  rw [lintegral_congr_ae e1, bartlett]
  have hm : Measurable fun ω : (Fin n → ℝ) × (Fin n → Fin n → ℝ) => F ω.1 * ∏ i, G ω.1 i ω.2 :=
    (hFm.comp measurable_fst).mul (Finset.measurable_prod _ fun i _ => hGm i)
  rw [lintegral_prod _ hm.aemeasurable]
  have inner : ∀ r : Fin n → ℝ, ∫⁻ z : Fin n → Fin n → ℝ, F r * ∏ i, G r i z
      ∂(Measure.pi fun _ => Measure.pi fun _ => gaussianReal 0 1) = F r * ∏ i : Fin n, ENNReal.ofReal ((T i i)⁻¹ ^ (i : ℕ)) := by
    intro r
    have hGr : ∀ i, Measurable (G r i) := fun i =>
      Measurable.of_uncurry_left (f := fun r z => G r i z) (hGm i)
    rw [lintegral_const_mul _ (Finset.measurable_prod _ fun i _ => hGr i)]
    congr 1
    refine lintegral_tri (fun _ => Measure.pi fun _ => gaussianReal 0 1) (G r) _ hGr ?_ ?_
    · intro i x y h
      have : ∀ j, rowShift T r x i j = rowShift T r y i j := by
        intro j
        refine Finset.sum_congr rfl fun l _ => ?_
        split
        · simp only [bartlettMat, Matrix.of_apply, h l ‹l < i›.le]
        · rfl
      simp only [G, this, h i le_rfl]
    · intro i x
      have : ∀ (y : Fin n → ℝ) j, rowShift T r (Function.update x i y) i j = rowShift T r x i j := by
        intro y j
        refine Finset.sum_congr rfl fun l _ => ?_
        split
        · simp only [bartlettMat, Matrix.of_apply, Function.update_of_ne ‹l < i›.ne]
        · rfl
      simp only [G, this, Function.update_self]
      exact lintegral_row i (hpos i) _
  simp only [inner]
  rw [lintegral_mul_const _ hFm, lintegral_fin_prod (fun i : Fin n => gammaMeasure ((ν - i) / 2) (1 / 2))
    (fun i x => ENNReal.ofReal (x ^ (a / 2) * Real.exp (-(1 / 2) * (T i i ^ 2 - 1) * x))) (fun i => by fun_prop),
    ← Finset.prod_mul_distrib, hdet]
  have e2 : ((∏ i, T i i) ^ 2) ^ (-((ν + a) / 2)) = ∏ i, T i i ^ (-(ν + a)) := by
    have h0 : 0 < ∏ i, T i i := Finset.prod_pos fun i _ => hpos i
    rw [← Real.rpow_natCast, ← Real.rpow_mul h0.le, ← Real.finsetProd_rpow _ _ fun i _ => (hpos i).le]
    push_cast
    rw [show (2 : ℝ) * -((ν + a) / 2) = -(ν + a) by ring]
  rw [e2, ← Finset.prod_mul_distrib, ENNReal.ofReal_prod_of_nonneg]
  · refine Finset.prod_congr rfl fun i _ => ?_
    rw [lintegral_chi (hb i) (hba i) (hpos i), ← ENNReal.ofReal_mul]
    · congr 1
      have e3 : (T i i)⁻¹ ^ (i : ℕ) = T i i ^ (-(i : ℝ)) := by
        rw [Real.rpow_neg (hpos i).le, Real.rpow_natCast, inv_pow]
      rw [e3, mul_assoc, ← Real.rpow_add (hpos i), show (ν - i) / 2 + a / 2 = (ν + a - i) / 2 by ring]
      congr 2
      ring
    · exact mul_nonneg (mul_nonneg (by positivity) (div_nonneg (Real.Gamma_pos_of_pos (hba i)).le
        (Real.Gamma_pos_of_pos (hb i)).le)) (Real.rpow_nonneg (hpos i).le _)
  · intro i _
    have h1 : 0 < (ν + a - i) / 2 := by have := hba i; linarith
    exact mul_nonneg (mul_nonneg (by positivity) (div_nonneg (Real.Gamma_pos_of_pos h1).le
      (Real.Gamma_pos_of_pos (hb i)).le)) (Real.rpow_nonneg (hpos i).le _)

end Laplace

/-! ## The Wishart law -/

theorem isProbabilityMeasure_bartlett {ν : ℝ} (hν : (n : ℝ) - 1 < ν) : IsProbabilityMeasure (bartlett n ν) := by
  have hp : ∀ i : Fin n, IsProbabilityMeasure (gammaMeasure ((ν - i) / 2) (1 / 2)) := fun i =>
    isProbabilityMeasure_gammaMeasure (by
      have : (i : ℕ) + 1 ≤ n := i.isLt
      have : ((i : ℕ) : ℝ) + 1 ≤ n := by exact_mod_cast this
      linarith) (by norm_num)
  unfold bartlett
  infer_instance

theorem ae_bartlett_pos {ν : ℝ} (hν : (n : ℝ) - 1 < ν) : ∀ᵐ ω ∂bartlett n ν, ∀ i, 0 < ω.1 i := by
  have hp : ∀ i : Fin n, IsProbabilityMeasure (gammaMeasure ((ν - i) / 2) (1 / 2)) := fun i =>
    isProbabilityMeasure_gammaMeasure (by
      have : (i : ℕ) + 1 ≤ n := i.isLt
      have : ((i : ℕ) : ℝ) + 1 ≤ n := by exact_mod_cast this
      linarith) (by norm_num)
  refine ae_all_iff.2 fun i => ?_
  exact Measure.quasiMeasurePreserving_fst.ae
    ((measurePreserving_eval (fun i : Fin n => gammaMeasure ((ν - i) / 2) (1 / 2)) i).quasiMeasurePreserving.ae
      (ae_gamma_rate_pos _ _))

/-- The factor of the random matrix. -/
theorem sqrt_facts {S : Matrix (Fin n) (Fin n) ℝ} (hS : S.PosDef) :
    (CFC.sqrt S) * (CFC.sqrt S)ᵀ = S ∧ (CFC.sqrt S).det ≠ 0 := by
  have h0 : (0 : Matrix (Fin n) (Fin n) ℝ) ≤ S := hS.posSemidef.nonneg
  have hsq : CFC.sqrt S * CFC.sqrt S = S := CFC.sqrt_mul_sqrt_self S h0
  have ht : (CFC.sqrt S)ᵀ = CFC.sqrt S := by
    have := (CFC.sqrt_nonneg S).isSelfAdjoint
    rw [IsSelfAdjoint, Matrix.star_eq_conjTranspose] at this
    simpa using this
  refine ⟨by rw [ht, hsq], fun h => ?_⟩
  have := hS.det_pos
  rw [← hsq, Matrix.det_mul, h, mul_zero] at this
  exact lt_irrefl _ this

theorem measurable_bartlettMat (i j : Fin n) :
    Measurable fun ω : (Fin n → ℝ) × (Fin n → Fin n → ℝ) => bartlettMat ω.1 ω.2 i j := by
  simp only [bartlettMat, Matrix.of_apply]
  split
  · fun_prop
  · split <;> fun_prop

theorem measurable_wishartMap (L : Matrix (Fin n) (Fin n) ℝ) :
    Measurable fun ω : (Fin n → ℝ) × (Fin n → Fin n → ℝ) =>
      Matrix.of.symm ((L * bartlettMat ω.1 ω.2) * (L * bartlettMat ω.1 ω.2)ᵀ) := by
  have h1 : ∀ i j, Measurable fun ω : (Fin n → ℝ) × (Fin n → Fin n → ℝ) => (L * bartlettMat ω.1 ω.2) i j := by
    intro i j
    simp only [Matrix.mul_apply]
    exact Finset.measurable_sum _ fun l _ => (measurable_bartlettMat l j).const_mul _
  refine measurable_pi_iff.2 fun i => measurable_pi_iff.2 fun j => ?_
  simp only [Matrix.of_symm_apply, Matrix.mul_apply (M := L * _), Matrix.transpose_apply]
  exact Finset.measurable_sum _ fun l _ => (h1 i l).mul (h1 j l)

theorem isProbabilityMeasure_wishart {ν : ℝ} (hν : (n : ℝ) - 1 < ν) (W : Matrix (Fin n) (Fin n) ℝ) :
    IsProbabilityMeasure (wishart ν W) := by
  have := isProbabilityMeasure_bartlett hν
  exact Measure.isProbabilityMeasure_map (measurable_wishartMap _).aemeasurable

theorem det_bartlettMat (r : Fin n → ℝ) (z : Fin n → Fin n → ℝ) : (bartlettMat r z).det = ∏ i, √(r i) := by
  rw [Matrix.det_of_isLowerTriangular _ fun i j hij => ?_]
  · exact Finset.prod_congr rfl fun i _ => by simp [bartlettMat]
  · have hij : i < j := hij
    simp [bartlettMat, hij.not_gt, hij.ne]

theorem measurableSet_posDef : MeasurableSet {Λ : Fin n → Fin n → ℝ | (Matrix.of Λ).PosDef} := by
  have e : {Λ : Fin n → Fin n → ℝ | (Matrix.of Λ).PosDef} =
      {Λ | (Matrix.of Λ).PosSemidef} ∩ {Λ | (Matrix.of Λ).det ≠ 0} := by
    ext Λ
    constructor
    · intro h
      exact ⟨h.posSemidef, (Matrix.PosDef.det_pos h).ne'⟩
    · rintro ⟨h1, h2⟩
      exact h1.posDef_iff_isUnit.2 ((Matrix.isUnit_iff_isUnit_det _).2 (isUnit_iff_ne_zero.2 h2))
  have hd : Continuous fun Λ : Fin n → Fin n → ℝ => (Matrix.of Λ).det := Continuous.matrix_det continuous_id
  rw [e]
  refine MeasurableSet.inter ?_ (hd.measurable (measurableSet_singleton 0).compl)
  have e2 : {Λ : Fin n → Fin n → ℝ | (Matrix.of Λ).PosSemidef} =
      (⋂ i, ⋂ j, {Λ | Λ i j = Λ j i}) ∩ ⋂ x : Fin n → ℝ, {Λ | 0 ≤ x ⬝ᵥ (Matrix.of Λ *ᵥ x)} := by
    ext Λ
    rw [Set.mem_ofPred_eq, Matrix.posSemidef_iff_dotProduct_mulVec]
    simp only [mem_inter_iff, mem_iInter, mem_ofPred_eq]
    refine and_congr ⟨fun h i j => ?_, fun h => ?_⟩ Iff.rfl
    · have := congrFun (congrFun h j) i
      simpa using this
    · ext i j
      simpa using h j i
  rw [e2]
  refine (IsClosed.inter ?_ ?_).measurableSet
  · exact isClosed_iInter fun i => isClosed_iInter fun j => isClosed_eq (by fun_prop) (by fun_prop)
  · refine isClosed_iInter fun x => isClosed_le continuous_const ?_
    simp only [dotProduct, Matrix.mulVec, Matrix.of_apply]
    fun_prop

/-- The Wishart law lives on positive definite matrices. -/
theorem ae_wishart {ν : ℝ} (hν : (n : ℝ) - 1 < ν) {W : Matrix (Fin n) (Fin n) ℝ} (hW : W.PosDef) :
    ∀ᵐ Λ ∂wishart ν W, (Matrix.of Λ).PosDef := by
  rw [wishart, ae_map_iff (measurable_wishartMap _).aemeasurable measurableSet_posDef]
  filter_upwards [ae_bartlett_pos hν] with ω hω
  have hd : (CFC.sqrt W * bartlettMat ω.1 ω.2).det ≠ 0 := by
    rw [Matrix.det_mul, det_bartlettMat]
    exact mul_ne_zero (sqrt_facts hW).2 (Finset.prod_pos fun i _ => Real.sqrt_pos.2 (hω i)).ne'
  have h := Matrix.PosDef.mul_conjTranspose_self (CFC.sqrt W * bartlettMat ω.1 ω.2)
    (Matrix.vecMul_injective_of_isUnit ((Matrix.isUnit_iff_isUnit_det _).2 hd.isUnit))
  simpa using h

/-- `E[|Λ|^(a/2) exp(-½ tr(Λ C))]`. -/
theorem lintegral_wishart {ν a : ℝ} (hν : (n : ℝ) - 1 < ν) (ha : (n : ℝ) - 1 < ν + a) {S C : Matrix (Fin n) (Fin n) ℝ}
    (hS : S.PosDef) (hC : (S + C).PosDef) :
    ∫⁻ Λ, ENNReal.ofReal ((Matrix.of Λ).det ^ (a / 2) * Real.exp (-(1 / 2) * (Matrix.of Λ * C).trace)) ∂wishart ν S⁻¹ =
      ENNReal.ofReal ((∏ i : Fin n, (2 ^ (a / 2) * (Real.Gamma ((ν + a - i) / 2) / Real.Gamma ((ν - i) / 2)))) *
        (S.det ^ (ν / 2) * (S + C).det ^ (-((ν + a) / 2)))) := by
  obtain ⟨L, hL⟩ : ∃ L, L = CFC.sqrt S⁻¹ := ⟨_, rfl⟩
  obtain ⟨hLL, hLd⟩ := sqrt_facts hS.inv
  rw [← hL] at hLL hLd
  have hSd := hS.det_pos
  have hCd := hC.det_pos
  have hLS : Lᵀ * S * L = 1 := by
    have h1 : L * (Lᵀ * S) = 1 := by
      rw [← Matrix.mul_assoc, hLL, Matrix.nonsing_inv_mul _ hSd.ne'.isUnit]
    exact mul_eq_one_comm.1 h1
  have hL2 : L.det ^ 2 = S.det⁻¹ := by
    have := congrArg Matrix.det hLL
    rw [Matrix.det_mul, Matrix.det_transpose, Matrix.det_nonsing_inv, Ring.inverse_eq_inv'] at this
    rw [pow_two, this]
  have hM : 1 + Lᵀ * C * L = Lᵀ * (S + C) * L := by
    rw [Matrix.mul_add, Matrix.add_mul, hLS]
  have hMp : (1 + Lᵀ * C * L).PosDef := by
    rw [hM]
    have := hC.conjTranspose_mul_mul_same (B := L)
      (Matrix.mulVec_injective_of_isUnit ((Matrix.isUnit_iff_isUnit_det _).2 hLd.isUnit))
    simpa using this
  have hMd : (1 + Lᵀ * C * L).det = (S + C).det / S.det := by
    rw [hM, Matrix.det_mul, Matrix.det_mul, Matrix.det_transpose, div_eq_mul_inv, ← hL2]
    ring
  have hd : Continuous fun Λ : Fin n → Fin n → ℝ => (Matrix.of Λ).det := Continuous.matrix_det continuous_id
  have htr : Continuous fun Λ : Fin n → Fin n → ℝ => (Matrix.of Λ * C).trace := by
    simp only [Matrix.trace, Matrix.diag, Matrix.mul_apply, Matrix.of_apply]
    fun_prop
  have hmeas : Measurable fun Λ : Fin n → Fin n → ℝ =>
      ENNReal.ofReal ((Matrix.of Λ).det ^ (a / 2) * Real.exp (-(1 / 2) * (Matrix.of Λ * C).trace)) := by
    have h1 := hd.measurable
    have h2 := htr.measurable
    fun_prop
  rw [wishart, lintegral_map hmeas (measurable_wishartMap _), ← hL]
  have e : ∀ᵐ ω ∂bartlett n ν, ENNReal.ofReal ((Matrix.of
        (Matrix.of.symm ((L * bartlettMat ω.1 ω.2) * (L * bartlettMat ω.1 ω.2)ᵀ))).det ^ (a / 2) *
      Real.exp (-(1 / 2) * (Matrix.of (Matrix.of.symm ((L * bartlettMat ω.1 ω.2) * (L * bartlettMat ω.1 ω.2)ᵀ)) * C).trace)) =
      ENNReal.ofReal (S.det⁻¹ ^ (a / 2)) * ENNReal.ofReal ((∏ i, ω.1 i ^ (a / 2)) *
        Real.exp (-(1 / 2) * ((bartlettMat ω.1 ω.2)ᵀ * (Lᵀ * C * L) * bartlettMat ω.1 ω.2).trace)) := by
    filter_upwards [ae_bartlett_pos hν] with ω hω
    have e1 : (Matrix.of (Matrix.of.symm ((L * bartlettMat ω.1 ω.2) * (L * bartlettMat ω.1 ω.2)ᵀ))).det = S.det⁻¹ * ∏ i, ω.1 i := by
      show ((L * bartlettMat ω.1 ω.2) * (L * bartlettMat ω.1 ω.2)ᵀ).det = _
      rw [Matrix.det_mul, Matrix.det_transpose, Matrix.det_mul, det_bartlettMat, ← hL2]
      have : ∏ i, ω.1 i = (∏ i, √(ω.1 i)) * ∏ i, √(ω.1 i) := by
        rw [← Finset.prod_mul_distrib]
        exact Finset.prod_congr rfl fun i _ => (Real.mul_self_sqrt (hω i).le).symm
      rw [this]; ring
    have e2 : (Matrix.of (Matrix.of.symm ((L * bartlettMat ω.1 ω.2) * (L * bartlettMat ω.1 ω.2)ᵀ)) * C).trace =
        ((bartlettMat ω.1 ω.2)ᵀ * (Lᵀ * C * L) * bartlettMat ω.1 ω.2).trace := by
      show (((L * bartlettMat ω.1 ω.2) * (L * bartlettMat ω.1 ω.2)ᵀ) * C).trace = _
      rw [Matrix.mul_assoc, Matrix.trace_mul_comm, Matrix.transpose_mul]
      simp only [Matrix.mul_assoc]
    rw [e1, e2, Real.mul_rpow (inv_pos.2 hSd).le (Finset.prod_nonneg fun i _ => (hω i).le),
      ← Real.finsetProd_rpow _ _ fun i _ => (hω i).le, mul_assoc,
      ENNReal.ofReal_mul (Real.rpow_nonneg (inv_pos.2 hSd).le _)]
  have e' := lintegral_congr_ae e
  refine e'.trans ?_
  rw [lintegral_const_mul' _ _ ENNReal.ofReal_ne_top, lintegral_bartlett hν ha hMp,
    ← ENNReal.ofReal_mul (Real.rpow_nonneg (inv_pos.2 hSd).le _), hMd, mul_left_comm]
  congr 2
  have e3 : S.det ^ (ν / 2) = S.det⁻¹ ^ (a / 2) / S.det ^ (-((ν + a) / 2)) := by
    rw [Real.inv_rpow hSd.le, ← Real.rpow_neg hSd.le, ← Real.rpow_sub hSd]
    congr 1
    ring
  rw [Real.div_rpow hCd.le hSd.le, e3]
  ring

end Verif
