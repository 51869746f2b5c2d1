import Verif.Spec.VGaussLaw
import Verif.Proofs.WishartLaw
import Verif.Proofs.GaussEvidence
import Verif.Proofs.VGaussianKinds
import Verif.Props.VGaussian

/-!
# C89: what the numbers of the Gaussian variational posterior stand for
-/

set_option autoImplicit false

namespace Verif
open Spec XF MeasureTheory ProbabilityTheory InformationTheory Gaussian
open scoped Matrix ENNReal

variable {nc nf : ℕ}

namespace VGaussian

/-- The normal density in terms of the precision matrix. -/
theorem log_mvnPdf_precision {Λ : Matrix (Fin nf) (Fin nf) ℝ} (hΛ : Λ.PosDef) (μ x : Fin nf → ℝ) :
    Real.log (mvnPdf μ Λ⁻¹ x) = -(nf / 2 * Real.log (2 * Real.pi)) + 1 / 2 * Real.log Λ.det -
      1 / 2 * ((μ - x) ⬝ᵥ (Λ *ᵥ (μ - x))) := by
  have hpi : 0 < (2 * Real.pi) ^ nf := pow_pos (by positivity) _
  have hd : 0 < (Λ⁻¹).det := det_pos hΛ.inv
  have hs : 0 < Real.sqrt ((2 * Real.pi) ^ nf * (Λ⁻¹).det) := Real.sqrt_pos.2 (mul_pos hpi hd)
  rw [mvnPdf, Real.log_div (Real.exp_pos _).ne' hs.ne', Real.log_exp, Real.log_sqrt (mul_pos hpi hd).le,
    Real.log_mul hpi.ne' hd.ne', Real.log_pow, Matrix.det_nonsing_inv, Ring.inverse_eq_inv', Real.log_inv, mahalanobis,
    Matrix.nonsing_inv_nonsing_inv _ (det_pos hΛ).ne'.isUnit]
  have : (x - μ) ⬝ᵥ (Λ *ᵥ (x - μ)) = (μ - x) ⬝ᵥ (Λ *ᵥ (μ - x)) := by
    rw [show x - μ = -(μ - x) by abel, Matrix.mulVec_neg, neg_dotProduct_neg]
  rw [this]
  ring

/-- The quadratic form, averaged over the mean. -/
theorem quad_mean (p : NW nf) (hp : p.Proper) {Λ : Fin nf → Fin nf → ℝ} (hΛ : (Matrix.of Λ).PosDef) (x : Fin nf → ℝ) :
    Integrable (fun μ : Fin nf → ℝ => (μ - x) ⬝ᵥ (Matrix.of Λ *ᵥ (μ - x))) (p.meanLaw Λ) ∧
    ∫ μ, (μ - x) ⬝ᵥ (Matrix.of Λ *ᵥ (μ - x)) ∂p.meanLaw Λ =
      nf / p.β + (Matrix.of Λ * Matrix.vecMulVec (p.m - x) (p.m - x)).trace := by
  have hS : ((p.β • Matrix.of Λ)⁻¹).PosDef := (hΛ.smul hp.β).inv
  have h := quad_mvnLaw p.m hS.posSemidef x (Matrix.of Λ)
  refine ⟨h.1, h.2.trans ?_⟩
  have ht : (Matrix.of Λ * (p.β • Matrix.of Λ)⁻¹).trace = nf / p.β := by
    have : IsUnit (Matrix.of Λ).det := (det_pos hΛ).ne'.isUnit
    have e : (p.β • Matrix.of Λ)⁻¹ = p.β⁻¹ • (Matrix.of Λ)⁻¹ := by
      refine Matrix.inv_eq_right_inv ?_
      rw [Matrix.smul_mul, Matrix.mul_smul, Matrix.mul_nonsing_inv _ this, smul_smul, mul_inv_cancel₀ hp.β.ne', one_smul]
    rw [e, Matrix.mul_smul, Matrix.mul_nonsing_inv _ this, Matrix.trace_smul, Matrix.trace_one, Fintype.card_fin, smul_eq_mul]
    field_simp
  rw [ht, trace_outer]

end VGaussian

open VGaussian

instance (p : NW nf) (Λ : Fin nf → Fin nf → ℝ) : IsProbabilityMeasure (p.meanLaw Λ) :=
  Measure.isProbabilityMeasure_map (by fun_prop)

/-- **C89** `log weight` is the average of the log density, without its constant. -/
theorem C89_weight {p : NW nf} (hp : p.Proper) (x : Fin nf → ℝ) :
    p.Avg (fun Λ μ => Real.log (mvnPdf μ (Matrix.of Λ)⁻¹ x))
      (Real.log (p.weight x) - nf / 2 * Real.log (2 * Real.pi)) := by
  have hl := mean_logdet hp.ν hp.S
  have ht := mean_trace' hp.ν hp.S (Matrix.vecMulVec (p.m - x) (p.m - x))
  have hpos : ∀ᵐ Λ ∂p.precisionLaw, (Matrix.of Λ).PosDef := ae_wishart hp.ν hp.S.inv
  have := isProbabilityMeasure_wishart hp.ν p.S⁻¹
  have hin : ∀ Λ : Fin nf → Fin nf → ℝ, (Matrix.of Λ).PosDef →
      Integrable (fun μ => Real.log (mvnPdf μ (Matrix.of Λ)⁻¹ x)) (p.meanLaw Λ) ∧
      ∫ μ, Real.log (mvnPdf μ (Matrix.of Λ)⁻¹ x) ∂p.meanLaw Λ =
        (-(nf / 2 * Real.log (2 * Real.pi)) - nf / (2 * p.β)) + (1 / 2 * Real.log (Matrix.of Λ).det -
          1 / 2 * (Matrix.of Λ * Matrix.vecMulVec (p.m - x) (p.m - x)).trace) := by
    intro Λ hΛ
    obtain ⟨q1, q2⟩ := quad_mean p hp hΛ x
    simp only [fun μ => log_mvnPdf_precision hΛ μ x]
    refine ⟨(integrable_const _).sub (q1.const_mul _), ?_⟩
    rw [integral_sub (integrable_const _) (q1.const_mul _), integral_const_mul, q2]
    simp only [integral_const, probReal_univ, one_smul]
    have := hp.β.ne'
    field_simp
    ring
  refine ⟨hpos.mono fun Λ hΛ => (hin Λ hΛ).1, ?_⟩
  have e : (fun Λ => ∫ μ, Real.log (mvnPdf μ (Matrix.of Λ)⁻¹ x) ∂p.meanLaw Λ) =ᵐ[p.precisionLaw] fun Λ =>
      (-(nf / 2 * Real.log (2 * Real.pi)) - nf / (2 * p.β)) + (1 / 2 * Real.log (Matrix.of Λ).det -
          1 / 2 * (Matrix.of Λ * Matrix.vecMulVec (p.m - x) (p.m - x)).trace) :=
    hpos.mono fun Λ hΛ => (hin Λ hΛ).2
  have i1 := hl.1.const_mul (1 / 2)
  have i2 := ht.1.const_mul (1 / 2)
  have i := (integrable_const (μ := wishart p.ν p.S⁻¹) (-(nf / 2 * Real.log (2 * Real.pi)) - nf / (2 * p.β))).add (i1.sub i2)
  refine ⟨Integrable.congr i e.symm, ?_⟩
  rw [integral_congr_ae e, NW.precisionLaw, integral_add (integrable_const _) (by exact i1.sub i2), integral_sub i1 i2,
    integral_const_mul, integral_const_mul, hl.2, ht.2, trace_outer, NW.weight, Real.log_exp]
  have hq : (p.m - x) ⬝ᵥ (p.S⁻¹ *ᵥ (p.m - x)) = (x - p.m) ⬝ᵥ (p.S⁻¹ *ᵥ (x - p.m)) := by
    rw [show p.m - x = -(x - p.m) by abel, Matrix.mulVec_neg, neg_dotProduct_neg]
  rw [hq]
  simp only [integral_const, probReal_univ, one_smul]
  have := hp.β.ne'
  field_simp
  ring

/-- **C89** `means_` is the average of the mean. -/
theorem C89_mean {p : NW nf} (hp : p.Proper) (k : Fin nf) : p.Avg (fun _ μ => μ k) (p.m k) := by
  have := isProbabilityMeasure_wishart hp.ν p.S⁻¹
  have hin : ∀ Λ, Integrable (fun μ : Fin nf → ℝ => μ k) (p.meanLaw Λ) := fun Λ => by
    have := (memLp_mvnLaw (S := (p.β • Matrix.of Λ)⁻¹) p.m 0 k).integrable (by norm_num)
    simpa [mvnLaw, NW.meanLaw] using this
  have e : ∀ Λ, ∫ μ, μ k ∂p.meanLaw Λ = p.m k := fun Λ => integral_mvnLaw p.m k
  refine ⟨Filter.Eventually.of_forall hin, ?_, ?_⟩
  · simp only [e]; exact integrable_const (μ := wishart p.ν p.S⁻¹) _
  · simp only [e, NW.precisionLaw]
    simp

/-- **C89** `covars_` is the inverse of the average precision matrix. -/
theorem C89_covar {p : NW nf} (hp : p.Proper) :
    (∀ k l, p.AvgPrecision (fun Λ => Λ k l) (p.covar⁻¹ k l)) ∧ IsUnit p.covar.det := by
  rcases Nat.eq_zero_or_pos nf with h | h
  · subst h
    exact ⟨fun k => k.elim0, by simp⟩
  have hn : (1 : ℝ) ≤ nf := by exact_mod_cast h
  have hν : 0 < p.ν := by linarith [hp.ν]
  have hd : IsUnit p.S.det := (det_pos hp.S).ne'.isUnit
  have e : p.covar⁻¹ = p.ν • p.S⁻¹ := by
    refine Matrix.inv_eq_right_inv ?_
    rw [NW.covar, Matrix.smul_mul, Matrix.mul_smul, Matrix.mul_nonsing_inv _ hd, smul_smul, inv_mul_cancel₀ hν.ne', one_smul]
  refine ⟨fun k l => ?_, ?_⟩
  · rw [e, Matrix.smul_apply, smul_eq_mul]
    exact ⟨(mean_wishart hp.ν hp.S k l).1, (mean_wishart hp.ν hp.S k l).2⟩
  · rw [NW.covar]
    exact (det_pos (hp.S.smul (inv_pos.2 hν))).ne'.isUnit

/-- **C89** The divergence of the laws of the mean, which the code takes at the average precision matrix, is the average
of the divergences. -/
theorem C89_klMean {p p₀ : NW nf} (hp : p.Proper) (h₀ : p₀.Proper) :
    p.AvgPrecision (fun Λ => (klDiv (p.meanLaw Λ) (p₀.meanLaw Λ)).toReal) (p.klMean p₀) := by
  have ht := mean_trace' hp.ν hp.S (Matrix.vecMulVec (p.m - p₀.m) (p.m - p₀.m))
  have hpos : ∀ᵐ Λ ∂p.precisionLaw, (Matrix.of Λ).PosDef := ae_wishart hp.ν hp.S.inv
  have := isProbabilityMeasure_wishart hp.ν p.S⁻¹
  have e : (fun Λ => (klDiv (p.meanLaw Λ) (p₀.meanLaw Λ)).toReal) =ᵐ[p.precisionLaw] fun Λ =>
      1 / 2 * (nf * Real.log (p.β / p₀.β) + nf * (p₀.β / p.β) - nf) +
        p₀.β / 2 * (Matrix.of Λ * Matrix.vecMulVec (p.m - p₀.m) (p.m - p₀.m)).trace := by
    filter_upwards [hpos] with Λ hΛ
    have s1 : ((p.β • Matrix.of Λ)⁻¹).PosDef := (hΛ.smul hp.β).inv
    have s2 : ((p₀.β • Matrix.of Λ)⁻¹).PosDef := (hΛ.smul h₀.β).inv
    have hu : IsUnit (Matrix.of Λ).det := (det_pos hΛ).ne'.isUnit
    have ei : ∀ b : ℝ, b ≠ 0 → (b • Matrix.of Λ)⁻¹ = b⁻¹ • (Matrix.of Λ)⁻¹ := fun b hb => by
      refine Matrix.inv_eq_right_inv ?_
      rw [Matrix.smul_mul, Matrix.mul_smul, Matrix.mul_nonsing_inv _ hu, smul_smul, mul_inv_cancel₀ hb, one_smul]
    have hk : klDiv (p.meanLaw Λ) (p₀.meanLaw Λ) = _ := klDiv_mvn p.m p₀.m s1 s2
    rw [hk, ENNReal.toReal_ofReal (klMvn_nonneg s1 s2), klMvn, Real.log_div (det_pos s2).ne' (det_pos s1).ne',
      log_det_inv_smul hp.β hΛ, log_det_inv_smul h₀.β hΛ, Matrix.nonsing_inv_nonsing_inv _ (det_pos (hΛ.smul h₀.β)).ne'.isUnit,
      ei _ hp.β.ne', Matrix.smul_mul, Matrix.mul_smul, Matrix.mul_nonsing_inv _ hu, Matrix.trace_smul, Matrix.trace_smul,
      Matrix.trace_one, Fintype.card_fin, trace_outer, Matrix.smul_mulVec, dotProduct_smul, Real.log_div hp.β.ne' h₀.β.ne']
    simp only [smul_eq_mul]
    have := hp.β.ne'
    field_simp
    ring
  have i2 := ht.1.const_mul (p₀.β / 2)
  refine ⟨Integrable.congr ((integrable_const (μ := wishart p.ν p.S⁻¹) _).add i2) e.symm, ?_⟩
  rw [integral_congr_ae e, NW.precisionLaw, integral_add (integrable_const _) i2, integral_const_mul (p₀.β / 2), ht.2, trace_outer,
    NW.klMean]
  simp only [integral_const, probReal_univ, one_smul]
  ring

/-! ## The program computes these averages -/

/-- The attributes of an estimator whose posterior laws are `p`. -/
noncomputable def lawParams {Dof Sc : Type} (dof : (Fin nc → ℝ) → Dof) (scale : (Fin nc → Matrix (Fin nf) (Fin nf) ℝ) → Sc)
    (p : Fin nc → NW nf) (cov : Option Sc) : VGaussian.Params XF nc nf Dof Sc where
  beta i := fin (p i).β
  means i k := fin ((p i).m k)
  dof := dof fun i => (p i).ν
  scale := scale fun i => (p i).S
  covars := cov

/-- **C89** The log-weights of the E-step are averages of log densities, and the emission term of the lower bound is
the divergence of the posterior from the prior. -/
def ComputesAverages [NeZero nc] {Dof Sc St : Type} (K : VGaussian.Kind XF nc nf Dof Sc St) (ty : CovType)
    (dof : (Fin nc → ℝ) → Dof) (scale : (Fin nc → Matrix (Fin nf) (Fin nf) ℝ) → Sc) : Prop :=
  ∀ {sci : Sci XF}, sci.Exact → ∀ {p p₀ : Fin nc → NW nf}, (∀ i, (p i).Proper) → Allowed ty p → (∀ i, (p₀ i).Proper) →
    Allowed ty p₀ → ∀ cov : Option (Fin nc → Matrix (Fin nf) (Fin nf) ℝ),
  (∃ v : (Fin nf → ℝ) → Fin nc → ℝ,
    (∀ x i, (p i).Avg (fun Λ μ => Real.log (mvnPdf μ (Matrix.of Λ)⁻¹ x)) (v x i)) ∧
    ∀ X : List (Fin nf → ℝ), VGaussian.loglik K sci (lawParams dof scale p (cov.map scale)) (X.map Gaussian.row) =
      .ok (X.map fun x i => fin (v x i + nf / 2 * Real.log (2 * Real.pi)))) ∧
  ∃ a w : Fin nc → ℝ,
    (∀ i, (p i).AvgPrecision (fun Λ => (klDiv ((p i).meanLaw Λ) ((p₀ i).meanLaw Λ)).toReal) (a i)) ∧
    (∀ i, 0 ≤ w i ∧ klDiv (p i).precisionLaw (p₀ i).precisionLaw = ENNReal.ofReal (w i)) ∧
    VGaussian.bound K sci (VGaussian.priorOf dof scale p₀) (lawParams dof scale p (cov.map scale)) =
      .ok (fin (-(∑ i, a i + if ty = .tied then w 0 else ∑ i, w i)))

namespace VGaussian
variable [NeZero nc] {Dof Sc St : Type} {K : Kind XF nc nf Dof Sc St} {ty : CovType}

theorem computesAverages [NeZero nf] (H : Holds K ty) : ComputesAverages K ty H.toDof H.toSc := by
  intro sci hsci p p₀ hp hA h₀ hA₀ cov
  have hn : (1 : ℝ) ≤ nf := by exact_mod_cast NeZero.one_le
  let q : R ty nc nf := ⟨p, cov, hp, hA⟩
  refine ⟨⟨fun x i => Real.log ((p i).weight x) - nf / 2 * Real.log (2 * Real.pi), fun x i => C89_weight (hp i) x, fun X => ?_⟩,
    fun i => (p i).klMean (p₀ i), fun i => klWishart (p i).ν (p i).S (p₀ i).ν (p₀ i).S, fun i => C89_klMean (hp i) (h₀ i),
    fun i => ⟨?_, klDiv_wishart (hp i).ν (h₀ i).ν (hp i).S (h₀ i).S⟩, ?_⟩
  · have h := loglik_fin H hsci q X
    refine h.trans (congrArg Except.ok (List.map_congr_left fun x _ => funext fun i => ?_))
    rw [sub_add_cancel]
    exact lg_pos (weight_pos _ _)
  · exact klWishart_nonneg (hp i).S (h₀ i).S (hp i).ν (h₀ i).ν (by linarith [(hp i).ν]) (by linarith [(h₀ i).ν])
  · exact bound_fin H hsci h₀ hA₀ q

end VGaussian

variable [NeZero nc] [NeZero nf]

/-- **C89** `full`. -/
theorem C89_full : ComputesAverages (nc := nc) (nf := nf) VGaussian.full .full (fun ν i => fin (ν i))
    fun S i k l => fin (S i k l) := VGaussian.computesAverages VGaussian.holdsFull

/-- **C89** `tied`. -/
theorem C89_tied : ComputesAverages (nc := nc) (nf := nf) VGaussian.tied .tied (fun ν => fin (ν 0))
    fun S k l => fin (S 0 k l) := VGaussian.computesAverages VGaussian.holdsTied

/-- **C89** `diag`. -/
theorem C89_diag : ComputesAverages (nc := nc) (nf := nf) VGaussian.diag .diag (fun ν i => fin (ν i))
    fun S i k => fin (S i k k) := VGaussian.computesAverages VGaussian.holdsDiag

/-- **C89** `spherical`. -/
theorem C89_spherical : ComputesAverages (nc := nc) (nf := nf) VGaussian.spherical .spherical (fun ν i => fin (ν i))
    fun S i => fin (S i 0 0) := VGaussian.computesAverages VGaussian.holdsSpherical

/-- The hypotheses are met: one state and one feature, `β = ν = S = 1`; the average of the precision is `1`. -/
example : (⟨1, 0, 1, 1⟩ : NW 1).Proper ∧ (⟨1, 0, 1, 1⟩ : NW 1).AvgPrecision (fun Λ => Λ 0 0) 1 := by
  have hp : (⟨1, 0, 1, 1⟩ : NW 1).Proper := ⟨one_pos, by norm_num, Matrix.PosDef.one⟩
  refine ⟨hp, ?_⟩
  have := (C89_covar hp).1 0 0
  simpa [NW.covar] using this

end Verif
