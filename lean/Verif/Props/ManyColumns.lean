import Verif.Model.ManyColumns
import Verif.Spec.ManyColumns
import Verif.Props.SampleScore

/-!
# C104: several columns against a single feature
-/

set_option autoImplicit false

namespace Verif
open FloatLike XF MeasureTheory Spec
open scoped ENNReal

variable {G : Type} {d : ℕ}

theorem pois_many_data (hd : d ≠ 0) (l : List (Fin d → ℕ)) (hl : l ≠ []) :
    ∃ X', checkArray (countsX l) = .ok X' ∧ (poisMany (α := XF) (G := G) d).rows 1 X' = .ok (l.map Poisson.row) := by
  obtain ⟨X', h1, h2⟩ := pois_data hd l hl
  have h3 : checkArray (countsX l) = _ := checkArray_ints_of _ (by simpa using hl) hd
  rw [h1] at h3
  cases h3
  exact ⟨_, h1, (if_pos rfl).trans h2⟩

theorem gauss_many_data (hd : d ≠ 0) (l : List (Fin d → ℝ)) (hl : l ≠ []) :
    ∃ X', checkArray (realsX l) = .ok X' ∧
      (if X'.d = d then gaussRows d X' else .error .notImplemented) = .ok (l.map Gaussian.row) := by
  obtain ⟨X', h1, h2⟩ := reals_data hd l hl
  have h3 : checkArray (realsX l) = _ := checkArray_reals_of _ (by simpa using hl) hd
  rw [h1] at h3
  cases h3
  exact ⟨_, h1, (if_pos rfl).trans h2⟩

/-- **C104** `PoissonHMM` with one rate per state takes the columns for independent counts with that rate. -/
theorem C104_poisson (hd : d ≠ 0) (e : Est XF G (PoisAttrs XF)) (π : Fin e.nComponents → ℝ)
    (A : Fin e.nComponents → Fin e.nComponents → ℝ) (l : Fin e.nComponents → ℝ)
    (h : HoldsPois (nf := 1) e π A fun i _ => l i) : Answers (poisMany d) e (countsX (nf := d)) π A (iidPoisson l) := by
  haveI : NeZero e.nComponents := ⟨nc_pos h.chain.π_sum⟩
  have hc : (poisMany d).checkSub e = (.ok (), { e with nFeatures := some 1, sub := { e.sub with lambdas := some (mat fun i (_ : Fin 1) => l i) } }) := by
    have hn : e.nFeatures.getD 1 = 1 := by
      cases hn : e.nFeatures with
      | none => rfl
      | some n => exact h.features n hn
    have hsh : (mat fun (i : Fin e.nComponents) (_ : Fin 1) => l i).shape = [e.nComponents, 1] := rfl
    have ha : atleast2d (mat fun (i : Fin e.nComponents) (_ : Fin 1) => l i) = mat fun i _ => l i := rfl
    simp [poisMany, poisSub, poisCheck, h.lambdas, ha, hsh, hn]
  let F := Poisson.family (nc := e.nComponents) (nf := d) (fun _ _ => 0) (fun _ _ => 0) (by simp) (by simp) []
  let q : Poisson.Rates e.nComponents d := ⟨fun i _ => l i, fun i _ => h.nonneg i 0⟩
  refine answers_of h.chain (S := poisMany d) hc (θ := fun i _ => fin (l i)) (asMat_mat fun i _ => l i) Poisson.row (fun impl => ?_)
    (pois_many_data hd)
  exact { startprob_eq := rfl, transmat_eq := rfl, π_nonneg := h.chain.π_nonneg, A_nonneg := h.chain.A_nonneg
          b_nonneg := F.b_nonneg q, lik_eq := F.lik_eq q, loglik_eq := F.loglik_eq q }

theorem onceNormalised_pos {nc : ℕ} {m v : Fin nc → ℝ} (hv : ∀ i, 0 < v i) (x : Fin d → ℝ) (i : Fin nc) :
    0 < onceNormalised m v x i := by
  have := Real.pi_pos
  have := hv i
  unfold onceNormalised
  positivity

theorem logDensityMany_fin {nc : ℕ} {m v : Fin nc → ℝ} (hv : ∀ i, tinyVar ≤ v i) (x : Fin d → ℝ) (i : Fin nc) :
    Gaussian.logDensityMany (fin (m i)) (fin (v i)) (fun k => fin (x k)) = lg (onceNormalised m v x i) := by
  have hp : ∀ i, 0 < v i := fun i => tinyVar_pos.trans_le (hv i)
  have hpi := Real.pi_pos
  have hpv := hp i
  unfold Gaussian.logDensityMany
  simp only [Gaussian.tiny_eq, npMaximum_fin, Gaussian.logTwoPi_fin, Gaussian.half_eq, fin_sub, Gaussian.sq_fin, max_eq_left (hv i)]
  have e1 : FloatLike.log (fin (v i)) = fin (Real.log (v i)) := by rw [lg_def]; exact lg_pos hpv
  have e2 : ∀ k, (fin ((x k - m i) ^ 2) / fin (v i) : XF) = fin ((x k - m i) ^ 2 / v i) := fun k => fin_div _ _ hpv.ne'
  simp only [e1, e2, sumF_fin, fin_add, fin_mul]
  rw [lg_pos (onceNormalised_pos hp x i)]
  congr 1
  unfold onceNormalised
  rw [Real.log_div (Real.exp_pos _).ne' (Real.sqrt_pos.2 (by positivity)).ne', Real.log_exp, Real.log_sqrt (by positivity),
    Real.log_mul (by positivity) hpv.ne', ← Finset.sum_div]
  simp only [Finset.univ_unique, Finset.sum_const, Finset.card_singleton, one_smul, Nat.cast_one]
  field_simp
  ring

section gaussian
variable {eig : Eigvalsh XF} (e : Est XF G (GaussAttrs XF)) (π : Fin e.nComponents → ℝ)
  (A : Fin e.nComponents → Fin e.nComponents → ℝ) (m : Fin e.nComponents → ℝ)

theorem many_represents {impl : Impl} {nc : ℕ} [NeZero nc] {π : Fin nc → ℝ} {A : Fin nc → Fin nc → ℝ} {m v : Fin nc → ℝ}
    (hπ : ∀ i, 0 ≤ π i) (hA : ∀ i j, 0 ≤ A i j) (hv : ∀ i, tinyVar ≤ v i) :
    Represents ((Gaussian.manyEmission d).toHmm impl ⟨fun i => fin (π i), fun i j => fin (A i j),
      (⟨fun i _ => fin (m i), fun i _ => fin (v i)⟩ : Gaussian.DiagParams XF nc 1)⟩) Gaussian.row π A (onceNormalised m v) := by
  have hp : ∀ i, 0 < v i := fun i => tinyVar_pos.trans_le (hv i)
  have hl : ∀ X : List (Fin d → ℝ), Gaussian.manyLoglik (⟨fun i _ => fin (m i), fun i _ => fin (v i)⟩ : Gaussian.DiagParams XF nc 1)
      (X.map Gaussian.row) = .ok (X.map fun o i => lg (onceNormalised m v o i)) := by
    intro X
    unfold Gaussian.manyLoglik
    rw [dif_pos rfl, List.map_map]
    refine congrArg Except.ok (List.map_congr_left fun x _ => ?_)
    funext i
    simp only [Function.comp, memo_eq]
    exact logDensityMany_fin hv x i
  exact {
    startprob_eq := rfl, transmat_eq := rfl, π_nonneg := hπ, A_nonneg := hA
    b_nonneg := fun x i => (onceNormalised_pos hp x i).le
    lik_eq := fun X => by
      refine (congrArg (fun r => Except.map Gaussian.expRows r) (hl X)).trans (congrArg Except.ok ?_)
      exact Gaussian.expRows_log _ (fun o i => (onceNormalised_pos hp o i).le) X
    loglik_eq := fun X => hl X }

/-- **C104** `GaussianHMM(covariance_type="diag")` with one feature. -/
theorem C104_gaussian_diag (hd : d ≠ 0) (v : Fin e.nComponents → ℝ) (hv : ∀ i, tinyVar ≤ v i)
    (h : HoldsGauss (nf := 1) e π A (fun i _ => m i) (mat fun i (_ : Fin 1) => v i)) :
    Answers (gaussDiagMany d eig) e (realsX (nf := d)) π A (onceNormalised m v) := by
  haveI : NeZero e.nComponents := ⟨nc_pos h.chain.π_sum⟩
  refine answers_of h.chain (S := gaussDiagMany d eig) h.check (θ := ⟨fun i _ => fin (m i), fun i _ => fin (v i)⟩) ?_ Gaussian.row
    (fun impl => many_represents h.chain.π_nonneg h.chain.A_nonneg hv) (gauss_many_data hd)
  simp only [gaussDiagMany, gaussDiagSub, h.means, h.covars, Option.bind_eq_bind, Option.bind_some, asMat_mat]
  rfl

/-- **C104** `GaussianHMM(covariance_type="spherical")` with one feature. -/
theorem C104_gaussian_spherical (hd : d ≠ 0) (v : Fin e.nComponents → ℝ) (hv : ∀ i, tinyVar ≤ v i)
    (h : HoldsGauss (nf := 1) e π A (fun i _ => m i) (vec v)) :
    Answers (gaussSphericalMany d eig) e (realsX (nf := d)) π A (onceNormalised m v) := by
  haveI : NeZero e.nComponents := ⟨nc_pos h.chain.π_sum⟩
  refine answers_of h.chain (S := gaussSphericalMany d eig) h.check (θ := ⟨fun i _ => fin (m i), fun i _ => fin (v i)⟩) ?_ Gaussian.row
    (fun impl => many_represents h.chain.π_nonneg h.chain.A_nonneg hv) (gauss_many_data hd)
  have : asSpherical e.nComponents 1 (vec v) = some fun i _ => fin (v i) := by simp [asSpherical, asMat, asRow, vec]
  simp only [gaussSphericalMany, gaussSphericalSub, h.means, h.covars, Option.bind_eq_bind, Option.bind_some, asMat_mat, this]
  rfl

end gaussian

/-- **C104** The weight is the density of independent columns times `√(2πv)` for every column but one. -/
theorem C104_excess {nc : ℕ} {m v : Fin nc → ℝ} (hv : ∀ i, 0 < v i) (x : Fin (d + 1) → ℝ) (i : Fin nc) :
    onceNormalised m v x i = (∏ k, normalPdf (m i) (v i) (x k)) * Real.sqrt (2 * Real.pi * v i) ^ d := by
  have hpi := Real.pi_pos
  have := hv i
  have hs : 0 < Real.sqrt (2 * Real.pi * v i) := Real.sqrt_pos.2 (by positivity)
  unfold onceNormalised normalPdf
  rw [Finset.prod_div_distrib, ← Real.exp_sum, Finset.prod_const, Finset.card_univ, Fintype.card_fin, ← Finset.sum_div,
    Finset.sum_neg_distrib, pow_succ]
  field_simp

/-- **C104** Its integral. -/
theorem C104_mass {nc : ℕ} {m v : Fin nc → ℝ} (hv : ∀ i, 0 < v i) (i : Fin nc) :
    ∫⁻ x : Fin (d + 1) → ℝ, ENNReal.ofReal (onceNormalised m v x i) = ENNReal.ofReal (Real.sqrt (2 * Real.pi * v i) ^ d) := by
  have h1 := diagonal_density (fun _ : Fin (d + 1) => m i) (fun _ => hv i)
  have h2 : ∫⁻ x : Fin (d + 1) → ℝ, ENNReal.ofReal (∏ k, normalPdf (m i) (v i) (x k)) = 1 := by
    have : mvnLaw (fun _ : Fin (d + 1) => m i) (Matrix.diagonal fun _ => v i) Set.univ = 1 := measure_univ
    rw [h1, withDensity_apply _ MeasurableSet.univ, setLIntegral_univ] at this
    exact this
  simp only [C104_excess hv]
  simp only [ENNReal.ofReal_mul' (pow_nonneg (Real.sqrt_nonneg (2 * Real.pi * v i)) d)]
  rw [lintegral_mul_const _ (measurable_normalPdfs _ _).ennreal_ofReal, h2, one_mul]

/-- **C104** `score` of one sample is not the logarithm of a density: `exp(score)` integrates to a mean of powers
of `√(2πv)`. -/
theorem C104_not_normalised {eig : Eigvalsh XF} (e : Est XF G (GaussAttrs XF)) (π : Fin e.nComponents → ℝ)
    (A : Fin e.nComponents → Fin e.nComponents → ℝ) (m v : Fin e.nComponents → ℝ) (hv : ∀ i, tinyVar ≤ v i)
    (h : HoldsGauss (nf := 1) e π A (fun i _ => m i) (mat fun i (_ : Fin 1) => v i)) (hi : e.implementation = "log") :
    ∃ f : (Fin (d + 1) → ℝ) → ℝ, (∀ x, 0 ≤ f x) ∧
      (∀ x, ((gaussDiagMany (d + 1) eig).score (realsX [x]) none e).1 = .ok (xlog (f x))) ∧
      ∫⁻ x, ENNReal.ofReal (f x) = ENNReal.ofReal (∑ i, π i * Real.sqrt (2 * Real.pi * v i) ^ d) := by
  have hp : ∀ i, 0 < v i := fun i => tinyVar_pos.trans_le (hv i)
  have hn : ∀ (x : Fin (d + 1) → ℝ) i, 0 ≤ π i * onceNormalised m v x i := fun x i =>
    mul_nonneg (h.chain.π_nonneg i) (onceNormalised_pos hp x i).le
  refine ⟨fun x => ∑ i, π i * onceNormalised m v x i, fun x => Finset.sum_nonneg fun i _ => hn x i, fun x => ?_, ?_⟩
  · have := (C104_gaussian_diag (eig := eig) e π A m (Nat.succ_ne_zero d) v hv h).score hi [⟨0, fun _ => x⟩] none (by simp)
      (Or.inr ⟨⟨_, rfl⟩, rfl⟩)
    simp only [samples, dataLikelihood, List.map_cons, List.map_nil, List.flatten_cons, List.flatten_nil, List.append_nil,
      List.prod_cons, List.prod_nil, mul_one] at this
    refine Eq.trans ?_ (this.trans ?_)
    · rfl
    · congr 2
      exact likelihood_one _ _ _
  · simp only [ENNReal.ofReal_sum_of_nonneg fun i _ => hn _ i]
    have hm : ∀ i, Measurable fun x : Fin (d + 1) → ℝ => ENNReal.ofReal (π i * onceNormalised m v x i) := by
      intro i
      unfold onceNormalised
      fun_prop
    rw [lintegral_finsetSum _ fun i _ => hm i, ENNReal.ofReal_sum_of_nonneg fun i _ => mul_nonneg (h.chain.π_nonneg i) (pow_nonneg (Real.sqrt_nonneg _) _)]
    refine Finset.sum_congr rfl fun i _ => ?_
    simp only [ENNReal.ofReal_mul (h.chain.π_nonneg i)]
    rw [lintegral_const_mul, C104_mass hp]
    unfold onceNormalised
    fun_prop

end Verif
