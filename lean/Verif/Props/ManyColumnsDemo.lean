import Verif.Props.ManyColumns
import Verif.Props.ObjectsDemo

/-!
# Objects that meet the hypotheses of C104
-/

set_option autoImplicit false

namespace Verif.ManyColumnsDemo
open FloatLike XF Spec ObjectsDemo

/-- `PoissonHMM` with one rate per state. -/
noncomputable def pois1 : Est XF ℕ (PoisAttrs XF) :=
  est { lambdasPrior := fun _ _ => 0, lambdasWeight := fun _ _ => 0, lambdas := some (mat fun i (_ : Fin 1) => ![1, 2] i) }

theorem pois1_holds : HoldsPois (nf := 1) pois1 π A fun i _ => ![1, 2] i where
  chain := chain _
  features := features _ 1
  lambdas := rfl
  nonneg i _ := by
    change Fin 2 at i
    fin_cases i <;> norm_num

/-- The pair `(3, 0)` is scored as two independent counts. -/
example : ((poisMany 2).score (countsX [![3, 0]]) none pois1).1 =
    .ok (xlog (∑ i, π i * (poissonPmf (![1, 2] i) 3 * poissonPmf (![1, 2] i) 0))) := by
  have h := (C104_poisson (d := 2) two_ne_zero pois1 π A _ pois1_holds).score rfl [⟨0, fun _ => ![3, 0]⟩] none (by simp)
    (Or.inr ⟨⟨_, rfl⟩, rfl⟩)
  refine h.trans ?_
  congr 2
  simp only [dataLikelihood, List.map_cons, List.map_nil, List.prod_cons, List.prod_nil, mul_one]
  refine (likelihood_one _ _ _).trans (Finset.sum_congr rfl fun i _ => ?_)
  congr 1
  exact Fin.prod_univ_two fun k : Fin 2 => poissonPmf ((![1, 2] : Fin 2 → ℝ) i) (![3, 0] k)

/-- `GaussianHMM` with one feature. -/
noncomputable def gauss1 (c : NdArray XF) : Est XF ℕ (GaussAttrs XF) :=
  est { minCovar := 0, meansPrior := fun _ _ => 0, meansWeight := 0, covarsPrior := fun _ _ _ => 0, covarsWeight := 1,
        means := some (mat fun i (_ : Fin 1) => ![0, 5] i), covars := some c }

theorem gauss1_holds (c : NdArray XF) : HoldsGauss (nf := 1) (gauss1 c) π A (fun i _ => ![0, 5] i) c :=
  ⟨chain _, rfl, rfl⟩

/-- Variances 1 and 4. -/
theorem vars_ge (i : Fin 2) : tinyVar ≤ (![1, 4] : Fin 2 → ℝ) i := by
  have : tinyVar ≤ 1 := by
    rw [tinyVar, one_div]
    exact inv_le_one_of_one_le₀ (one_le_pow₀ (by norm_num))
  fin_cases i
  · exact this
  · exact this.trans (by norm_num)

example : Answers (gaussSphericalMany 3 fun _ _ _ => 0) (gauss1 (vec ![1, 4])) (realsX (nf := 3)) π A (onceNormalised ![0, 5] ![1, 4]) :=
  C104_gaussian_spherical _ _ _ _ three_ne_zero _ vars_ge (gauss1_holds _)

/-- With two columns `exp(score)` of a single sample integrates to `(3/4)·√(2π) + (1/4)·√(8π)` instead of one. -/
example : ∃ f : (Fin 2 → ℝ) → ℝ, (∀ x, 0 ≤ f x) ∧
    (∀ x, ((gaussDiagMany 2 fun _ _ _ => 0).score (realsX [x]) none (gauss1 (mat fun i (_ : Fin 1) => ![1, 4] i))).1 = .ok (xlog (f x))) ∧
    ∫⁻ x, ENNReal.ofReal (f x) = ENNReal.ofReal (3 / 4 * Real.sqrt (2 * Real.pi * 1) + 1 / 4 * Real.sqrt (2 * Real.pi * 4)) := by
  obtain ⟨f, h0, h1, h2⟩ := C104_not_normalised (d := 1) (eig := fun _ _ _ => 0) (gauss1 (mat fun i (_ : Fin 1) => ![1, 4] i)) π A
    ![0, 5] ![1, 4] vars_ge (gauss1_holds _) rfl
  refine ⟨f, h0, h1, h2.trans ?_⟩
  congr 1
  refine (Fin.sum_univ_two _).trans ?_
  simp [π]

end Verif.ManyColumnsDemo
