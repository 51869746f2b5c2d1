import Verif.Props.GmmObjects
import Mathlib.Data.Fin.VecNotation

/-!
# Objects that meet the hypotheses of C71
-/

set_option autoImplicit false

namespace Verif.ObjectsDemo
open FloatLike XF Spec

/-- Initial probabilities. -/
noncomputable def π : Fin 2 → ℝ := ![3 / 4, 1 / 4]

/-- Transition probabilities. -/
noncomputable def A : Fin 2 → Fin 2 → ℝ := ![![1 / 2, 1 / 2], ![1 / 4, 3 / 4]]

/-- A model of two states whose `n_features` is not set. -/
noncomputable def est {G P : Type} (p : P) : Est XF G P where
  nComponents := 2
  startprobPrior _ := 1
  transmatPrior _ _ := 1
  algorithm := "viterbi"
  randomState := .none
  nIter := 10
  tol := 0
  params := ['s', 't']
  initParams := ['s', 't']
  implementation := "log"
  monitor := { tol := 0, nIter := 10 }
  startprob := some (vec π)
  transmat := some (mat A)
  sub := p

theorem near_one : NearOne 1 := by norm_num [NearOne]

theorem chain {G P : Type} (p : P) : HoldsChain (est (G := G) p) π A where
  startprob := rfl
  transmat := rfl
  π_nonneg i := by
    change Fin 2 at i
    fin_cases i <;> norm_num [π]
  A_nonneg i j := by
    change Fin 2 at i j
    fin_cases i <;> fin_cases j <;> norm_num [A]
  π_sum := by
    have : ∑ i : Fin 2, π i = 1 := by norm_num [Fin.sum_univ_two, π]
    exact this ▸ near_one
  A_sum i := by
    have : ∀ i, ∑ j : Fin 2, A i j = 1 := by intro i; fin_cases i <;> norm_num [Fin.sum_univ_two, A]
    exact (this i) ▸ near_one

theorem features {G P : Type} (p : P) (nf : ℕ) : FeaturesAre (est (G := G) p) nf := fun n h => by cases h

/-- Three symbols; the second state never shows the first one. -/
noncomputable def B : Fin 2 → Fin 3 → ℝ := ![![1 / 2, 1 / 4, 1 / 4], ![0, 1 / 2, 1 / 2]]

theorem B_nonneg (i : Fin 2) (k : Fin 3) : 0 ≤ B i k := by fin_cases i <;> fin_cases k <;> norm_num [B]

theorem B_sum (i : Fin 2) : ∑ k, B i k = 1 := by fin_cases i <;> norm_num [Fin.sum_univ_succ, B]

/-- `CategoricalHMM`. -/
noncomputable def cat : Est XF ℕ (CatAttrs XF) := est { emissionprobPrior := fun _ _ => 1, emissionprob := some (mat B) }

theorem cat_holds : HoldsCat cat π A B where
  chain := chain _
  features := features _ 3
  emissionprob := rfl
  nonneg := B_nonneg
  sum i := (B_sum i) ▸ near_one

/-- `MultinomialHMM(n_trials=5)`. -/
noncomputable def multi : Est XF ℕ (MultiAttrs XF) := est { nTrials := some (.scalar 5), emissionprob := some (mat B) }

theorem multi_holds : HoldsMulti multi π A B where
  chain := chain _
  features := features _ 3
  emissionprob := rfl
  nonneg := B_nonneg
  sum := B_sum
  trials := rfl

/-- `PoissonHMM`. -/
noncomputable def pois : Est XF ℕ (PoisAttrs XF) :=
  est { lambdasPrior := fun _ _ => 0, lambdasWeight := fun _ _ => 0, lambdas := some (mat B) }

theorem pois_holds : HoldsPois pois π A B where
  chain := chain _
  features := features _ 3
  lambdas := rfl
  nonneg := B_nonneg

/-- Means in two dimensions. -/
noncomputable def mu : Fin 2 → Fin 2 → ℝ := ![![0, 1], ![2, -1]]

/-- `GaussianHMM` with covariances `c`. -/
noncomputable def gauss (c : NdArray XF) : Est XF ℕ (GaussAttrs XF) :=
  est { minCovar := 0, meansPrior := fun _ _ => 0, meansWeight := 0, covarsPrior := fun _ _ _ => 0, covarsWeight := 1,
        means := some (mat mu), covars := some c }

theorem gauss_holds (c : NdArray XF) : HoldsGauss (gauss c) π A mu c := ⟨chain _, rfl, rfl⟩

theorem tiny_le {v : ℝ} (h : 1 ≤ v) : tinyVar ≤ v := by
  refine le_trans ?_ h
  rw [tinyVar]
  exact div_le_one_of_le₀ (one_le_pow₀ (by norm_num)) (by positivity)

/-- Variances per feature and spherical ones, the latter as a column. -/
example : Answers (gaussDiagSub fun _ _ _ => 0) (gauss (mat ![![1, 2], ![3, 1]])) realsX π A (normalB mu ![![1, 2], ![3, 1]]) :=
  C71_gaussian_diag (nf := 2) (by norm_num) (gauss _) π A mu _
    (fun i k => tiny_le (by change Fin 2 at i; fin_cases i <;> fin_cases k <;> norm_num)) (gauss_holds _)

example : Answers (gaussSphericalSub fun _ _ _ => 0) (gauss (mat fun i (_ : Fin 1) => ![1, 2] i)) realsX π A
    (normalB mu fun i _ => ![1, 2] i) :=
  C71_gaussian_spherical (nf := 2) (by norm_num) (gauss _) π A mu ![1, 2]
    (fun i => tiny_le (by change Fin 2 at i; fin_cases i <;> norm_num)) .column (gauss_holds _)

/-- Full matrices `I` and `2 I`, and the tied matrix `2 I`. -/
example : Answers (gaussFullSub fun _ _ _ => 0) (gauss (cube fun i : Fin 2 => ((i : ℝ) + 1) • (1 : Matrix (Fin 2) (Fin 2) ℝ)))
    realsX π A (mvnB mu fun i => ((i : ℝ) + 1) • (1 : Matrix (Fin 2) (Fin 2) ℝ)) :=
  C71_gaussian_full (nf := 2) (by norm_num) (gauss _) π A mu (fun i : Fin 2 => ((i : ℝ) + 1) • 1)
    (fun i => Matrix.PosDef.one.smul (by positivity)) (gauss_holds _)

example : Answers (gaussTiedSub fun _ _ _ => 0) (gauss (mat ((2 : ℝ) • (1 : Matrix (Fin 2) (Fin 2) ℝ)))) realsX π A
    (mvnB mu fun _ => (2 : ℝ) • (1 : Matrix (Fin 2) (Fin 2) ℝ)) :=
  C71_gaussian_tied (nf := 2) (by norm_num) (gauss _) π A mu ((2 : ℝ) • 1)
    (Matrix.PosDef.one.smul (by positivity)) (gauss_holds _)

/-- `GMMHMM(n_mix=2)` with equal weights, means `i + k` and covariances `c`. -/
noncomputable def gmm (ty : CovType) (fc : List ℕ → ℝ) : Est XF ℕ (GmmAttrs XF) :=
  est { minCovar := 0, weightsPrior := .scalar 1, meansPrior := .scalar 0, meansWeight := .scalar 0,
        covarsPrior := none, covarsWeight := none, weights := some (rT [2, 2] fun _ => 1 / 2)
        means := some (rT [2, 2, 2] fun i => i.sum), covars := some (rT (gmmCovShape ty 2 2 2) fc) }

theorem gmm_holds (ty : CovType) (fc : List ℕ → ℝ) (h : gmmCovProper ty 2 2 2 fc) :
    HoldsGmm ty 2 2 (gmm ty fc) π A (fun _ => 1 / 2) (fun i => i.sum) fc where
  chain := chain _
  features := features _ 2
  priors := by
    have hnum : ∀ s, Broadcasts [] s := fun s => ⟨Nat.zero_le _, fun k hk => absurd hk (Nat.not_lt_zero _)⟩
    exact ⟨hnum _, hnum _, hnum _, hnum _, hnum _⟩
  weights := rfl
  means := rfl
  covars := rfl
  w_nonneg _ _ := by positivity
  w_sum _ := by norm_num [NearOne]
  cov := h

example : Answers (gmmSub (nm := 2) gmmDiag) (gmm .diag fun _ => 3) realsX π A
    (gmmB (nf := 2) .diag 2 (fun _ => 1 / 2) (fun i => i.sum) fun _ => 3) :=
  C71_gmm_diag (nm := 2) (nf := 2) (by norm_num) (gmm .diag fun _ => 3) π A _ _ (fun _ => 3)
    (gmm_holds .diag (fun _ => 3) fun _ _ _ => tiny_le (by norm_num))

/-- The score of a single symbol, the first one: `log (3 / 8)`. -/
example : (catSub.score (symbolsX [(0 : Fin 3)]) none cat).1 = .ok (fin (Real.log (3 / 8))) := by
  have h := (C71_categorical cat π A B cat_holds).score rfl [⟨0, fun _ => 0⟩] none (by simp) (.inr ⟨⟨_, rfl⟩, rfl⟩)
  have hL : dataLikelihood π A (catB B) [⟨0, fun _ => 0⟩] = 3 / 8 := by
    simp only [dataLikelihood, List.map_cons, List.map_nil, List.prod_cons, List.prod_nil, mul_one, likelihood]
    rw [← (Equiv.funUnique (Fin 1) (Fin 2)).symm.sum_comp]
    norm_num [joint, Fin.sum_univ_two, ObsSeq.weights, catB, B, π]
  have hL : xlog (dataLikelihood π A (catB B) [⟨0, fun _ => 0⟩]) = fin (Real.log (3 / 8)) := by
    rw [hL, xlog, if_neg (by norm_num)]
  exact h.trans (congrArg Except.ok hL)

end Verif.ObjectsDemo
