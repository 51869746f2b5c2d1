import Verif.Spec.GaussFit
import Verif.Proofs.ObjectStart
import Verif.Props.Density
import Verif.Props.ObjectFitCounts

/-!
# `_init` of a `GaussianHMM`
-/

set_option autoImplicit false

namespace Verif
open FloatLike XF Hmmc Spec
open scoped Classical

variable {G : Type} {R : RandomLib XF G} {nc nf : ℕ}

theorem meanL_col {l : List (Fin nf → ℝ)} (hl : l ≠ []) (k : Fin nf) :
    meanL ((l.map Gaussian.row).map fun r => r k) = fin (colMean l k) := by
  have h : (l.map Gaussian.row).map (fun r => r k) = (l.map fun x => x k).map fin := by
    simp only [List.map_map]; rfl
  rw [h, meanL_fin (by simpa using hl), colMean, List.length_map]

theorem sampleCov_apply (l : List (Fin nf → ℝ)) (k j : Fin nf) : sampleCov l k j =
    (l.map fun x => (x k - colMean l k) * (x j - colMean l j)).sum / ((l.length : ℝ) - 1) := by
  have : ∀ (l : List (Fin nf → ℝ)) (c : Fin nf → ℝ),
      (l.map fun x => Matrix.vecMulVec (fun k => x k - c k) fun k => x k - c k).sum k j =
        (l.map fun x => (x k - c k) * (x j - c j)).sum := by
    intro l c
    induction l with
    | nil => simp
    | cons x l ih => simp [ih, Matrix.vecMulVec_apply]
  rw [sampleCov, Matrix.smul_apply, this, smul_eq_mul, div_eq_inv_mul]

theorem npCov_fin {l : List (Fin nf → ℝ)} (hl : 2 ≤ l.length) (k j : Fin nf) :
    npCov (l.map Gaussian.row) k j = fin (sampleCov l k j) := by
  have hne : l ≠ [] := by rintro rfl; simp at hl
  have hn : (l.length : ℝ) - 1 ≠ 0 := by
    have : (2 : ℝ) ≤ l.length := by exact_mod_cast hl
    intro h; linarith
  unfold npCov
  simp only [meanL_col hne]
  have h : (l.map Gaussian.row).map (fun r => (r k - fin (colMean l k)) * (r j - fin (colMean l j))) =
      (l.map fun x => (x k - colMean l k) * (x j - colMean l j)).map fin := by
    simp only [List.map_map]
    refine List.map_congr_left fun x _ => ?_
    simp [Gaussian.row]
  rw [h, sumL_fin, sampleCov_apply]
  simp [fin_div _ _ hn]

theorem initCov_fin {l : List (Fin nf → ℝ)} (hl : 2 ≤ l.length) (mc : ℝ) :
    initCov (fin mc) (l.map Gaussian.row) = fun k j => fin (templateCov mc l k j) := by
  funext k j
  unfold initCov
  rw [npCov_fin hl]
  simp only [templateCov, Matrix.add_apply, Matrix.smul_apply, Matrix.one_apply, smul_eq_mul]
  split <;> simp

theorem sampleCov_psd (l : List (Fin nf → ℝ)) (hl : l ≠ []) : (sampleCov l).PosSemidef := by
  have h : ∀ (l : List (Fin nf → ℝ)) (c : Fin nf → ℝ),
      (l.map fun x => Matrix.vecMulVec (fun k => x k - c k) fun k => x k - c k).sum.PosSemidef := by
    intro l c
    induction l with
    | nil => exact Matrix.PosSemidef.zero
    | cons x l ih => simpa using (Gaussian.posSemidef_outer _).add ih
  refine (h l _).smul (inv_nonneg.2 ?_)
  have : (1 : ℝ) ≤ l.length := by exact_mod_cast List.length_pos_of_ne_nil hl
  linarith

theorem templateCov_pd {mc : ℝ} (hmc : 0 < mc) {l : List (Fin nf → ℝ)} (hl : l ≠ []) : (templateCov mc l).PosDef :=
  Matrix.PosDef.posSemidef_add (sampleCov_psd l hl) (Matrix.PosDef.one.smul hmc)

/-! ## The property setter accepts the template -/

section
variable {eig : Eigvalsh XF} {T : Matrix (Fin nf) (Fin nf) ℝ}

theorem flat_d2_fin {m n : ℕ} (v : Fin m → Fin n → ℝ) (i : Fin (mat v).size) : ∃ a b, (mat v).flat i = fin (v a b) := by
  simp only [mat, NdArray.flat]
  exact ⟨_, _, rfl⟩

theorem nearlySymmetric_of {A : Matrix (Fin nf) (Fin nf) ℝ} (h : A.IsSymm) : NearlySymmetric A := by
  intro i j
  rw [h.apply i j, sub_self, abs_zero]
  positivity

theorem symm_of_pd (h : T.PosDef) : T.IsSymm := by
  have := h.isHermitian
  simpa [Matrix.IsHermitian, Matrix.IsSymm] using this

theorem accept_diag (h : T.PosDef) : setCovars eig .diag nc (distributeCovar (fun k j => fin (T k j)) .diag nc) =
    .ok (mat fun (_ : Fin nc) k => T k k) := by
  choose a b hab using flat_d2_fin (m := nc) (fun (_ : Fin nc) k => T k k)
  exact (C35_diag (nc := nc) _ (fun i => T (b i) (b i)) hab).2 ⟨rfl, fun i => h.diag_pos⟩

theorem sum_pos_of_pd (hf : nf ≠ 0) (h : T.PosDef) : 0 < ∑ k, ∑ l, T k l := by
  have := h.dotProduct_mulVec_pos (x := fun _ => 1) (fun h0 => by
    have := congrFun h0 ⟨0, Nat.pos_of_ne_zero hf⟩
    simp at this)
  simpa [dotProduct, Matrix.mulVec] using this

theorem meanAll_fin (hf : nf ≠ 0) : meanL ((List.finRange nf).map fun k => (List.finRange nf).map fun l => fin (T k l)).flatten =
    fin ((∑ k, ∑ l, T k l) / (nf * nf)) := by
  have h : ((List.finRange nf).map fun k => (List.finRange nf).map fun l => fin (T k l)).flatten =
      ((List.finRange nf).map fun k => (List.finRange nf).map fun l => T k l).flatten.map fin := by
    simp [List.map_flatten, Function.comp_def]
  have hlen : ((List.finRange nf).map fun k => (List.finRange nf).map fun l => T k l).flatten.length = nf * nf := by
    simp [List.length_flatten, Function.comp_def]
  rw [h, meanL_fin, hlen]
  · congr 1
    rw [List.sum_flatten, List.map_map]
    push_cast
    congr 1
  · intro h0
    rw [h0] at hlen
    simp at hlen
    exact hf hlen

theorem accept_spherical (hf : nf ≠ 0) (h : T.PosDef) :
    setCovars eig .spherical nc (distributeCovar (fun k j => fin (T k j)) .spherical nc) =
      .ok (mat fun (_ : Fin nc) (_ : Fin nf) => (∑ k, ∑ l, T k l) / (nf * nf)) := by
  have hd : distributeCovar (fun k j => fin (T k j)) .spherical nc =
      mat fun (_ : Fin nc) (_ : Fin nf) => (∑ k, ∑ l, T k l) / (nf * nf) := by
    simp only [distributeCovar, meanAll_fin hf, mat]
    simp
  rw [hd]
  choose a b hab using flat_d2_fin (m := nc) (fun (_ : Fin nc) (_ : Fin nf) => (∑ k, ∑ l, T k l) / (nf * nf))
  have : 0 < nf := Nat.pos_of_ne_zero hf
  exact (C35_spherical (nc := nc) _ _ hab).2 ⟨rfl, fun i => div_pos (sum_pos_of_pd hf h) (by positivity)⟩

theorem accept_tied (he : EigvalshSpec eig) (h : T.PosDef) :
    setCovars eig .tied nc (distributeCovar (fun k j => fin (T k j)) .tied nc) = .ok (mat T) :=
  ((C35_tied (nc := nc) he).1 T).2 ⟨nearlySymmetric_of (symm_of_pd h), by rw [symLower_eq (symm_of_pd h)]; exact h⟩

theorem accept_full (he : EigvalshSpec eig) (h : T.PosDef) :
    setCovars eig .full nc (distributeCovar (fun k j => fin (T k j)) .full nc) = .ok (cube fun _ : Fin nc => T) :=
  ((C35_full (nc := nc) he).1 (fun _ : Fin nc => T)).2 fun _ =>
    ⟨nearlySymmetric_of (symm_of_pd h), by rw [symLower_eq (symm_of_pd h)]; exact h⟩

end

/-- `_init` of a `GaussianHMM`: `cov` is what the setter stores for the template. -/
theorem gauss_init {S : Sub XF G (GaussAttrs XF)} {eig : Eigvalsh XF} {ty : CovType} (hS : IsGauss S eig ty)
    (hn : ∀ e, (S.nFit e).map Prod.fst = ['s', 't', 'm', 'c']) (hR : PositiveDraws R) (hK : RealCentres R)
    {l : List (Fin nf → ℝ)} (hl : l ≠ []) {w : World XF G (GaussAttrs XF)}
    (hnf : ColumnCount w.est nf) (h0 : w.est.nComponents ≠ 0) (hgc : GivenChain w.est)
    (hgm : ¬ Fresh w.est 'm' w.est.sub.means → ∃ mu : Fin w.est.nComponents → Fin nf → ℝ, w.est.sub.means = some (mat mu))
    (hgv : ¬ Fresh w.est 'c' w.est.sub.covars → ∃ c, w.est.sub.covars = some c)
    (hp : ∀ c ∈ w.est.params, c ∈ ['s', 't', 'm', 'c']) (hen : Enough w.est l) {cov : ℝ → NdArray XF}
    (hcov : 2 ≤ l.length → ∀ mc, 0 < mc → setCovars eig ty w.est.nComponents
      (distributeCovar (fun k j => fin (templateCov mc l k j)) ty w.est.nComponents) = .ok (cov mc)) :
    ∃ (rs : RandomState G) (g : G) (π : Fin w.est.nComponents → ℝ) (A : Fin w.est.nComponents → Fin w.est.nComponents → ℝ)
      (mu : Fin w.est.nComponents → Fin nf → ℝ) (c : NdArray XF),
      S.init R (.floats (l.map Gaussian.row)) w = (.ok (), ⟨{ w.est with
        nFeatures := some nf, sub := { w.est.sub with means := some (mat mu), covars := some c }, randomState := rs
        startprob := some (vec π), transmat := some (mat A) }, g⟩) ∧ StartsChain w.est π A ∧
      (¬ Fresh w.est 'm' w.est.sub.means → w.est.sub.means = some (mat mu)) ∧
      (Fresh w.est 'm' w.est.sub.means →
        ∃ g, (R.kmeans w.est.nComponents (l.map fun x k => fin (x k)) g).1 = fun i k => fin (mu i k)) ∧
      (¬ Fresh w.est 'c' w.est.sub.covars → w.est.sub.covars = some c) ∧
      (Fresh w.est 'c' w.est.sub.covars → ∃ mc, 0 < mc ∧ w.est.sub.minCovar = fin mc ∧ c = cov mc) := by
  generalize hX : (XArr.floats (l.map Gaussian.row) : XArr XF) = X
  have hc : S.checkFeatures X w.est = (.ok (), { w.est with nFeatures := some nf, sub := w.est.sub }) := by
    rw [hS.features, ← hX]
    have hd : (XArr.floats (l.map Gaussian.row) : XArr XF).d = nf := rfl
    unfold checkFeaturesBase
    rcases hnf with h | h
    · simp only [h, hd, ne_eq, not_true_eq_false, if_false]
      congr 1
      rw [← h]
    · simp only [h, hd]
  obtain ⟨rs, g, π, A, h1, h2⟩ := initBase_starts hR hc h0 hgc ['s', 't', 'm', 'c'] hn hp
  obtain ⟨rs', g', h3⟩ := gaussInitMeans_eq R X ⟨({ w.est with nFeatures := some nf, sub := w.est.sub, randomState := rs, startprob := some (vec π), transmat := some (mat A) }), g⟩
  have hm : ∃ (rs' : RandomState G) (g' : G) (mu : Fin w.est.nComponents → Fin nf → ℝ),
      gaussInitMeans R X ⟨({ w.est with nFeatures := some nf, sub := w.est.sub, randomState := rs, startprob := some (vec π), transmat := some (mat A) }), g⟩ =
        (.ok (), ⟨{ w.est with nFeatures := some nf, sub := { w.est.sub with means := some (mat mu) }, randomState := rs', startprob := some (vec π), transmat := some (mat A) }, g'⟩) ∧
      (¬ Fresh w.est 'm' w.est.sub.means → w.est.sub.means = some (mat mu)) ∧
      (Fresh w.est 'm' w.est.sub.means →
        ∃ g, (R.kmeans w.est.nComponents (l.map fun x k => fin (x k)) g).1 = fun i k => fin (mu i k)) := by
    by_cases hfr : Fresh w.est 'm' w.est.sub.means
    · generalize hg'' : selfGen R _ = g'' at h3
      obtain ⟨mu, hmu⟩ := hK w.est.nComponents l g''
      refine ⟨rs', g', mu, ?_, fun h => absurd hfr h, fun _ => ⟨g'', hmu⟩⟩
      rw [if_pos ((needsInit_iff _ _ _).2 hfr), if_neg] at h3
      · rw [h3, ← hX]
        simp only [XArr.floatRows]
        have : (R.kmeans w.est.nComponents (l.map Gaussian.row) g'').1 = fun i k => fin (mu i k) := hmu
        exact congrArg (fun v => ((Except.ok () : Except PyErr Unit), (⟨{ w.est with nFeatures := some nf, sub := { w.est.sub with means := some (.d2 v) }, randomState := rs', startprob := some (vec π), transmat := some (mat A) }, g'⟩ : World XF G (GaussAttrs XF)))) this
      · rw [← hX]
        simpa [XArr.n] using hen.centres hfr
    · obtain ⟨mu, hmu⟩ := hgm hfr
      refine ⟨rs, g, mu, ?_, fun _ => hmu, fun h => absurd h hfr⟩
      rw [if_neg (fun h => hfr ((needsInit_iff _ _ _).1 h))] at h3
      rw [h3, ← hmu]
  obtain ⟨rs'', g'', mu, h4, h5, h6⟩ := hm
  have h7 := gaussInitCovars_eq eig ty X ⟨({ w.est with nFeatures := some nf, sub := { w.est.sub with means := some (mat mu) }, randomState := rs'', startprob := some (vec π), transmat := some (mat A) }), g''⟩
  have hinit : ∀ w', gaussInitCovars eig ty X ⟨({ w.est with nFeatures := some nf, sub := { w.est.sub with means := some (mat mu) }, randomState := rs'', startprob := some (vec π), transmat := some (mat A) }), g''⟩ = (.ok (), w') →
      S.init R X w = (.ok (), w') := by
    intro w' hw'
    refine (Py.bind_ok h1).trans ?_
    rw [hS.init]
    exact (Py.bind_ok h4).trans hw'
  by_cases hfr : Fresh w.est 'c' w.est.sub.covars
  · obtain ⟨h2l, mc, hmc, hmc'⟩ := hen.covars hfr
    refine ⟨rs'', g'', π, A, mu, cov mc, hinit _ ?_, h2, h5, h6, fun h => absurd hfr h, fun _ => ⟨mc, hmc, hmc', rfl⟩⟩
    rw [h7, if_pos ((needsInit_iff _ _ _).2 hfr)]
    have : setCovars eig ty w.est.nComponents (distributeCovar (initCov w.est.sub.minCovar X.floatRows) ty w.est.nComponents) =
        .ok (cov mc) := by
      rw [← hX, hmc']
      have := hcov h2l mc hmc
      rw [← initCov_fin h2l mc] at this
      exact this
    simp only [this]
  · obtain ⟨c, hc'⟩ := hgv hfr
    refine ⟨rs'', g'', π, A, mu, c, hinit _ ?_, h2, h5, h6, fun _ => hc', fun h => absurd h hfr⟩
    rw [h7, if_neg (fun h => hfr ((needsInit_iff _ _ _).1 h)), ← hc']

end Verif
