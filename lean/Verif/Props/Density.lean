import Verif.Proofs.Covars
import Verif.Props.GaussianFullEM

/-!
# Gaussian densities and covariance arrays: C35, C40, C41, C61
-/

namespace Verif
open FloatLike XF Spec Gaussian NdArray
open scoped Classical Matrix

variable {nc nf n : ℕ}

/-! ## C41 -/

/-- **C41** Full covariance, any positive definite matrices, means and samples: the computed value is
`-1/2 (n log 2π + log det Σ + (x-μ)ᵀ Σ⁻¹ (x-μ))`, which is the logarithm of the normal density. -/
theorem C41_posDef (mu : Fin nc → Fin nf → ℝ) (S : Fin nc → Matrix (Fin nf) (Fin nf) ℝ)
    (hS : ∀ i, (S i).PosDef) (X : List (Fin nf → ℝ)) :
    logDensityFull (fun i k => fin (mu i k)) (fun i k l => fin (S i k l)) (X.map row) =
      .ok (X.map fun x i => fin (-(1 / 2) * (nf * Real.log (2 * Real.pi) + Real.log (S i).det +
        (x - mu i) ⬝ᵥ ((S i)⁻¹ *ᵥ (x - mu i))))) ∧
    ∀ x i, Real.log (mvnPdf (mu i) (S i) x) = -(1 / 2) * (nf * Real.log (2 * Real.pi) +
      Real.log (S i).det + (x - mu i) ⬝ᵥ ((S i)⁻¹ *ᵥ (x - mu i))) := by
  have h2 : ∀ x i, Real.log (mvnPdf (mu i) (S i) x) = -(1 / 2) * (nf * Real.log (2 * Real.pi) +
      Real.log (S i).det + (x - mu i) ⬝ᵥ ((S i)⁻¹ *ᵥ (x - mu i))) := fun x i =>
    log_mvnPdf (hS i) (mu i) x
  refine ⟨?_, h2⟩
  rw [logDensityFull_fin mu S fun i => (hS i).posSemidef]
  congr 1
  refine List.map_congr_left fun x _ => ?_
  funext i
  rw [lg_def, fullB, effCov, if_pos (hS i), lg_pos (mvnPdf_pos (hS i) _ _), h2]

/-- **C41** Singular positive semidefinite matrices are replaced by `Σ + 1e-7 I`. -/
theorem C41_singular (mu : Fin nc → Fin nf → ℝ) (S : Fin nc → Matrix (Fin nf) (Fin nf) ℝ)
    (hS : ∀ i, (S i).PosSemidef) (hn : ∀ i, ¬ (S i).PosDef) (X : List (Fin nf → ℝ)) :
    logDensityFull (fun i k => fin (mu i k)) (fun i k l => fin (S i k l)) (X.map row) =
      .ok (X.map fun x i => fin (Real.log (mvnPdf (mu i) (S i + (1 / 10 ^ 7 : ℝ) • 1) x))) := by
  rw [logDensityFull_fin mu S hS]
  congr 1
  refine List.map_congr_left fun x _ => ?_
  funext i
  have h := posDef_effCov (hS i)
  rw [effCov, if_neg (hn i)] at h
  rw [lg_def, fullB, effCov, if_neg (hn i), lg_pos (mvnPdf_pos h _ _)]

theorem allOk_error {β : Type} : ∀ {n : ℕ} (f : Fin n → Except PyErr β),
    (∀ i, (∃ a, f i = .ok a) ∨ ∃ msg, f i = .error (.valueError msg)) →
    (∃ i msg, f i = .error (.valueError msg)) → ∃ msg, allOk f = .error (.valueError msg)
  | 0, f, _, h => by obtain ⟨i, _⟩ := h; exact i.elim0
  | n + 1, f, h, hx => by
    rw [allOk]
    rcases h 0 with ⟨a, ha⟩ | ⟨msg, hm⟩
    · have : ∃ i msg, f (Fin.succ i) = .error (.valueError msg) := by
        obtain ⟨i, msg, hi⟩ := hx
        revert hi
        refine Fin.cases (fun hi => ?_) (fun j hi => ⟨j, msg, hi⟩) i
        rw [ha] at hi; cases hi
      obtain ⟨msg, hm⟩ := allOk_error (fun i => f i.succ) (fun i => h i.succ) this
      exact ⟨msg, by rw [ha, hm]; rfl⟩
    · exact ⟨msg, by rw [hm]; rfl⟩

theorem factor_cases (A : Fin n → Fin n → XF) :
    (∃ l, factor A = .ok l) ∨ ∃ msg, factor A = .error (.valueError msg) := by
  unfold factor
  split
  · exact Or.inr ⟨_, rfl⟩
  · split
    · exact Or.inl ⟨_, rfl⟩
    · split
      · exact Or.inl ⟨_, rfl⟩
      · exact Or.inr ⟨_, rfl⟩

/-- **C41** A symmetric matrix that stays indefinite after adding `1e-7 I` raises `ValueError`. -/
theorem C41_reject (mu : Fin nc → Fin nf → ℝ) (S : Fin nc → Matrix (Fin nf) (Fin nf) ℝ) (i : Fin nc)
    (hs : (S i).IsSymm) (h1 : ¬ (S i).PosDef) (h2 : ¬ (S i + (1 / 10 ^ 7 : ℝ) • 1).PosDef)
    (X : List (Fin nf → ℝ)) :
    ∃ msg, logDensityFull (fun i k => fin (mu i k)) (fun i k l => fin (S i k l)) (X.map row) =
      .error (.valueError msg) := by
  have hf : ∃ msg, factor (fun k l => fin (S i k l)) = .error (.valueError msg) := by
    have hfin : (!((List.finRange nf).all fun k => finiteRow fun j => fin (S i k j))) = false := by
      simp [finiteRow_fin]
    have e1 : cholesky (fun k l => fin (S i k l)) = none :=
      (cholesky_spec (S i) fun k l => congrFun (congrFun hs l) k).2 fun h => h1 ((posDef_iff hs).2 h)
    have hs2 : (S i + (1 / 10 ^ 7 : ℝ) • (1 : Matrix (Fin nf) (Fin nf) ℝ)).IsSymm :=
      hs.add (Matrix.isSymm_one.smul _)
    have e7 : (ofRat (1 / 10 ^ 7) : XF) = fin (1 / 10 ^ 7) := by rw [ofRat_def]; congr 1; norm_num
    have e2 : (fun k l => fin (S i k l) + ofRat (1 / 10 ^ 7) * (if k = l then 1 else 0) : Sq XF nf) =
        fun k l => fin ((S i + (1 / 10 ^ 7 : ℝ) • (1 : Matrix (Fin nf) (Fin nf) ℝ)) k l) := by
      funext k l
      rw [e7, Matrix.add_apply, Matrix.smul_apply, Matrix.one_apply, smul_eq_mul]
      split <;> simp
    have e3 : cholesky (fun k l => fin (S i k l) + ofRat (1 / 10 ^ 7) * (if k = l then 1 else 0) :
        Sq XF nf) = none := by
      rw [e2]
      exact (cholesky_spec _ fun k l => congrFun (congrFun hs2 l) k).2 fun h => h2 ((posDef_iff hs2).2 h)
    unfold factor
    rw [hfin, e1]
    simp only [memo_eq, e3]
    exact ⟨_, rfl⟩
  unfold logDensityFull
  obtain ⟨msg, hm⟩ := allOk_error (fun c => (do
    let l ← factor (fun k l => fin (S c k l))
    if !((X.map row).all fun x => finiteRow fun k => x k - fin (mu c k)) then
      .error (.valueError "infs or NaNs")
    else .ok l : Except PyErr (Sq XF nf))) (fun c => by
      rcases factor_cases fun k l => fin (S c k l) with ⟨l, hl⟩ | ⟨msg, hl⟩
      · rw [hl]
        simp only [bind, Except.bind]
        split
        · exact Or.inr ⟨_, rfl⟩
        · exact Or.inl ⟨_, rfl⟩
      · exact Or.inr ⟨msg, by rw [hl]; rfl⟩)
    (by obtain ⟨msg, hm⟩ := hf; exact ⟨i, msg, by rw [hm]; rfl⟩)
  exact ⟨msg, by rw [hm]; rfl⟩

/-! ## C40 -/

/-- The normal density with a diagonal covariance matrix is the product of normal densities. -/
theorem mvnPdf_diagonal (μ v x : Fin nf → ℝ) (hv : ∀ k, 0 < v k) :
    mvnPdf μ (Matrix.diagonal v) x = ∏ k, normalPdf (μ k) (v k) (x k) := by
  have hpd : (Matrix.diagonal v).PosDef := Matrix.PosDef.diagonal hv
  have hinv : (Matrix.diagonal v)⁻¹ = Matrix.diagonal fun k => (v k)⁻¹ := by
    refine Matrix.inv_eq_left_inv ?_
    rw [Matrix.diagonal_mul_diagonal, ← Matrix.diagonal_one]
    congr 1
    funext k
    exact inv_mul_cancel₀ (hv k).ne'
  refine Real.log_injOn_pos (mvnPdf_pos hpd _ _)
    (Finset.prod_pos fun k _ => normalPdf_pos (hv k) _ _) ?_
  rw [log_mvnPdf hpd, Real.log_prod fun k _ => (normalPdf_pos (hv k) _ _).ne']
  simp only [log_normalPdf (hv _), normalG]
  rw [Matrix.det_diagonal, Real.log_prod fun k _ => (hv k).ne', mahalanobis, hinv,
    Finset.sum_add_distrib, Finset.sum_const, Finset.card_univ, Fintype.card_fin, nsmul_eq_mul]
  simp only [dotProduct, Matrix.mulVec_diagonal, Pi.sub_apply, Finset.mul_sum, mul_add,
    Finset.sum_add_distrib]
  have : ∀ k, -(1 / 2) * ((x k - μ k) * ((v k)⁻¹ * (x k - μ k))) =
      -(1 / 2) * ((x k - μ k) ^ 2 / v k) := fun k => by ring
  simp only [this]
  ring

/-- **C40** (`diag`) The computed value is the logarithm of the product of univariate normal
densities, for variances not below the smallest normal double. -/
theorem C40_diag (mu v : Fin nc → Fin nf → ℝ) (hv : ∀ i k, tinyVar ≤ v i k) (X : List (Fin nf → ℝ)) :
    loglikDiag (⟨fun i k => fin (mu i k), fun i k => fin (v i k)⟩ : DiagParams XF nc nf) (X.map row) =
      X.map fun x i => fin (Real.log (∏ k, normalPdf (mu i k) (v i k) (x k))) := by
  rw [loglikDiag_fin]
  refine List.map_congr_left fun x _ => ?_
  funext i
  simp only [diagB, effVar_eq (hv i _)]
  rw [lg_def, lg_pos (Finset.prod_pos fun k _ => normalPdf_pos (tinyVar_pos.trans_le (hv i k)) _ _)]

theorem npDiag_fin (v : Fin nf → ℝ) :
    npDiag (fun k => fin (v k)) = fun k l => fin (Matrix.diagonal v k l) := by
  funext k l
  simp only [npDiag, Matrix.diagonal_apply]
  split <;> simp

theorem scaledEye_fin (x : ℝ) :
    scaledEye nf (fin x) = fun k l => fin (Matrix.diagonal (fun _ => x) k l) := by
  funext k l
  simp only [scaledEye, Matrix.diagonal_apply]
  split <;> simp

theorem full_of_diag (mu v : Fin nc → Fin nf → ℝ) (hv : ∀ i k, tinyVar ≤ v i k)
    (X : List (Fin nf → ℝ)) :
    logDensityFull (fun i k => fin (mu i k)) (fun i k l => fin (Matrix.diagonal (v i) k l))
      (X.map row) =
    .ok (loglikDiag (⟨fun i k => fin (mu i k), fun i k => fin (v i k)⟩ : DiagParams XF nc nf)
      (X.map row)) := by
  have h0 : ∀ i k, 0 < v i k := fun i k => tinyVar_pos.trans_le (hv i k)
  have hpd : ∀ i, (Matrix.diagonal (v i)).PosDef := fun i => Matrix.PosDef.diagonal (h0 i)
  rw [logDensityFull_fin mu _ fun i => (hpd i).posSemidef, C40_diag mu v hv]
  congr 1
  refine List.map_congr_left fun x _ => ?_
  funext i
  rw [lg_def, fullB, effCov, if_pos (hpd i), lg_pos (mvnPdf_pos (hpd i) _ _),
    mvnPdf_diagonal _ _ _ (h0 i)]

/-- **C40** Expanding covariances with `fill_covars` and using the full density gives the same
log-likelihoods, whatever the covariance type: `diag` (array `(nc, nf)`), `spherical` (array `(nc,)`,
which the spherical density broadcasts to `(nc, nf)`), and `tied` (any array `(nf, nf)`, in any
arithmetic). -/
theorem C40_agree (mu : Fin nc → Fin nf → ℝ) (X : List (Fin nf → ℝ)) :
    (∀ v : Fin nc → Fin nf → ℝ, (∀ i k, tinyVar ≤ v i k) →
      ∃ C : Fin nc → Sq XF nf, fillCovars (.d2 fun i k => fin (v i k)) .diag nc nf = .ok (.d3 C) ∧
        logDensityFull (fun i k => fin (mu i k)) C (X.map row) =
          .ok (loglikDiag ⟨fun i k => fin (mu i k), fun i k => fin (v i k)⟩ (X.map row))) ∧
    (∀ s : Fin nc → ℝ, (∀ i, tinyVar ≤ s i) →
      ∃ C : Fin nc → Sq XF nf,
        (∃ C' : Fin (d1 fun i => fin (s i)).size → Sq XF nf,
          fillCovars (.d1 fun i => fin (s i)) .spherical nc nf = .ok (.d3 C') ∧
          ∀ i : Fin nc, ∃ h, C' ⟨i, h⟩ = C i) ∧
        logDensityFull (fun i k => fin (mu i k)) C (X.map row) =
          .ok ((X.map row).map fun x i =>
            logDensitySpherical (fun k => fin (mu i k)) (fin (s i)) x)) ∧
    ∀ S : Sq XF nf, ∃ C : Fin nc → Sq XF nf, fillCovars (.d2 S) .tied nc nf = .ok (.d3 C) ∧
      logDensityFull (fun i k => fin (mu i k)) C (X.map row) =
        logDensityTied (fun i k => fin (mu i k)) S (X.map row) := by
  refine ⟨fun v hv => ⟨_, rfl, ?_⟩, fun s hs => ⟨fun i => scaledEye nf (fin (s i)), ⟨_, rfl, ?_⟩, ?_⟩,
    fun S => ⟨_, rfl, rfl⟩⟩
  · simp only [npDiag_fin]
    exact full_of_diag mu v hv X
  · intro i
    exact ⟨by simp [NdArray.size, NdArray.shape], rfl⟩
  · simp only [scaledEye_fin]
    rw [full_of_diag mu (fun i _ => s i) (fun i _ => hs i) X]
    congr 1
    simp only [loglikDiag, memo_eq, logDensitySpherical]

/-! ## C35 -/

section
variable {eig : Eigvalsh XF}

theorem setCovars_ok {ty : CovType} {a b : NdArray XF} :
    setCovars eig ty nc a = .ok b ↔ validateCovars eig a ty nc = .ok () ∧ b = a := by
  unfold setCovars
  cases h : validateCovars eig a ty nc with
  | error e => simp [bind, Except.bind]
  | ok u => simp only [bind, Except.bind, pure, Except.pure, Except.ok.injEq, true_and, eq_comm]

/-- **C35** (`spherical`) Array with finite entries `x`: accepted iff its first axis has length
`n_components` and all entries are positive. -/
theorem C35_spherical (a : NdArray XF) (x : Fin a.size → ℝ) (hx : ∀ i, a.flat i = fin (x i)) :
    setCovars eig .spherical nc a = .ok a ↔ a.shape.head? = some nc ∧ ∀ i, 0 < x i := by
  rw [setCovars_ok]
  simp only [and_true, validateCovars]
  cases hsh : a.shape with
  | nil => simp
  | cons m t =>
    by_cases hm : m = nc
    · simp only [hm, ne_eq, not_true_eq_false, if_false, List.head?_cons, true_and]
      by_cases h : a.any (fun x => le x 0) = true
      · rw [if_pos h]
        obtain ⟨i, hi⟩ := (any_fin _).1 h
        rw [hx, zero_def, fin_le, decide_eq_true_eq] at hi
        simp only [reduceCtorEq, false_iff, not_forall, not_lt]
        exact ⟨i, hi⟩
      · rw [if_neg h]
        simp only [true_iff]
        intro i
        by_contra h0
        refine h ((any_fin _).2 ⟨i, ?_⟩)
        rw [hx, zero_def, fin_le, decide_eq_true_eq]
        exact not_lt.1 h0
    · simp [hm]

/-- **C35** (`diag`) Array with finite entries `x`: accepted iff it has two axes and all entries are
positive (neither `n_components` nor `n_features` is compared with the shape). -/
theorem C35_diag (a : NdArray XF) (x : Fin a.size → ℝ) (hx : ∀ i, a.flat i = fin (x i)) :
    setCovars eig .diag nc a = .ok a ↔ a.shape.length = 2 ∧ ∀ i, 0 < x i := by
  rw [setCovars_ok]
  simp only [and_true, validateCovars]
  by_cases hm : a.shape.length = 2
  · simp only [hm, ne_eq, not_true_eq_false, if_false, true_and]
    by_cases h : a.any (fun x => le x 0) = true
    · rw [if_pos h]
      obtain ⟨i, hi⟩ := (any_fin _).1 h
      rw [hx, zero_def, fin_le, decide_eq_true_eq] at hi
      simp only [reduceCtorEq, false_iff, not_forall, not_lt]
      exact ⟨i, hi⟩
    · rw [if_neg h]
      simp only [true_iff]
      intro i
      by_contra h0
      refine h ((any_fin _).2 ⟨i, ?_⟩)
      rw [hx, zero_def, fin_le, decide_eq_true_eq]
      exact not_lt.1 h0
  · simp [hm]

/-- **C35** (`tied`) Finite square matrices: accepted iff symmetric within the tolerance of
`np.allclose` and the lower triangle is positive definite; every other shape is rejected. -/
theorem C35_tied (he : EigvalshSpec eig) :
    (∀ A : Fin n → Fin n → ℝ, setCovars eig .tied nc (.d2 fun i j => fin (A i j)) =
        .ok (.d2 fun i j => fin (A i j)) ↔ NearlySymmetric A ∧ (symLower A).PosDef) ∧
    ∀ a b : NdArray XF, setCovars eig .tied nc a = .ok b → b = a ∧ ∃ m, a.shape = [m, m] := by
  constructor
  · intro A
    rw [setCovars_ok, ← symPosDef_fin he A]
    simp [validateCovars]
  · intro a b h
    obtain ⟨h1, h2⟩ := setCovars_ok.1 h
    refine ⟨h2, ?_⟩
    cases a with
    | d0 x => simp [validateCovars] at h1
    | d1 v => simp [validateCovars] at h1
    | @d2 m n v =>
      by_cases hmn : m = n
      · exact ⟨m, by simp [NdArray.shape, hmn]⟩
      · simp [validateCovars, hmn] at h1
    | d3 v => simp [validateCovars] at h1

/-- **C35** (`full`) Finite stacks of square matrices: accepted iff every matrix is symmetric within
the tolerance and has positive definite lower triangle (their number is not compared with
`n_components`); every other shape is rejected. -/
theorem C35_full (he : EigvalshSpec eig) :
    (∀ {l : ℕ} (A : Fin l → Fin n → Fin n → ℝ), setCovars eig .full nc (.d3 fun c i j => fin (A c i j)) =
        .ok (.d3 fun c i j => fin (A c i j)) ↔ ∀ c, NearlySymmetric (A c) ∧ (symLower (A c)).PosDef) ∧
    ∀ a b : NdArray XF, setCovars eig .full nc a = .ok b → b = a ∧ ∃ l m, a.shape = [l, m, m] := by
  constructor
  · intro l A
    rw [setCovars_ok]
    simp only [← symPosDef_fin he]
    simp [validateCovars]
  · intro a b h
    obtain ⟨h1, h2⟩ := setCovars_ok.1 h
    refine ⟨h2, ?_⟩
    cases a with
    | d0 x => simp [validateCovars] at h1
    | d1 v => simp [validateCovars] at h1
    | d2 v => simp [validateCovars] at h1
    | @d3 l m n v =>
      by_cases hmn : m = n
      · exact ⟨l, m, by simp [NdArray.shape, hmn]⟩
      · simp [validateCovars, hmn] at h1

/-- **C35** What was accepted is usable, `tied` and `full`: the density is computed without error, and
without the `1e-7` correction, from the symmetric matrices given by the lower triangles. -/
theorem C35_usable (he : EigvalshSpec eig) (mu : Fin nc → Fin nf → ℝ) (X : List (Fin nf → ℝ)) :
    (∀ A : Fin nc → Fin nf → Fin nf → ℝ,
      setCovars eig .full nc (.d3 fun c i j => fin (A c i j)) = .ok (.d3 fun c i j => fin (A c i j)) →
      logDensityFull (fun i k => fin (mu i k)) (fun c i j => fin (A c i j)) (X.map row) =
        .ok (X.map fun x i => fin (Real.log (mvnPdf (mu i) (symLower (A i)) x)))) ∧
    ∀ A : Fin nf → Fin nf → ℝ,
      setCovars eig .tied nc (.d2 fun i j => fin (A i j)) = .ok (.d2 fun i j => fin (A i j)) →
      logDensityTied (fun i k => fin (mu i k)) (fun i j => fin (A i j)) (X.map row) =
        .ok (X.map fun x i => fin (Real.log (mvnPdf (mu i) (symLower A) x))) := by
  have key : ∀ A : Fin nc → Fin nf → Fin nf → ℝ, (∀ c, (symLower (A c)).PosDef) →
      logDensityFull (fun i k => fin (mu i k)) (fun c i j => fin (A c i j)) (X.map row) =
        .ok (X.map fun x i => fin (Real.log (mvnPdf (mu i) (symLower (A i)) x))) := by
    intro A hA
    choose L hL1 hL2 using fun i => factor_ok_of_posDef (hA i)
    unfold logDensityFull
    rw [allOk_ok _ (fun i k l => fin (L i k l)) fun i => by
      simp only [hL1, bind, Except.bind]
      rw [if_neg]
      simp [row, finiteRow_fin]]
    simp only [bind, Except.bind, pure, Except.pure, memo_eq, List.map_map]
    congr 1
    refine List.map_congr_left fun x _ => ?_
    funext i
    simp only [Function.comp]
    have := logDensityChol_fin (hA i) (hL2 i) (mu i) x
    exact this.trans (lg_pos (mvnPdf_pos (hA i) _ _))
  exact ⟨fun A h => key A fun c => ((C35_full he).1 A |>.1 h c).2, fun A h => key (fun _ => A) fun _ => ((C35_tied he).1 A |>.1 h).2⟩

/-- **C35** Not everything accepted has the right shape or is a number: `diag` accepts a single row
for two states, and `spherical` and `diag` accept NaN. -/
theorem C35_too_lenient :
    setCovars eig .diag 2 (.d2 (m := 1) (n := 1) fun _ _ => fin 1) =
      .ok (.d2 (m := 1) (n := 1) fun _ _ => fin 1) ∧
    setCovars eig .spherical 1 (.d1 (n := 1) fun _ => XF.nan) =
      .ok (.d1 (n := 1) fun _ => XF.nan) ∧
    setCovars eig .diag 1 (.d2 (m := 1) (n := 1) fun _ _ => XF.nan) =
      .ok (.d2 (m := 1) (n := 1) fun _ _ => XF.nan) := by
  have hn : FloatLike.le XF.nan (fin 0) = false := rfl
  refine ⟨?_, ?_, ?_⟩
  · refine (C35_diag _ (fun _ => 1) fun i => ?_).2 ⟨rfl, fun _ => one_pos⟩
    simp [NdArray.flat]
  · refine setCovars_ok.2 ⟨?_, rfl⟩
    simp [validateCovars, NdArray.shape, NdArray.any, NdArray.flat, hn]
  · refine setCovars_ok.2 ⟨?_, rfl⟩
    simp [validateCovars, NdArray.shape, NdArray.any, NdArray.flat, hn]

end

/-! ## C61 -/

/-- **C61** `full`, `tied`, `diag`, and `spherical` with `_covars_` of shape `(n_components,)` (as the
setter takes it): `covars_` has shape `(n_components, n_features, n_features)` and the matrix used to
sample from state `i` is the covariance of state `i`. -/
theorem C61_ok :
    (∀ S : Fin nc → Sq XF nf, fillCovars (.d3 S) .full nc nf = .ok (.d3 S) ∧
      ∀ i : Fin nc, stateCovar (.d3 S) .full nc nf i = .ok (.d2 (S i))) ∧
    (∀ S : Sq XF nf, (∃ a, fillCovars (.d2 S) .tied nc nf = .ok a ∧ a.shape = [nc, nf, nf]) ∧
      ∀ i : Fin nc, stateCovar (.d2 S) .tied nc nf i = .ok (.d2 S)) ∧
    (∀ v : Fin nc → Fin nf → ℝ,
      (∃ a, fillCovars (.d2 fun i k => fin (v i k)) .diag nc nf = .ok a ∧ a.shape = [nc, nf, nf]) ∧
      ∀ i : Fin nc, stateCovar (.d2 fun i k => fin (v i k)) .diag nc nf i =
        .ok (.d2 fun k l => fin (Matrix.diagonal (v i) k l))) ∧
    ∀ s : Fin nc → ℝ,
      (∃ a, fillCovars (.d1 fun i => fin (s i)) .spherical nc nf = .ok a ∧ a.shape = [nc, nf, nf]) ∧
      ∀ i : Fin nc, stateCovar (.d1 fun i => fin (s i)) .spherical nc nf i =
        .ok (.d2 (m := nf) (n := nf) fun k l => fin (Matrix.diagonal (fun _ => s i) k l)) := by
  refine ⟨fun S => ⟨rfl, fun i => ?_⟩, fun S => ⟨⟨_, rfl, rfl⟩, fun i => ?_⟩,
    fun v => ⟨⟨_, rfl, rfl⟩, fun i => ?_⟩, fun s => ⟨⟨_, rfl, ?_⟩, fun i => ?_⟩⟩
  · simp [stateCovar, fillCovars, NdArray.get, bind, Except.bind, pure, Except.pure]
  · simp [stateCovar, fillCovars, NdArray.get, bind, Except.bind, pure, Except.pure]
  · simp [stateCovar, fillCovars, NdArray.get, bind, Except.bind, pure, Except.pure, npDiag_fin]
  · simp [NdArray.shape, NdArray.size]
  · have : (i : ℕ) < (d1 fun i => fin (s i)).size := by simp [NdArray.size, NdArray.shape]
    simp only [stateCovar, fillCovars, NdArray.get, bind, Except.bind, pure, Except.pure, dif_pos this,
      NdArray.flat, scaledEye_fin]

/-- **C61** (violation, `spherical`) With `_covars_` of shape `(n_components, n_features)`, which is
what the M-step and the initialisation store, `covars_` has `n_components * n_features` matrices and
the one used to sample from state `i` is that of state `i // n_features`. -/
theorem C61_spherical [NeZero nf] (v : Fin nc → ℝ) :
    (∃ a, fillCovars (.d2 fun i (_ : Fin nf) => fin (v i)) .spherical nc nf = .ok a ∧
      a.shape = [nc * nf, nf, nf]) ∧
    ∀ i : Fin nc, stateCovar (.d2 fun i (_ : Fin nf) => fin (v i)) .spherical nc nf i =
      .ok (.d2 (m := nf) (n := nf) fun k l => fin (Matrix.diagonal
        (fun _ => v ⟨i / nf, (Nat.div_le_self _ _).trans_lt i.2⟩) k l)) := by
  refine ⟨⟨_, rfl, ?_⟩, fun i => ?_⟩
  · simp [NdArray.shape, NdArray.size]
  · have : (i : ℕ) < (d2 fun i (_ : Fin nf) => fin (v i)).size := by
      simp only [NdArray.size, NdArray.shape, List.prod_cons, List.prod_nil, mul_one]
      exact i.2.trans_le (Nat.le_mul_of_pos_right _ (NeZero.pos nf))
    simp only [stateCovar, fillCovars, NdArray.get, bind, Except.bind, pure, Except.pure, dif_pos this,
      NdArray.flat, scaledEye_fin]

/-- **C61** (violation) The array that one M-step of a spherical model stores has equal rows of length
`n_features`, so the previous theorem applies to it. -/
theorem C61_stored {α : Type} [FloatLike α] (pr : Gaussian.Prior α nc nf) (cp : Fin nc → Fin nf → α)
    (params : List Char) (hc : 'c' ∈ params) (p : DiagParams α nc nf) (st : DiagStats α nc nf)
    (i : Fin nc) (k l : Fin nf) :
    (mstepSpherical pr cp params p st).covars i k = (mstepSpherical pr cp params p st).covars i l := by
  simp [mstepSpherical, hc, tileMean]

/-- **C61** Two states of variance 1 and 4 in the plane: state 1 is sampled with variance 1. -/
example : stateCovar (.d2 fun (i : Fin 2) (_ : Fin 2) => fin ((![1, 4] : Fin 2 → ℝ) i)) .spherical 2 2 1 =
    .ok (.d2 (m := 2) (n := 2) fun k l => fin (Matrix.diagonal (fun _ => (1 : ℝ)) k l)) := by
  simpa using (C61_spherical (nf := 2) (![1, 4] : Fin 2 → ℝ)).2 1

/-! ## Concrete cases -/

namespace DemoCov

/-- A correlated covariance matrix. -/
def S : Matrix (Fin 2) (Fin 2) ℝ := !![2, 1; 1, 2]

theorem S_posDef : S.PosDef := by
  refine (posDef_iff (by ext i j; fin_cases i <;> fin_cases j <;> rfl)).2 fun x hx => ?_
  have h : qf S x = x 0 ^ 2 + x 1 ^ 2 + (x 0 + x 1) ^ 2 := by
    simp [qf, S, Fin.sum_univ_two]; ring
  rw [h]
  by_contra hle
  refine hx (funext fun i => ?_)
  have h0 := sq_nonneg (x 0)
  have h1 := sq_nonneg (x 1)
  have h2 := sq_nonneg (x 0 + x 1)
  fin_cases i
  · exact pow_eq_zero_iff (two_ne_zero) |>.1 (by show x 0 ^ 2 = 0; linarith)
  · exact pow_eq_zero_iff (two_ne_zero) |>.1 (by show x 1 ^ 2 = 0; linarith)

example (X : List (Fin 2 → ℝ)) := C41_posDef (nc := 2) (fun _ _ => 0) (fun _ => S) (fun _ => S_posDef) X

/-- The rank-one matrix of ones (the default `covars_prior` is a multiple of it). -/
def J : Matrix (Fin 2) (Fin 2) ℝ := Matrix.vecMulVec (fun _ => 1) fun _ => 1

theorem J_singular : J.PosSemidef ∧ ¬ J.PosDef := by
  refine ⟨posSemidef_outer _, fun h => ?_⟩
  have := det_pos h
  simp [J, Matrix.det_fin_two, Matrix.vecMulVec_apply] at this

example (X : List (Fin 2 → ℝ)) := C41_singular (nc := 2) (fun _ _ => 0) (fun _ => J)
  (fun _ => J_singular.1) (fun _ => J_singular.2) X

/-- An indefinite matrix. -/
example (X : List (Fin 1 → ℝ)) : ∃ msg, logDensityFull (nc := 1) (fun _ _ => fin 0)
    (fun _ _ _ => fin (-1)) (X.map row) = .error (.valueError msg) := by
  refine C41_reject (fun _ _ => 0) (fun _ => Matrix.of fun _ _ => -1) 0 rfl (fun h => ?_) (fun h => ?_) X
  · have := det_pos h
    norm_num at this
  · have := det_pos h
    norm_num at this

/-- A positive definite matrix is accepted by the setter. -/
example {eig : Eigvalsh XF} (he : EigvalshSpec eig) :
    setCovars eig .tied 3 (.d2 fun i j => fin (S i j)) = .ok (.d2 fun i j => fin (S i j)) := by
  have hs := isSymm_of_posDef S_posDef
  refine ((C35_tied he).1 S).2 ⟨fun i j => ?_, by rw [symLower_eq hs]; exact S_posDef⟩
  rw [show S i j = S j i from congrFun (congrFun hs j) i, sub_self, abs_zero]
  positivity

/-- Two states in the plane with correlated coordinates. -/
noncomputable def p : FullPoint 2 2 := ⟨Demo.π, Demo.A, ![![0, 0], ![3, 1]], fun _ => S⟩
noncomputable def q : TiedPoint 2 2 := ⟨Demo.π, Demo.A, ![![0, 0], ![3, 1]], S⟩
noncomputable def ss : List (ObsSeq (Fin 2 → ℝ)) :=
  [⟨2, ![![0, 1], ![2, -1], ![5, 0]]⟩, ⟨0, ![![1, 1]]⟩]

theorem chain : ChainModel p.π p.A :=
  ⟨Demo.π_nonneg, Demo.A_nonneg, Demo.stochastic.π_sum.le, fun i => (Demo.stochastic.A_sum i).le⟩

theorem used : EveryStateUsed p.π p.A (fullB p.mu p.S) ss ∧ 0 < p.L ss :=
  everyStateUsed_of_pos (by simp [ss]) DemoCounts.π_pos DemoCounts.A_pos
    fun _ _ => fullB_pos _ (fun _ => S_posDef.posSemidef) _ _

/-- The default prior of `GaussianHMM`: `covars_prior=1e-2` broadcast to all entries,
`covars_weight=1`. -/
example (impl : Impl) (mon : Monitor XF) :=
  C22_gaussian_full (fun _ => 1) (fun _ _ => 1) (by simp) (by simp) ⟨fun _ _ => 0, 0, 1⟩ le_rfl
    (fun _ => (1 / 100 : ℝ) • J) (fun _ => J_singular.1.smul (by norm_num)) ['s', 't', 'm', 'c']
    (by simp) impl 10 ss (by simp [ss]) p (fun _ => S_posDef.posSemidef) chain used.2 (Or.inr used.1) mon

example (impl : Impl) (mon : Monitor XF) :=
  C22_gaussian_tied (fun _ => 1) (fun _ _ => 1) (by simp) (by simp) ⟨fun _ _ => 0, 0, 1⟩ le_rfl
    ((1 / 100 : ℝ) • J) (J_singular.1.smul (by norm_num)) ['s', 't', 'm', 'c']
    (by simp) impl 10 ss (by simp [ss]) q S_posDef.posSemidef chain used.2 (Or.inr used.1) mon

end DemoCov

end Verif
