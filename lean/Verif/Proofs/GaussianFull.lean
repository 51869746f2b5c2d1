import Verif.Proofs.Cholesky
import Mathlib.LinearAlgebra.Matrix.Trace

/-!
# EM for `GaussianHMM` with full and tied covariances
-/

namespace Verif
open FloatLike XF Hmmc Spec
open scoped Matrix Classical

namespace Gaussian
variable {n : ℕ}

/-! ## Determinants and traces -/

theorem log_det_le_trace {M : Matrix (Fin n) (Fin n) ℝ} (h : M.PosDef) :
    Real.log M.det ≤ M.trace - n := by
  obtain ⟨R, _, hR⟩ := exists_factor h
  rw [hR.log_det]
  have h1 : ∑ k, R k k ^ 2 ≤ M.trace := by
    rw [← hR.mul, Matrix.trace]
    refine Finset.sum_le_sum fun k _ => ?_
    rw [Matrix.diag_apply, Matrix.mul_apply]
    simp only [Matrix.transpose_apply, ← pow_two]
    exact Finset.single_le_sum (f := fun j => R k j ^ 2) (fun j _ => sq_nonneg _) (Finset.mem_univ k)
  have h2 : 2 * ∑ k, Real.log (R k k) ≤ ∑ k, (R k k ^ 2 - 1) := by
    rw [Finset.mul_sum]
    refine Finset.sum_le_sum fun k _ => ?_
    have := Real.log_le_sub_one_of_pos (pow_pos (hR.lower.diag k) 2)
    rw [Real.log_pow] at this
    exact_mod_cast this
  rw [Finset.sum_sub_distrib] at h2
  simp only [Finset.sum_const, Finset.card_univ, Fintype.card_fin, nsmul_eq_mul, mul_one] at h2
  linarith

theorem det_pos {A : Matrix (Fin n) (Fin n) ℝ} (h : A.PosDef) : 0 < A.det := by
  obtain ⟨L, _, hL⟩ := exists_factor h
  exact hL.det_pos

/-- The divergence of two centred normal laws is non-negative. -/
theorem log_det_sub_le {A B : Matrix (Fin n) (Fin n) ℝ} (hA : A.PosDef) (hB : B.PosDef) :
    Real.log B.det - Real.log A.det ≤ (A⁻¹ * B).trace - n := by
  obtain ⟨L, _, hL⟩ := exists_factor hA
  have hd : L.det * L.det = A.det := by
    rw [← hL.mul, Matrix.det_mul, Matrix.det_transpose]
  have hLne : L.det ≠ 0 := fun h0 => (det_pos hA).ne' (by rw [← hd, h0, zero_mul])
  have hu : IsUnit L.det := isUnit_iff_ne_zero.2 hLne
  have hM : (L⁻¹ * B * L⁻¹ᵀ).PosDef := by
    have := hB.mul_mul_conjTranspose_same (B := L⁻¹) (by
      rw [Matrix.vecMul_injective_iff_isUnit, Matrix.isUnit_nonsing_inv_iff, Matrix.isUnit_iff_isUnit_det]
      exact hu)
    rwa [Matrix.conjTranspose_eq_transpose_of_trivial] at this
  have h1 := log_det_le_trace hM
  have htr : (L⁻¹ * B * L⁻¹ᵀ).trace = (A⁻¹ * B).trace := by
    rw [Matrix.trace_mul_comm, ← Matrix.mul_assoc, ← hL.mul, Matrix.mul_inv_rev,
      Matrix.transpose_nonsing_inv]
  have hdet : Real.log (L⁻¹ * B * L⁻¹ᵀ).det = Real.log B.det - Real.log A.det := by
    rw [Matrix.det_mul, Matrix.det_mul, Matrix.det_transpose, Matrix.det_nonsing_inv,
      Ring.inverse_eq_inv', ← hd, ← Real.log_div (det_pos hB).ne' (mul_ne_zero hLne hLne)]
    congr 1
    field_simp
  rw [htr, hdet] at h1
  exact h1

/-- `(1/m) S` minimises `m log det Σ + tr(Σ⁻¹ S)`. -/
theorem cov_opt {m : ℝ} (hm : 0 < m) {S V : Matrix (Fin n) (Fin n) ℝ} (hV : V.PosDef)
    (hS : (m⁻¹ • S).PosDef) :
    m * Real.log (m⁻¹ • S).det + ((m⁻¹ • S)⁻¹ * S).trace ≤
      m * Real.log V.det + (V⁻¹ * S).trace := by
  have h1 := mul_le_mul_of_nonneg_left (log_det_sub_le hV hS) hm.le
  have e1 : m * (V⁻¹ * (m⁻¹ • S)).trace = (V⁻¹ * S).trace := by
    rw [Matrix.mul_smul, Matrix.trace_smul, smul_eq_mul, ← mul_assoc, mul_inv_cancel₀ hm.ne', one_mul]
  have e2 : ((m⁻¹ • S)⁻¹ * S).trace = m * n := by
    have hu : IsUnit (m⁻¹ • S).det := isUnit_iff_ne_zero.2 (det_pos hS).ne'
    have : S = m • (m⁻¹ • S) := by rw [smul_smul, mul_inv_cancel₀ hm.ne', one_smul]
    conv_lhs => rw [this]
    rw [smul_smul m, mul_inv_cancel₀ hm.ne', one_smul]
    nth_rewrite 2 [this]
    rw [Matrix.mul_smul, Matrix.nonsing_inv_mul _ hu, Matrix.trace_smul, Matrix.trace_one,
      Fintype.card_fin, smul_eq_mul]
  rw [mul_sub, mul_sub, e1] at h1
  rw [e2]
  linarith

theorem trace_outer (P : Matrix (Fin n) (Fin n) ℝ) (d : Fin n → ℝ) :
    (P * Matrix.vecMulVec d d).trace = d ⬝ᵥ (P *ᵥ d) := by
  rw [Matrix.mul_vecMulVec, Matrix.trace_vecMulVec, dotProduct_comm]

theorem posSemidef_outer (d : Fin n → ℝ) : (Matrix.vecMulVec d d).PosSemidef := by
  have := Matrix.posSemidef_vecMulVec_self_star d
  simpa using this

theorem trace_mul_eq (P M : Matrix (Fin n) (Fin n) ℝ) :
    (P * M).trace = ∑ k, ∑ l, P k l * M l k := by
  simp only [Matrix.trace, Matrix.diag_apply, Matrix.mul_apply]

/-! ## Statistics -/

variable {nc nf : ℕ} {T : Fin nc → ((Fin nf → ℝ) → ℝ) → ℝ}

/-- Expected scatter of state `i` about `ν`. -/
def scat (T : Fin nc → ((Fin nf → ℝ) → ℝ) → ℝ) (i : Fin nc) (ν : Fin nf → ℝ) :
    Matrix (Fin nf) (Fin nf) ℝ :=
  Matrix.of fun k l => T i fun x => (x k - ν k) * (x l - ν l)

theorem scat_apply (hT : PosLin T) (i : Fin nc) (ν : Fin nf → ℝ) (k l : Fin nf) :
    scat T i ν k l = T i (fun x => x k * x l) - T i (fun x => x k) * ν l - T i (fun x => x l) * ν k +
      ν k * ν l * T i fun _ => 1 := by
  have e : (fun x : Fin nf → ℝ => (x k - ν k) * (x l - ν l)) =
      fun x => ((x k * x l - ν l * x k) - ν k * x l) + (ν k * ν l) * 1 := by funext x; ring
  simp only [scat, Matrix.of_apply]
  rw [e, hT.add, hT.sub, hT.sub, hT.smul, hT.smul, hT.smul]
  ring

theorem T_quad (hT : PosLin T) (i : Fin nc) (ν : Fin nf → ℝ) (P : Matrix (Fin nf) (Fin nf) ℝ) :
    T i (fun x => (x - ν) ⬝ᵥ (P *ᵥ (x - ν))) = (P * scat T i ν).trace := by
  have e : (fun x : Fin nf → ℝ => (x - ν) ⬝ᵥ (P *ᵥ (x - ν))) =
      fun x => ∑ k, ∑ l, P k l * ((x l - ν l) * (x k - ν k)) := by
    funext x
    simp only [dotProduct, Matrix.mulVec, Finset.mul_sum, Pi.sub_apply]
    exact Finset.sum_congr rfl fun k _ => Finset.sum_congr rfl fun l _ => by ring
  rw [e, trace_mul_eq, hT.sum]
  refine Finset.sum_congr rfl fun k _ => ?_
  rw [hT.sum]
  refine Finset.sum_congr rfl fun l _ => ?_
  rw [hT.smul]; rfl

theorem scat_psd (hT : PosLin T) (i : Fin nc) (ν : Fin nf → ℝ) : (scat T i ν).PosSemidef := by
  refine Matrix.PosSemidef.of_dotProduct_mulVec_nonneg ?_ fun u => ?_
  · ext k l
    simp only [scat, Matrix.conjTranspose_apply, Matrix.of_apply, star_trivial]
    congr 1
    funext x
    ring
  · have e : star u ⬝ᵥ (scat T i ν *ᵥ u) = T i fun x => (u ⬝ᵥ (x - ν)) ^ 2 := by
      have e1 : star u ⬝ᵥ (scat T i ν *ᵥ u) = (Matrix.vecMulVec u u * scat T i ν).trace := by
        rw [Matrix.trace_mul_comm, trace_outer]; simp
      rw [e1, ← T_quad hT]
      congr 1
      funext x
      rw [Matrix.vecMulVec_mulVec]
      simp only [dotProduct_smul, pow_two]
      rw [dotProduct_comm (x - ν) u]
      rfl
    rw [e]
    exact hT.nonneg i _ fun x => sq_nonneg _

/-- Scatter including the prior, as a function of the mean. -/
noncomputable def SM (g : GaussPrior nc nf) (T : Fin nc → ((Fin nf → ℝ) → ℝ) → ℝ) (i : Fin nc)
    (μ : Fin nf → ℝ) : Matrix (Fin nf) (Fin nf) ℝ :=
  g.mw • Matrix.vecMulVec (μ - g.mp i) (μ - g.mp i) + scat T i μ

theorem SM_psd {g : GaussPrior nc nf} (hmw : 0 ≤ g.mw) (hT : PosLin T) (i : Fin nc) (μ : Fin nf → ℝ) :
    (SM g T i μ).PosSemidef :=
  ((posSemidef_outer _).smul hmw).add (scat_psd hT i μ)

theorem SM_mean {g : GaussPrior nc nf} {ps : List Char} (hm : 'm' ∈ ps) (hT : PosLin T) {i : Fin nc}
    (hN : 0 < g.mw + T i fun _ => 1) (mu : Fin nc → Fin nf → ℝ) (μ : Fin nf → ℝ) :
    SM g T i μ = SM g T i (muNext g ps mu T i) + (g.mw + T i fun _ => 1) •
      Matrix.vecMulVec (μ - muNext g ps mu T i) (μ - muNext g ps mu T i) := by
  ext k l
  simp only [SM, Matrix.add_apply, Matrix.smul_apply, Matrix.vecMulVec_apply, Pi.sub_apply, smul_eq_mul,
    scat_apply hT, muNext, hm, if_true]
  field_simp
  ring

/-- Moving the mean to the weighted average reduces the penalised distance. -/
theorem trace_SM_le {g : GaussPrior nc nf} {ps : List Char} (hm : 'm' ∈ ps) (hT : PosLin T)
    {i : Fin nc} (hN : 0 < g.mw + T i fun _ => 1) (mu : Fin nc → Fin nf → ℝ) (μ : Fin nf → ℝ)
    {P : Matrix (Fin nf) (Fin nf) ℝ} (hP : P.PosSemidef) :
    (P * SM g T i (muNext g ps mu T i)).trace ≤ (P * SM g T i μ).trace := by
  rw [SM_mean hm hT hN mu μ, Matrix.mul_add, Matrix.trace_add, Matrix.mul_smul, Matrix.trace_smul,
    trace_outer]
  have := hP.dotProduct_mulVec_nonneg (μ - muNext g ps mu T i)
  simp only [star_trivial] at this
  have := mul_nonneg hN.le this
  rw [smul_eq_mul]
  linarith

theorem inv_psd {A : Matrix (Fin nf) (Fin nf) ℝ} (h : A.PosDef) : (A⁻¹).PosSemidef :=
  h.inv.posSemidef

theorem T_log_ratio_mvn (hT : PosLin T) (i : Fin nc) {V V' : Matrix (Fin nf) (Fin nf) ℝ}
    (hV : V.PosDef) (hV' : V'.PosDef) (μ μ' : Fin nf → ℝ) :
    T i (fun x => Real.log (mvnPdf μ' V' x / mvnPdf μ V x)) =
      -(1 / 2) * ((T i fun _ => 1) * Real.log V'.det + (V'⁻¹ * scat T i μ').trace) -
        -(1 / 2) * ((T i fun _ => 1) * Real.log V.det + (V⁻¹ * scat T i μ).trace) := by
  have e : (fun x => Real.log (mvnPdf μ' V' x / mvnPdf μ V x)) = fun x =>
      (-(1 / 2)) * ((Real.log V'.det - Real.log V.det) +
        (mahalanobis μ' V' x - mahalanobis μ V x)) := by
    funext x
    rw [Real.log_div (mvnPdf_pos hV' _ _).ne' (mvnPdf_pos hV _ _).ne', log_mvnPdf hV', log_mvnPdf hV]
    ring
  rw [e, hT.smul, hT.add, hT.sub, hT.const i (Real.log V'.det), hT.const i (Real.log V.det), hT.sub]
  unfold mahalanobis
  rw [T_quad hT, T_quad hT]
  ring

/-! ## The update of the program -/

/-- Statistics. -/
noncomputable def statFull (ps : List Char) (T : Fin nc → ((Fin nf → ℝ) → ℝ) → ℝ) :
    FullStats XF nc nf :=
  ⟨fun i => fin (gate ps 'm' (T i fun _ => 1)), fun i k => fin (gate ps 'm' (T i fun x => x k)),
    fun i k l => fin (gate ps 'c' (T i fun x => x k * x l))⟩

theorem accFull_stat [NeZero nc] (ps : List Char) (T : Fin nc → ((Fin nf → ℝ) → ℝ) → ℝ)
    (π : Fin nc → ℝ) (A : Fin nc → Fin nc → ℝ) (b : (Fin nf → ℝ) → Fin nc → ℝ)
    (s : ObsSeq (Fin nf → ℝ)) :
    accFull ps (statFull ps T) (s.rows row) (postRows π A (s.weights b)) =
      statFull ps fun i f => T i f + ∑ t, posterior π A (s.weights b) t i * f (s.x t) := by
  simp only [accFull, statFull, gate, memo_eq, postRows, ObsSeq.rows]
  congr 1
  · by_cases hm : 'm' ∈ ps
    · simp only [hm, if_true]
      funext i
      rw [sumPost_ofFn]; simp
    · simp [hm]
  · by_cases hm : 'm' ∈ ps
    · simp only [hm, if_true]
      funext i k
      rw [dotPost_ofFn _ _ (fun x : Obs XF nf => x k) (fun t => s.x t k) (fun t => rfl)]; simp
    · simp [hm]
  · by_cases hc : 'c' ∈ ps
    · simp only [hc, if_true]
      funext i k l
      rw [dotPost_ofFn _ _ (fun x : Obs XF nf => x k * x l) (fun t => s.x t k * s.x t l)
        (fun t => by simp only [row, fin_mul])]; simp
    · simp [hc]

/-- The mean about which the program computes the scatter: without `'m'` the cross terms are
missing and the scatter is about the origin. -/
noncomputable def centre (ps : List Char) (mu : Fin nc → Fin nf → ℝ) (i : Fin nc) : Fin nf → ℝ :=
  if 'm' ∈ ps then mu i else 0

/-- `c_n` of the program. -/
noncomputable def cn (g : GaussPrior nc nf) (ps : List Char) (mu : Fin nc → Fin nf → ℝ)
    (T : Fin nc → ((Fin nf → ℝ) → ℝ) → ℝ) (i : Fin nc) : Matrix (Fin nf) (Fin nf) ℝ :=
  g.mw • Matrix.vecMulVec (mu i - g.mp i) (mu i - g.mp i) + scat T i (centre ps mu i)

theorem scatter_fin {g : GaussPrior nc nf} {ps : List Char} (hc : 'c' ∈ ps) (hT : PosLin T)
    (mu : Fin nc → Fin nf → ℝ) (i : Fin nc) :
    scatter (prior g) (fun i k => fin (mu i k)) (statFull ps T) i =
      fun k l => fin (cn g ps mu T i k l) := by
  simp only [scatter, prior, statFull, memo_eq, fin_sub, fin_mul, fin_add]
  funext k l
  congr 1
  simp only [cn, Matrix.add_apply, Matrix.smul_apply, Matrix.vecMulVec_apply, Pi.sub_apply, smul_eq_mul,
    scat_apply hT, centre, gate, hc, if_true]
  by_cases hm : 'm' ∈ ps
  · simp only [hm, if_true]; ring
  · simp only [hm, if_false, Pi.zero_apply]; ring

theorem cn_psd {g : GaussPrior nc nf} (hmw : 0 ≤ g.mw) (ps : List Char) (hT : PosLin T)
    (mu : Fin nc → Fin nf → ℝ) (i : Fin nc) : (cn g ps mu T i).PosSemidef :=
  ((posSemidef_outer _).smul hmw).add (scat_psd hT i _)

/-- Means and covariance matrices. -/
structure RFull (nc nf : ℕ) where
  mu : Fin nc → Fin nf → ℝ
  S : Fin nc → Matrix (Fin nf) (Fin nf) ℝ
  psd : ∀ i, (S i).PosSemidef

/-- New covariances, `full`. -/
noncomputable def fullNext (g : GaussPrior nc nf) (cp : Fin nc → Matrix (Fin nf) (Fin nf) ℝ)
    (ps : List Char) (mu : Fin nc → Fin nf → ℝ) (T : Fin nc → ((Fin nf → ℝ) → ℝ) → ℝ) (i : Fin nc) :
    Matrix (Fin nf) (Fin nf) ℝ :=
  (g.cvw + gate ps 'm' (T i fun _ => 1))⁻¹ • (cp i + cn g ps mu T i)

theorem cvw_nonneg (g : GaussPrior nc nf) : 0 ≤ g.cvw := le_max_right _ _

theorem fullNext_psd {g : GaussPrior nc nf} (hmw : 0 ≤ g.mw)
    {cp : Fin nc → Matrix (Fin nf) (Fin nf) ℝ} (hcp : ∀ i, (cp i).PosSemidef) (ps : List Char)
    (hT : PosLin T) (mu : Fin nc → Fin nf → ℝ) (i : Fin nc) : (fullNext g cp ps mu T i).PosSemidef := by
  refine ((hcp i).add (cn_psd hmw ps hT mu i)).smul (inv_nonneg.2 (add_nonneg (cvw_nonneg g) ?_))
  unfold gate
  split
  · exact hT.nonneg i _ fun _ => zero_le_one
  · exact le_rfl

theorem fullB_pos (mu : Fin nc → Fin nf → ℝ) {S : Fin nc → Matrix (Fin nf) (Fin nf) ℝ}
    (h : ∀ i, (S i).PosSemidef) (x : Fin nf → ℝ) (i : Fin nc) : 0 < fullB mu S x i :=
  mvnPdf_pos (posDef_effCov (h i)) _ _

theorem cvw_fin (g : GaussPrior nc nf) :
    stdMax ((prior g).covarsWeight - (ofNat' nf : XF)) 0 = fin g.cvw := by
  simp only [prior, ofNat'_def, fin_sub, zero_def, stdMax_fin]; rfl

variable [NeZero nc]

theorem means_eq {g : GaussPrior nc nf} {ps : List Char} (mu : Fin nc → Fin nf → ℝ)
    (hg : 'm' ∈ ps → ∀ i, g.mw + T i (fun _ => 1) ≠ 0) :
    (if 'm' ∈ ps then mstepMeans (prior g) (statFull ps T).post (statFull ps T).obs else
        fun i k => fin (mu i k)) = fun i k => fin (muNext g ps mu T i k) := by
  by_cases hm : 'm' ∈ ps
  · simp only [hm, if_true, statFull, gate, muNext]
    exact mstepMeans_fin g _ _ (hg hm)
  · simp only [hm, if_false, muNext]

/-- `GaussianHMM(covariance_type="full")`. -/
noncomputable def fullFamily (g : GaussPrior nc nf) (hmw : 0 ≤ g.mw)
    (cp : Fin nc → Matrix (Fin nf) (Fin nf) ℝ) (hcp : ∀ i, (cp i).PosSemidef) (ps : List Char) :
    Family (emissionFull (prior g) fun i k l => fin (cp i k l)) (row (nf := nf)) ps (RFull nc nf) where
  embed q := ⟨fun i k => fin (q.mu i k), fun i k l => fin (q.S i k l)⟩
  b q := fullB q.mu q.S
  b_nonneg q x i := (fullB_pos _ q.psd _ _).le
  lik_eq q X := by
    simp only [emissionFull, logDensityFull_fin q.mu q.S q.psd, Except.map]
    rw [expRows_log _ fun o i => (fullB_pos _ q.psd _ _).le]
  loglik_eq q X := by simp only [emissionFull, logDensityFull_fin q.mu q.S q.psd]
  stat q T := statFull ps T
  emFold_eq q π A ss := by
    refine emFold_of_acc (statFull ps) ?_ ?_ ss
    · simp [emissionFull, FullStats.zero, statFull, gate]
    · intro T s
      simp only [emissionFull, accFull_stat]
  next q T :=
    let mu := muNext g ps q.mu T
    if h : 'c' ∈ ps ∧ ∀ i, (fullNext g cp ps mu T i).PosSemidef then ⟨mu, fullNext g cp ps mu T, h.2⟩
    else ⟨mu, q.S, q.psd⟩
  Good q T := ('m' ∈ ps → ∀ i, g.mw + T i (fun _ => 1) ≠ 0) ∧
    ('c' ∈ ps → ∀ i, g.cvw + gate ps 'm' (T i fun _ => 1) ≠ 0)
  mstep_eq q T hT hg := by
    simp only [emissionFull, mstepFull, means_eq q.mu hg.1, cvw_fin, memo_eq]
    by_cases hc : 'c' ∈ ps
    · rw [dif_pos ⟨hc, fullNext_psd hmw hcp ps hT _⟩]
      simp only [hc, if_true, scatter_fin hc hT]
      congr 1
      funext i k l
      show (fin (cp i k l) + fin _) / (fin g.cvw + fin _) = _
      rw [fin_add, fin_add, fin_div _ _ (hg.2 hc i)]
      congr 1
      simp only [fullNext, Matrix.smul_apply, Matrix.add_apply, smul_eq_mul]
      rw [div_eq_inv_mul]
    · rw [dif_neg fun h => hc h.1]
      simp only [hc, if_false]

theorem full_b_pos {g : GaussPrior nc nf} {hmw : 0 ≤ g.mw} {cp : Fin nc → Matrix (Fin nf) (Fin nf) ℝ}
    {hcp : ∀ i, (cp i).PosSemidef} {ps : List Char} (q : RFull nc nf) (o : Fin nf → ℝ) (i : Fin nc) :
    0 < (fullFamily g hmw cp hcp ps).b q o i := fullB_pos q.mu q.psd o i

theorem full_ac {g : GaussPrior nc nf} {hmw : 0 ≤ g.mw} {cp : Fin nc → Matrix (Fin nf) (Fin nf) ℝ}
    {hcp : ∀ i, (cp i).PosSemidef} {ps : List Char} (ss : List (ObsSeq (Fin nf → ℝ)))
    (r : RParams nc (RFull nc nf)) : (fullFamily g hmw cp hcp ps).Ac ss r :=
  fun _ _ _ _ _ => full_b_pos _ _ _

/-- One update of means and full covariances does not decrease the penalised likelihood, provided
the new covariances are positive definite. -/
theorem full_gains {g : GaussPrior nc nf} {hmw : 0 ≤ g.mw} {cp : Fin nc → Matrix (Fin nf) (Fin nf) ℝ}
    {hcp : ∀ i, (cp i).PosSemidef} {ps : List Char} (hcm : 'c' ∈ ps → 'm' ∈ ps)
    (ss : List (ObsSeq (Fin nf → ℝ))) (r : RParams nc (RFull nc nf)) (h : r.Valid)
    (hN : 'm' ∈ ps → ∀ i, 0 < g.mw + obsStat r.π r.A (fullB r.q.mu r.q.S) ss i fun _ => 1)
    (hN2 : 'c' ∈ ps → ∀ i, 0 < g.cvw + obsStat r.π r.A (fullB r.q.mu r.q.S) ss i fun _ => 1)
    (hpd : 'c' ∈ ps → ∀ i, (((fullFamily g hmw cp hcp ps).next r.q
      (obsStat r.π r.A (fullB r.q.mu r.q.S) ss)).S i).PosDef) :
    (fullFamily g hmw cp hcp ps).Gains ss r (fullLogPrior g cp r.q.mu r.q.S -
      fullLogPrior g cp
        ((fullFamily g hmw cp hcp ps).next r.q (obsStat r.π r.A (fullB r.q.mu r.q.S) ss)).mu
        ((fullFamily g hmw cp hcp ps).next r.q (obsStat r.π r.A (fullB r.q.mu r.q.S) ss)).S) := by
  refine ⟨full_ac ss r, ?_⟩
  set T := obsStat r.π r.A (fullB r.q.mu r.q.S) ss with hTd
  have hT : PosLin T :=
    obsStat_posLin h.π_nonneg h.A_nonneg (fun o i => (fullB_pos _ r.q.psd _ _).le) ss
  rw [emissionGain_eq]
  set q' := (fullFamily g hmw cp hcp ps).next r.q T with hq'
  have hmu : q'.mu = muNext g ps r.q.mu T := by
    rw [hq']; simp only [fullFamily]; split <;> rfl
  unfold fullLogPrior
  rw [← Finset.sum_sub_distrib]
  refine Finset.sum_le_sum fun i _ => ?_
  have hr : T i (fun o => Real.log ((fullFamily g hmw cp hcp ps).b q' o i /
      (fullFamily g hmw cp hcp ps).b r.q o i)) = _ :=
    T_log_ratio_mvn hT i (posDef_effCov (r.q.psd i)) (posDef_effCov (q'.psd i)) (r.q.mu i) (q'.mu i)
  refine le_of_le_of_eq ?_ hr.symm
  -- reduce to one inequality
  have key : (g.cvw + T i fun _ => 1) * Real.log (effCov (q'.S i)).det +
        ((effCov (q'.S i))⁻¹ * (cp i + SM g T i (q'.mu i))).trace ≤
      (g.cvw + T i fun _ => 1) * Real.log (effCov (r.q.S i)).det +
        ((effCov (r.q.S i))⁻¹ * (cp i + SM g T i (r.q.mu i))).trace := by
    have hP := inv_psd (posDef_effCov (r.q.psd i))
    have hmean : ((effCov (r.q.S i))⁻¹ * (cp i + SM g T i (q'.mu i))).trace ≤
        ((effCov (r.q.S i))⁻¹ * (cp i + SM g T i (r.q.mu i))).trace := by
      rw [Matrix.mul_add, Matrix.mul_add, Matrix.trace_add, Matrix.trace_add, hmu]
      by_cases hm : 'm' ∈ ps
      · have := trace_SM_le hm hT (hN hm i) r.q.mu (r.q.mu i) hP
        linarith
      · have : muNext g ps r.q.mu T i = r.q.mu i := by funext k; simp [muNext, hm]
        rw [this]
    by_cases hc : 'c' ∈ ps
    · have hS : q'.S i = (g.cvw + T i fun _ => 1)⁻¹ • (cp i + SM g T i (q'.mu i)) := by
        have : q'.S = fullNext g cp ps (muNext g ps r.q.mu T) T := by
          rw [hq']; simp only [fullFamily]
          rw [dif_pos ⟨hc, fullNext_psd hmw hcp ps hT _⟩]
        rw [this, hmu]
        simp only [fullNext, cn, SM, centre, gate, hcm hc, if_true]
      have heff : effCov (q'.S i) = q'.S i := if_pos (hpd hc i)
      have h1 := cov_opt (hN2 hc i) (posDef_effCov (r.q.psd i)) (S := cp i + SM g T i (q'.mu i))
        (by rw [← hS]; exact hpd hc i)
      rw [← hS, ← heff] at h1
      exact h1.trans (by linarith)
    · have hS : q'.S = r.q.S := by
        rw [hq']; simp only [fullFamily]
        rw [dif_neg fun h => hc h.1]
      rw [hS]
      linarith
  have hsplit : ∀ (V : Matrix (Fin nf) (Fin nf) ℝ) (μ : Fin nf → ℝ),
      (V * (cp i + SM g T i μ)).trace =
        (V * (cp i + g.mw • Matrix.vecMulVec (μ - g.mp i) (μ - g.mp i))).trace +
          (V * scat T i μ).trace := by
    intro V μ
    rw [SM, ← add_assoc, Matrix.mul_add V _ (scat T i μ), Matrix.trace_add]
  rw [hsplit, hsplit] at key
  linarith

end Gaussian
end Verif
