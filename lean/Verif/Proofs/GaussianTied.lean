import Verif.Proofs.GaussianFull

/-!
# EM for `GaussianHMM` with a tied covariance
-/

namespace Verif
open FloatLike XF Hmmc Spec
open scoped Matrix Classical

namespace Gaussian
variable {nc nf : ℕ} {T : Fin nc → ((Fin nf → ℝ) → ℝ) → ℝ}

/-- Means and the common covariance matrix. -/
structure RTied (nc nf : ℕ) where
  mu : Fin nc → Fin nf → ℝ
  S : Matrix (Fin nf) (Fin nf) ℝ
  psd : S.PosSemidef

/-- New covariance, `tied`. -/
noncomputable def tiedNext (g : GaussPrior nc nf) (cp : Matrix (Fin nf) (Fin nf) ℝ)
    (ps : List Char) (mu : Fin nc → Fin nf → ℝ) (T : Fin nc → ((Fin nf → ℝ) → ℝ) → ℝ) :
    Matrix (Fin nf) (Fin nf) ℝ :=
  (g.cvw + ∑ i, gate ps 'm' (T i fun _ => 1))⁻¹ • (cp + ∑ i, cn g ps mu T i)

theorem psd_sum {f : Fin nc → Matrix (Fin nf) (Fin nf) ℝ} (h : ∀ i, (f i).PosSemidef) :
    (∑ i, f i).PosSemidef := Matrix.posSemidef_sum _ fun i _ => h i

theorem gate_nonneg {ps : List Char} {c : Char} {x : ℝ} (h : 0 ≤ x) : 0 ≤ gate ps c x := by
  unfold gate; split
  · exact h
  · exact le_rfl

theorem tiedNext_psd {g : GaussPrior nc nf} (hmw : 0 ≤ g.mw) {cp : Matrix (Fin nf) (Fin nf) ℝ}
    (hcp : cp.PosSemidef) (ps : List Char) (hT : PosLin T) (mu : Fin nc → Fin nf → ℝ) :
    (tiedNext g cp ps mu T).PosSemidef :=
  (hcp.add (psd_sum fun i => cn_psd hmw ps hT mu i)).smul (inv_nonneg.2 (add_nonneg (cvw_nonneg g)
    (Finset.sum_nonneg fun i _ => gate_nonneg (hT.nonneg i _ fun _ => zero_le_one))))

variable [NeZero nc]

/-- `GaussianHMM(covariance_type="tied")`. -/
noncomputable def tiedFamily (g : GaussPrior nc nf) (hmw : 0 ≤ g.mw)
    (cp : Matrix (Fin nf) (Fin nf) ℝ) (hcp : cp.PosSemidef) (ps : List Char) :
    Family (emissionTied (prior g) fun k l => fin (cp k l)) (row (nf := nf)) ps (RTied nc nf) where
  embed q := ⟨fun i k => fin (q.mu i k), fun k l => fin (q.S k l)⟩
  b q := fullB q.mu fun _ => q.S
  b_nonneg q x i := (fullB_pos _ (fun _ => q.psd) _ _).le
  lik_eq q X := by
    simp only [emissionTied, logDensityTied]
    rw [logDensityFull_fin q.mu (fun _ => q.S) (fun _ => q.psd)]
    simp only [Except.map]
    rw [expRows_log _ fun o i => (fullB_pos _ (fun _ => q.psd) _ _).le]
  loglik_eq q X := by
    simp only [emissionTied, logDensityTied]
    rw [logDensityFull_fin q.mu (fun _ => q.S) (fun _ => q.psd)]
  stat q T := statFull ps T
  emFold_eq q π A ss := by
    refine emFold_of_acc (statFull ps) ?_ ?_ ss
    · simp [emissionTied, FullStats.zero, statFull, gate]
    · intro T s
      simp only [emissionTied, accFull_stat]
  next q T :=
    let mu := muNext g ps q.mu T
    if h : 'c' ∈ ps ∧ (tiedNext g cp ps mu T).PosSemidef then ⟨mu, tiedNext g cp ps mu T, h.2⟩
    else ⟨mu, q.S, q.psd⟩
  Good q T := ('m' ∈ ps → ∀ i, g.mw + T i (fun _ => 1) ≠ 0) ∧
    ('c' ∈ ps → g.cvw + ∑ i, gate ps 'm' (T i fun _ => 1) ≠ 0)
  mstep_eq q T hT hg := by
    simp only [emissionTied, mstepTied, means_eq q.mu hg.1, cvw_fin, memo_eq]
    by_cases hc : 'c' ∈ ps
    · rw [dif_pos ⟨hc, tiedNext_psd hmw hcp ps hT _⟩]
      simp only [hc, if_true, scatter_fin hc hT]
      congr 1
      funext k l
      have e1 : sumF (statFull ps T).post = fin (∑ i, gate ps 'm' (T i fun _ => 1)) := by
        simp only [statFull, sumF_fin]
      rw [e1, sumF_fin, fin_add]
      show (fin (cp k l) + fin _) / _ = _
      rw [fin_add, fin_add, fin_div _ _ (hg.2 hc)]
      congr 1
      simp only [tiedNext, Matrix.smul_apply, Matrix.add_apply, smul_eq_mul, Matrix.sum_apply]
      rw [div_eq_inv_mul]
    · rw [dif_neg fun h => hc h.1]
      simp only [hc, if_false]

theorem tied_b_pos {g : GaussPrior nc nf} {hmw : 0 ≤ g.mw} {cp : Matrix (Fin nf) (Fin nf) ℝ}
    {hcp : cp.PosSemidef} {ps : List Char} (q : RTied nc nf) (o : Fin nf → ℝ) (i : Fin nc) :
    0 < (tiedFamily g hmw cp hcp ps).b q o i := fullB_pos q.mu (fun _ => q.psd) o i

theorem tied_ac {g : GaussPrior nc nf} {hmw : 0 ≤ g.mw} {cp : Matrix (Fin nf) (Fin nf) ℝ}
    {hcp : cp.PosSemidef} {ps : List Char} (ss : List (ObsSeq (Fin nf → ℝ)))
    (r : RParams nc (RTied nc nf)) : (tiedFamily g hmw cp hcp ps).Ac ss r :=
  fun _ _ _ _ _ => tied_b_pos _ _ _

/-- One update of means and the tied covariance does not decrease the penalised likelihood,
provided the new covariance is positive definite. -/
theorem tied_gains {g : GaussPrior nc nf} {hmw : 0 ≤ g.mw} {cp : Matrix (Fin nf) (Fin nf) ℝ}
    {hcp : cp.PosSemidef} {ps : List Char} (hcm : 'c' ∈ ps → 'm' ∈ ps)
    (ss : List (ObsSeq (Fin nf → ℝ))) (r : RParams nc (RTied nc nf)) (h : r.Valid)
    (hN : 'm' ∈ ps → ∀ i, 0 < g.mw +
      obsStat r.π r.A (fullB r.q.mu fun _ => r.q.S) ss i fun _ => 1)
    (hN2 : 'c' ∈ ps → 0 < g.cvw + ∑ i, obsStat r.π r.A (fullB r.q.mu fun _ => r.q.S) ss i fun _ => 1)
    (hpd : 'c' ∈ ps → ((tiedFamily g hmw cp hcp ps).next r.q
      (obsStat r.π r.A (fullB r.q.mu fun _ => r.q.S) ss)).S.PosDef) :
    (tiedFamily g hmw cp hcp ps).Gains ss r (tiedLogPrior g cp r.q.mu r.q.S -
      tiedLogPrior g cp
        ((tiedFamily g hmw cp hcp ps).next r.q (obsStat r.π r.A (fullB r.q.mu fun _ => r.q.S) ss)).mu
        ((tiedFamily g hmw cp hcp ps).next r.q
          (obsStat r.π r.A (fullB r.q.mu fun _ => r.q.S) ss)).S) := by
  refine ⟨tied_ac ss r, ?_⟩
  set T := obsStat r.π r.A (fullB r.q.mu fun _ => r.q.S) ss with hTd
  have hT : PosLin T :=
    obsStat_posLin h.π_nonneg h.A_nonneg (fun o i => (fullB_pos _ (fun _ => r.q.psd) _ _).le) ss
  rw [emissionGain_eq]
  set q' := (tiedFamily g hmw cp hcp ps).next r.q T with hq'
  have hmu : q'.mu = muNext g ps r.q.mu T := by
    rw [hq']; simp only [tiedFamily]; split <;> rfl
  have hr : ∀ i, T i (fun o => Real.log ((tiedFamily g hmw cp hcp ps).b q' o i /
      (tiedFamily g hmw cp hcp ps).b r.q o i)) = _ := fun i =>
    T_log_ratio_mvn hT i (posDef_effCov r.q.psd) (posDef_effCov q'.psd) (r.q.mu i) (q'.mu i)
  have key : (g.cvw + ∑ i, T i fun _ => 1) * Real.log (effCov q'.S).det +
        ((effCov q'.S)⁻¹ * (cp + ∑ i, SM g T i (q'.mu i))).trace ≤
      (g.cvw + ∑ i, T i fun _ => 1) * Real.log (effCov r.q.S).det +
        ((effCov r.q.S)⁻¹ * (cp + ∑ i, SM g T i (r.q.mu i))).trace := by
    have hP := inv_psd (posDef_effCov r.q.psd)
    have hmean : ((effCov r.q.S)⁻¹ * (cp + ∑ i, SM g T i (q'.mu i))).trace ≤
        ((effCov r.q.S)⁻¹ * (cp + ∑ i, SM g T i (r.q.mu i))).trace := by
      rw [Matrix.mul_add, Matrix.mul_add, Matrix.trace_add, Matrix.trace_add, hmu, Matrix.mul_sum,
        Matrix.mul_sum, Matrix.trace_sum, Matrix.trace_sum]
      refine add_le_add le_rfl (Finset.sum_le_sum fun i _ => ?_)
      by_cases hm : 'm' ∈ ps
      · exact trace_SM_le hm hT (hN hm i) r.q.mu (r.q.mu i) hP
      · have : muNext g ps r.q.mu T i = r.q.mu i := by funext k; simp [muNext, hm]
        rw [this]
    by_cases hc : 'c' ∈ ps
    · have hS : q'.S = (g.cvw + ∑ i, T i fun _ => 1)⁻¹ • (cp + ∑ i, SM g T i (q'.mu i)) := by
        have : q'.S = tiedNext g cp ps (muNext g ps r.q.mu T) T := by
          rw [hq']; simp only [tiedFamily]
          rw [dif_pos ⟨hc, tiedNext_psd hmw hcp ps hT _⟩]
        rw [this, hmu]
        simp only [tiedNext, cn, SM, centre, gate, hcm hc, if_true]
      have heff : effCov q'.S = q'.S := if_pos (hpd hc)
      have h1 := cov_opt (hN2 hc) (posDef_effCov r.q.psd) (S := cp + ∑ i, SM g T i (q'.mu i))
        (by rw [← hS]; exact hpd hc)
      rw [← hS, ← heff] at h1
      exact h1.trans (by linarith)
    · have hS : q'.S = r.q.S := by
        rw [hq']; simp only [tiedFamily]
        rw [dif_neg fun h => hc h.1]
      rw [hS]
      linarith
  have hsplit : ∀ (V : Matrix (Fin nf) (Fin nf) ℝ) (μ : Fin nc → Fin nf → ℝ),
      (V * (cp + ∑ i, SM g T i (μ i))).trace =
        (V * (cp + ∑ i, g.mw • Matrix.vecMulVec (μ i - g.mp i) (μ i - g.mp i))).trace +
          ∑ i, (V * scat T i (μ i)).trace := by
    intro V μ
    simp only [SM]
    rw [Finset.sum_add_distrib, ← add_assoc, Matrix.mul_add V _ (∑ i, scat T i (μ i)), Matrix.trace_add,
      Matrix.mul_sum, Matrix.trace_sum]
  rw [hsplit, hsplit] at key
  refine le_of_le_of_eq ?_ (Finset.sum_congr rfl fun i _ => (hr i).symm)
  rw [Finset.sum_sub_distrib, ← Finset.mul_sum, ← Finset.mul_sum, Finset.sum_add_distrib,
    Finset.sum_add_distrib, ← Finset.sum_mul, ← Finset.sum_mul]
  unfold tiedLogPrior
  linarith

end Gaussian
end Verif
