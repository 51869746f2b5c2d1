import Verif.Proofs.VGaussianFamily
import Verif.Props.Density

/-!
# The four covariance types of `VariationalGaussianHMM`
-/

set_option autoImplicit false

namespace Verif.VGaussian
open FloatLike XF Hmmc Spec Gaussian
open scoped Matrix Classical

variable {nc nf : ℕ}

theorem mem_needs_m {ps : List Char} (h : 'm' ∈ ps) : 'm' ∈ needs ps := by
  unfold needs; split
  · exact List.mem_cons_self
  · exact h

theorem mem_needs_c {ps : List Char} (h : 'c' ∈ ps) : 'c' ∈ needs ps := by
  unfold needs; rw [if_pos h]
  exact List.mem_cons_of_mem _ h

/-- The scatter in terms of the moments the program uses. -/
theorem CNext_apply {T : Fin nc → ((Fin nf → ℝ) → ℝ) → ℝ} (hT : PosLin T) {p₀ : Fin nc → NW nf}
    (h₀ : ∀ i, (p₀ i).Proper) (i : Fin nc) (k l : Fin nf) :
    CNext p₀ T i k l = (T i fun x => x k * x l) + (p₀ i).β * (p₀ i).m k * (p₀ i).m l -
      βNext p₀ T i * mNext p₀ T i k * mNext p₀ T i l := by
  have hβ := (βNext_pos hT h₀ i).ne'
  have h1 : ∀ k, (T i fun x => x k) = βNext p₀ T i * mNext p₀ T i k - (p₀ i).β * (p₀ i).m k := by
    intro k
    rw [mNext]; field_simp; ring
  have h2 : (T i fun _ => 1) = βNext p₀ T i - (p₀ i).β := by rw [βNext]; ring
  simp only [CNext, Matrix.add_apply, Matrix.smul_apply, Matrix.vecMulVec_apply, Pi.sub_apply, smul_eq_mul,
    scat_apply hT]
  rw [h1 k, h1 l, h2]
  ring

theorem νNext_pos [NeZero nf] {ty : CovType} {T : Fin nc → ((Fin nf → ℝ) → ℝ) → ℝ} (hT : PosLin T)
    {p₀ : Fin nc → NW nf} (h₀ : ∀ i, (p₀ i).Proper) (i : Fin nc) :
    0 < (p₀ i).ν + shareCount ty (fun j => T j fun _ => 1) i := by
  have hn : (1 : ℝ) ≤ nf := by exact_mod_cast NeZero.one_le
  have := shareCount_nonneg ty (T_one_nonneg hT) i
  linarith [(h₀ i).ν]

theorem diagMat_fin (d : Fin nf → ℝ) :
    (diagMat (fun k => fin (d k)) : Sq XF nf) = fun k l => fin (Matrix.diagonal d k l) := by
  funext k l
  simp only [diagMat, Matrix.diagonal_apply, zero_def]
  split <;> rfl

theorem eyeMul_fin (c : ℝ) :
    (eyeMul (fin c) : Sq XF nf) = fun k l => fin ((c • (1 : Matrix (Fin nf) (Fin nf) ℝ)) k l) := by
  funext k l
  simp only [eyeMul, Matrix.smul_apply, Matrix.one_apply, zero_def, one_def, smul_eq_mul]
  split <;> simp

theorem covar_posDef [NeZero nf] {p : NW nf} (hp : p.Proper) : p.covar.PosDef := by
  have hn : (1 : ℝ) ≤ nf := by exact_mod_cast NeZero.one_le
  have hν : 0 < p.ν := by linarith [hp.ν]
  exact hp.S.smul (inv_pos.2 hν)

theorem logDensityFull_covar [NeZero nf] {p : Fin nc → NW nf} (hp : ∀ i, (p i).Proper) (X : List (Fin nf → ℝ)) :
    logDensityFull (fun i k => fin ((p i).m k)) (fun i k l => fin ((p i).covar k l)) (X.map row) =
      .ok (X.map fun x i => (FloatLike.log (fin (mvnPdf (p i).m (p i).covar x)) : XF)) := by
  have hS := fun i => covar_posDef (hp i)
  rw [logDensityFull_fin (fun i => (p i).m) (fun i => (p i).covar) fun i => (hS i).posSemidef]
  congr 1
  refine List.map_congr_left fun x _ => ?_
  funext i
  rw [fullB, effCov, if_pos (hS i)]

theorem loglikDiag_covar {p : Fin nc → NW nf} (hA : ∀ i, (p i).covar = Matrix.diagonal (p i).covar.diag)
    (ht : ∀ i k, tinyVar ≤ (p i).covar k k) (X : List (Fin nf → ℝ)) :
    loglikDiag (⟨fun i k => fin ((p i).m k), fun i k => fin ((p i).covar k k)⟩ : DiagParams XF nc nf) (X.map row) =
      X.map fun x i => (FloatLike.log (fin (mvnPdf (p i).m (p i).covar x)) : XF) := by
  have h0 : ∀ i k, 0 < (p i).covar.diag k := fun i k => tinyVar_pos.trans_le (ht i k)
  rw [C40_diag (fun i => (p i).m) (fun i k => (p i).covar k k) ht]
  refine List.map_congr_left fun x _ => ?_
  funext i
  conv_rhs => rw [hA i, mvnPdf_diagonal _ _ _ (h0 i)]
  exact (lg_pos (Finset.prod_pos fun k _ => normalPdf_pos (h0 i k) _ _)).symm

variable [NeZero nc] [NeZero nf]

/-- `full`. -/
noncomputable def holdsFull : Holds (full (α := XF) (nc := nc) (nf := nf)) .full where
  toDof ν i := fin (ν i)
  toSc S i k l := fin (S i k l)
  stat ps T := statFull (needs ps) T
  zero_eq ps := by simp [full, FullStats.zero, statFull, gate]
  acc_eq ps T π A b s := accFull_stat (needs ps) T π A b s
  post_eq ps T i hm := by simp [full, statFull, gate, mem_needs_m hm]
  obs_eq ps T i k hm := by simp [full, statFull, gate, mem_needs_m hm]
  dofAt_eq p _ i := rfl
  fill_eq p _ i := rfl
  winv_eq sci hsci p _ hp := allOk_ok _ _ fun i => inv_fin hsci (hp i).S
  klw_eq sci hsci p p₀ _ hp _ h₀ := ⟨fun i => klWishart (p i).ν (p i).S (p₀ i).ν (p₀ i).S,
    fun i => Kl.wishart_fin hsci (hp i).S (h₀ i).S (hp i).ν (h₀ i).ν, by simp [klPrecisions]⟩
  density_eq p _ hp _ X := logDensityFull_covar hp X
  update_eq ps hm hc T hT p₀ p _ h₀ := by
    have ed : ∀ i, (fin (p₀ i).ν + (statFull (needs ps) T).post i : XF) =
        fin ((p₀ i).ν + shareCount .full (fun j => T j fun _ => 1) i) := by
      intro i
      simp [statFull, gate, mem_needs_m hm, shareCount]
    have es : ∀ i k l, (fin ((p₀ i).S k l) + (statFull (needs ps) T).obsObs i k l +
        fin (p₀ i).β * fin ((p₀ i).m k) * fin ((p₀ i).m l) -
          fin (βNext p₀ T i) * fin (mNext p₀ T i k) * fin (mNext p₀ T i l) : XF) =
        fin (((p₀ i).S + shareScatter .full (CNext p₀ T) i) k l) := by
      intro i k l
      simp only [statFull, gate, mem_needs_c hc, if_true, fin_add, fin_mul, fin_sub, shareScatter,
        Matrix.add_apply, CNext_apply hT h₀]
      congr 1; ring
    simp only [full, priorOf, memo_eq, ed, es, nwUpdate_eq, hc, if_true]
    congr 2
    funext i k l
    rw [fin_div _ _ (νNext_pos hT h₀ i).ne']
    simp [div_eq_inv_mul]

/-- `tied`. -/
noncomputable def holdsTied : Holds (tied (α := XF) (nc := nc) (nf := nf)) .tied where
  toDof ν := fin (ν 0)
  toSc S k l := fin (S 0 k l)
  stat ps T := statFull (needs ps) T
  zero_eq ps := by simp [tied, FullStats.zero, statFull, gate]
  acc_eq ps T π A b s := accFull_stat (needs ps) T π A b s
  post_eq ps T i hm := by simp [tied, statFull, gate, mem_needs_m hm]
  obs_eq ps T i k hm := by simp [tied, statFull, gate, mem_needs_m hm]
  dofAt_eq p hA i := by
    have : (p i).ν = (p 0).ν := (hA i).1
    simp [tied, this]
  fill_eq p hA i := by
    have : (p i).S = (p 0).S := (hA i).2
    simp [tied, this]
  winv_eq sci hsci p hA hp := by
    have : ∀ i, (p i).S = (p 0).S := fun i => (hA i).2
    simp only [tied, inv_fin hsci (hp 0).S, Except.map, this]
  klw_eq sci hsci p p₀ _ hp _ h₀ := by
    refine ⟨fun i => if i = 0 then klWishart (p 0).ν (p 0).S (p₀ 0).ν (p₀ 0).S else 0, fun i => ?_, ?_⟩
    · simp only [tied, priorOf]
      by_cases h : i = 0
      · subst h
        simp only [Fin.val_zero, if_true]
        exact Kl.wishart_fin hsci (hp 0).S (h₀ 0).S (hp 0).ν (h₀ 0).ν
      · have : i.val ≠ 0 := fun e => h (Fin.ext (by simpa using e))
        simp only [h, this, if_false, zero_def]
    · simp [klPrecisions]
  density_eq p hA hp _ X := by
    have e : (fun _ : Fin nc => fun k l => fin ((p 0).covar k l)) = fun i k l => fin ((p i).covar k l) := by
      funext i k l
      simp only [NW.covar, (hA i).1, (hA i).2]
    show logDensityFull _ (fun _ : Fin nc => fun k l => fin ((p 0).covar k l)) _ = _
    rw [e]
    exact logDensityFull_covar hp X
  update_eq ps hm hc T hT p₀ p _ h₀ := by
    have ed : (fin (p₀ 0).ν + sumF (statFull (needs ps) T).post : XF) =
        fin ((p₀ 0).ν + shareCount .tied (fun j => T j fun _ => 1) 0) := by
      simp [statFull, gate, mem_needs_m hm, shareCount, sumF_fin]
    have es : ∀ k l, (fin ((p₀ 0).S k l) + sumF (fun c => (statFull (needs ps) T).obsObs c k l) +
        sumF (fun c => fin (p₀ c).β * fin ((p₀ c).m k) * fin ((p₀ c).m l)) -
          sumF (fun c => fin (βNext p₀ T c) * fin (mNext p₀ T c k) * fin (mNext p₀ T c l)) : XF) =
        fin (((p₀ 0).S + shareScatter .tied (CNext p₀ T) 0) k l) := by
      intro k l
      simp only [statFull, gate, mem_needs_c hc, if_true, fin_add, fin_mul, sumF_fin, fin_sub, shareScatter,
        Matrix.add_apply, Matrix.sum_apply, CNext_apply hT h₀, Finset.sum_sub_distrib, Finset.sum_add_distrib]
      congr 1; ring
    simp only [tied, priorOf, memo_eq, ed, es, nwUpdate_eq, hc, if_true]
    congr 2
    funext k l
    rw [fin_div _ _ (νNext_pos hT h₀ 0).ne']
    simp [div_eq_inv_mul]

/-- `diag`. -/
noncomputable def holdsDiag : Holds (diag (α := XF) (nc := nc) (nf := nf)) .diag where
  toDof ν i := fin (ν i)
  toSc S i k := fin (S i k k)
  stat ps T := statDiag (needs ps) T
  zero_eq ps := by simp [diag, DiagStats.zero, statDiag, gate]
  acc_eq ps T π A b s := accDiag_stat (needs ps) T π A b s
  post_eq ps T i hm := by simp [diag, statDiag, gate, mem_needs_m hm]
  obs_eq ps T i k hm := by simp [diag, statDiag, gate, mem_needs_m hm]
  dofAt_eq p _ i := rfl
  fill_eq p hA i := by
    have h : (p i).S = Matrix.diagonal (p i).S.diag := hA i
    conv_rhs => rw [h]
    exact diagMat_fin _
  winv_eq sci hsci p hA hp := by
    refine allOk_ok _ _ fun i => ?_
    have h : (p i).S = Matrix.diagonal (p i).S.diag := hA i
    have e : (diagMat (fun k => fin ((p i).S k k)) : Sq XF nf) = fun k l => fin ((p i).S k l) := by
      conv_rhs => rw [h]
      exact diagMat_fin _
    rw [e]
    exact inv_fin hsci (hp i).S
  klw_eq sci hsci p p₀ hA hp hA₀ h₀ := by
    refine ⟨fun i => klWishart (p i).ν (p i).S (p₀ i).ν (p₀ i).S, fun i => ?_, by simp [klPrecisions]⟩
    have e : ∀ {p : Fin nc → NW nf}, Allowed .diag p →
        (diagMat (fun k => fin ((p i).S k k)) : Sq XF nf) = fun k l => fin ((p i).S k l) := by
      intro p hA
      have h : (p i).S = Matrix.diagonal (p i).S.diag := hA i
      conv_rhs => rw [h]
      exact diagMat_fin _
    simp only [diag, priorOf, e hA, e hA₀]
    exact Kl.wishart_fin hsci (hp i).S (h₀ i).S (hp i).ν (h₀ i).ν
  density_eq p hA _ ht X := by
    refine congrArg Except.ok (loglikDiag_covar (fun i => ?_) (ht (Or.inl rfl)) X)
    have h : (p i).S = Matrix.diagonal (p i).S.diag := hA i
    rw [NW.covar]
    conv_lhs => rw [h]
    rw [← Matrix.diagonal_smul]
    rfl
  update_eq ps hm hc T hT p₀ p _ h₀ := by
    have ed : ∀ i, (fin (p₀ i).ν + (statDiag (needs ps) T).post i : XF) =
        fin ((p₀ i).ν + shareCount .diag (fun j => T j fun _ => 1) i) := by
      intro i
      simp [statDiag, gate, mem_needs_m hm, shareCount]
    have es : ∀ i k, (fin ((p₀ i).S k k) + (statDiag (needs ps) T).obs2 i k +
        fin (p₀ i).β * fin ((p₀ i).m k) * fin ((p₀ i).m k) -
          fin (βNext p₀ T i) * fin (mNext p₀ T i k) * fin (mNext p₀ T i k) : XF) =
        fin (((p₀ i).S + shareScatter .diag (CNext p₀ T) i) k k) := by
      intro i k
      simp only [statDiag, gate, mem_needs_c hc, if_true, fin_add, fin_mul, fin_sub, shareScatter,
        Matrix.add_apply, Matrix.diagonal_apply_eq, Matrix.diag_apply, CNext_apply hT h₀, pow_two]
      congr 1; ring
    simp only [diag, priorOf, memo_eq, ed, es, nwUpdate_eq, hc, if_true]
    congr 2
    funext i k
    rw [fin_div _ _ (νNext_pos hT h₀ i).ne']
    simp [div_eq_inv_mul]

theorem scalar_eq {S : Matrix (Fin nf) (Fin nf) ℝ} (h : ∃ c : ℝ, S = c • (1 : Matrix (Fin nf) (Fin nf) ℝ)) :
    (eyeMul (fin (S 0 0)) : Sq XF nf) = fun k l => fin (S k l) := by
  obtain ⟨c, rfl⟩ := h
  rw [eyeMul_fin]
  simp

/-- `spherical`. -/
noncomputable def holdsSpherical : Holds (spherical (α := XF) (nc := nc) (nf := nf)) .spherical where
  toDof ν i := fin (ν i)
  toSc S i := fin (S i 0 0)
  stat ps T := statDiag (needs ps) T
  zero_eq ps := by simp [spherical, DiagStats.zero, statDiag, gate]
  acc_eq ps T π A b s := accDiag_stat (needs ps) T π A b s
  post_eq ps T i hm := by simp [spherical, statDiag, gate, mem_needs_m hm]
  obs_eq ps T i k hm := by simp [spherical, statDiag, gate, mem_needs_m hm]
  dofAt_eq p _ i := rfl
  fill_eq p hA i := scalar_eq (hA i)
  winv_eq sci hsci p hA hp := by
    refine allOk_ok _ _ fun i => ?_
    rw [scalar_eq (hA i)]
    exact inv_fin hsci (hp i).S
  klw_eq sci hsci p p₀ hA hp hA₀ h₀ := by
    refine ⟨fun i => klWishart (p i).ν (p i).S (p₀ i).ν (p₀ i).S, fun i => ?_, by simp [klPrecisions]⟩
    simp only [spherical, priorOf, scalar_eq (hA i), scalar_eq (hA₀ i)]
    exact Kl.wishart_fin hsci (hp i).S (h₀ i).S (hp i).ν (h₀ i).ν
  density_eq p hA _ ht X := by
    have hc : ∀ i, ∃ c : ℝ, (p i).covar = c • (1 : Matrix (Fin nf) (Fin nf) ℝ) := fun i => by
      obtain ⟨c, h⟩ := hA i
      exact ⟨(p i).ν⁻¹ * c, by rw [NW.covar, h, smul_smul]⟩
    have e : ∀ i k, (p i).covar k k = (p i).covar 0 0 := fun i k => by
      obtain ⟨c, h⟩ := hc i
      simp [h]
    rw [← loglikDiag_covar (fun i => ?_) (ht (Or.inr rfl)) X]
    · simp only [spherical, loglikDiag, logDensitySpherical, memo_eq, e]
    · obtain ⟨c, h⟩ := hc i
      rw [h]
      ext k l
      by_cases hkl : k = l <;> simp [Matrix.diagonal_apply, Matrix.one_apply, hkl]
  update_eq ps hm hc T hT p₀ p _ h₀ := by
    have hn : (nf : ℝ) ≠ 0 := by exact_mod_cast NeZero.ne nf
    have ed : ∀ i, (fin (p₀ i).ν + (statDiag (needs ps) T).post i : XF) =
        fin ((p₀ i).ν + shareCount .spherical (fun j => T j fun _ => 1) i) := by
      intro i
      simp [statDiag, gate, mem_needs_m hm, shareCount]
    have es : ∀ i, (fin ((p₀ i).S 0 0) + sumF (fun k => (statDiag (needs ps) T).obs2 i k +
        fin (p₀ i).β * fin ((p₀ i).m k) * fin ((p₀ i).m k) -
          fin (βNext p₀ T i) * fin (mNext p₀ T i k) * fin (mNext p₀ T i k)) / ofNat' nf : XF) =
        fin (((p₀ i).S + shareScatter .spherical (CNext p₀ T) i) 0 0) := by
      intro i
      have e : ∀ k, (statDiag (needs ps) T).obs2 i k + fin (p₀ i).β * fin ((p₀ i).m k) * fin ((p₀ i).m k) -
          fin (βNext p₀ T i) * fin (mNext p₀ T i k) * fin (mNext p₀ T i k) = (fin (CNext p₀ T i k k) : XF) := by
        intro k
        simp only [statDiag, gate, mem_needs_c hc, if_true, fin_add, fin_mul, fin_sub, CNext_apply hT h₀, pow_two]
      simp only [e, sumF_fin, ofNat'_def]
      rw [fin_div _ _ hn, fin_add]
      congr 1
      simp [shareScatter, Matrix.trace]
    simp only [spherical, priorOf, memo_eq, ed, es, nwUpdate_eq, hc, if_true]
    congr 2
    funext i
    rw [fin_div _ _ (νNext_pos hT h₀ i).ne']
    simp [div_eq_inv_mul]

end Verif.VGaussian
