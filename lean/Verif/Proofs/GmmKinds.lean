import Verif.Proofs.Gmm
import Verif.Spec.GmmModel

/-!
# The four covariance types of `GMMHMM`
-/

namespace Verif
open FloatLike XF Hmmc Spec Gaussian
open scoped Matrix Classical

namespace Gmm
variable {nc nm nf : ℕ}

/-- Squared distance to `ν`. -/
def dist2 (ν x : Fin nf → ℝ) : ℝ := ∑ l, (x l - ν l) ^ 2

theorem norm2_fin (v : Fin nf → ℝ) : norm2 (fun l => fin (v l)) = fin (∑ l, v l ^ 2) := by
  simp only [norm2, fin_mul, sumF_fin, pow_two]

/-! ## Denominators -/

noncomputable def sphDen (nf : ℕ) (a N : ℝ) : ℝ := nf * (N + 1) + 2 * (a + 1)
def diagDen (a N : ℝ) : ℝ := N + 1 + 2 * (a + 1)
def fullDen (nf : ℕ) (nu N : ℝ) : ℝ := N + 1 + nu + nf + 1
def tiedDen (nm nf : ℕ) (nu N : ℝ) : ℝ := N + nm + nu + nf + 1

/-! ## spherical -/

/-- `covariance_type="spherical"`. -/
noncomputable def rSpherical (a be : Mix ℝ nc nm) :
    RKind (spherical (nf := nf) (fun i k => fin (a i k)) fun i k => fin (be i k)) (Mix ℝ nc nm) where
  embed v := fun i k => fin (v i k)
  dens := sphericalComp
  dens_pos v mu x i k := diagB_pos _ _ _ _
  logDens_eq v mu i X := by
    simp only [spherical, List.map_map, memo_eq]
    congr 1
    refine List.map_congr_left fun x _ => ?_
    funext k
    exact logDensityDiag_fin (mu i k) (fun _ => v i k) x
  stat mu T := fun i k => fin (T i k (dist2 (mu i k)))
  zero_eq mu := by simp only [spherical, zero_def]
  acc_eq mu T m p x := by
    simp only [spherical, memo_eq]
    funext i k
    rw [dotMix_ofFn p _ (fun x : Obs XF nf => norm2 fun l => x l - fin (mu i k l))
      (fun t => dist2 (mu i k) (x t)) (fun t => by simp only [row, fin_sub, norm2_fin, dist2]), fin_add]
  next lam cm mu T N v := fun i k =>
    (lam i k * ∑ l, cm i k l ^ 2 + 2 * be i k + T i k (dist2 (mu i k))) /
      sphDen nf (a i k) (T i k fun _ => 1)
  Good lam cm mu T N := ∀ i k, sphDen nf (a i k) (T i k fun _ => 1) ≠ 0
  upd_eq lam cm mu T N v hg := by
    simp only [spherical, memo_eq, norm2_fin, ofNat'_def, one_def, fin_add, fin_mul]
    funext i k
    rw [fin_div _ _ (by have := hg i k; unfold sphDen at this; push_cast; exact this)]
    congr 1

/-! ## diag -/

/-- `covariance_type="diag"`. -/
noncomputable def rDiag (a be : Means ℝ nc nm nf) :
    RKind (diag (fun i k l => fin (a i k l)) fun i k l => fin (be i k l)) (Means ℝ nc nm nf) where
  embed v := fun i k l => fin (v i k l)
  dens := diagComp
  dens_pos v mu x i k := diagB_pos _ _ _ _
  logDens_eq v mu i X := by
    simp only [diag, List.map_map, memo_eq]
    congr 1
    refine List.map_congr_left fun x _ => ?_
    funext k
    exact logDensityDiag_fin (mu i k) (v i k) x
  stat mu T := fun i k l => fin (T i k fun x => (x l - mu i k l) ^ 2)
  zero_eq mu := by simp only [diag, zero_def]
  acc_eq mu T m p x := by
    simp only [diag, memo_eq]
    funext i k l
    rw [dotMix_ofFn p _ (fun x : Obs XF nf => sq (x l - fin (mu i k l)))
      (fun t => (x t l - mu i k l) ^ 2) (fun t => by simp only [row, fin_sub, sq_fin]), fin_add]
  next lam cm mu T N v := fun i k l =>
    (lam i k * cm i k l ^ 2 + 2 * be i k l + T i k fun x => (x l - mu i k l) ^ 2) /
      diagDen (a i k l) (T i k fun _ => 1)
  Good lam cm mu T N := ∀ i k l, diagDen (a i k l) (T i k fun _ => 1) ≠ 0
  upd_eq lam cm mu T N v hg := by
    simp only [diag, memo_eq, sq_fin, ofNat'_def, one_def, fin_add, fin_mul]
    funext i k l
    rw [fin_div _ _ (by have := hg i k l; unfold diagDen at this; push_cast; exact this)]
    congr 1

/-! ## full -/

/-- New covariances, `full`. -/
noncomputable def fullCov (psi : Fin nc → Fin nm → Matrix (Fin nf) (Fin nf) ℝ) (nu : Mix ℝ nc nm)
    (lam : Mix ℝ nc nm) (cm mu : Means ℝ nc nm nf) (T : Fun2 nc nm nf) (i : Fin nc) (k : Fin nm) :
    Matrix (Fin nf) (Fin nf) ℝ :=
  (fullDen nf (nu i k) (T i k fun _ => 1))⁻¹ •
    ((psi i k)ᵀ + lam i k • Matrix.vecMulVec (cm i k) (cm i k) + scat (T i) k (mu i k))

/-- `covariance_type="full"`. -/
noncomputable def rFull (psi : Fin nc → Fin nm → Matrix (Fin nf) (Fin nf) ℝ) (nu : Mix ℝ nc nm) :
    RKind (full (fun i k l m => fin (psi i k l m)) fun i k => fin (nu i k)) (PsdMix nc nm nf) where
  embed v := fun i k l m => fin (v.S i k l m)
  dens := fullComp
  dens_pos v mu x i k := fullB_pos _ (v.psd i) _ _
  logDens_eq v mu i X := by simp only [full, logDensityFull_fin (mu i) (v.S i) (v.psd i), fullComp]
  stat mu T := fun i k l m => fin (scat (T i) k (mu i k) l m)
  zero_eq mu := by simp only [full, zero_def, scat, Matrix.of_apply]
  acc_eq mu T m p x := by
    simp only [full, memo_eq]
    funext i k l r
    rw [dotMix_ofFn p _ (fun x : Obs XF nf => (x l - fin (mu i k l)) * (x r - fin (mu i k r)))
      (fun t => (x t l - mu i k l) * (x t r - mu i k r)) (fun t => by simp only [row, fin_sub, fin_mul]),
      fin_add]
    rfl
  next lam cm mu T N v :=
    if h : ∀ i k, (fullCov psi nu lam cm mu T i k).PosSemidef then ⟨fullCov psi nu lam cm mu T, h⟩ else v
  Good lam cm mu T N := (∀ i k, fullDen nf (nu i k) (T i k fun _ => 1) ≠ 0) ∧
    ∀ i k, (fullCov psi nu lam cm mu T i k).PosSemidef
  upd_eq lam cm mu T N v hg := by
    rw [dif_pos hg.2]
    simp only [full, memo_eq, ofNat'_def, one_def, fin_add, fin_mul]
    funext i k l m
    rw [fin_div _ _ (by have := hg.1 i k; unfold fullDen at this; exact this)]
    congr 1
    simp only [fullCov, Matrix.smul_apply, Matrix.add_apply, smul_eq_mul, Matrix.transpose_apply,
      Matrix.vecMulVec_apply]
    rw [div_eq_inv_mul]
    rfl

/-! ## tied -/

/-- New covariances, `tied`. -/
noncomputable def tiedCov (psi : Fin nc → Matrix (Fin nf) (Fin nf) ℝ) (nu : Fin nc → ℝ)
    (lam : Mix ℝ nc nm) (cm mu : Means ℝ nc nm nf) (T : Fun2 nc nm nf) (N : Fin nc → ℝ) (i : Fin nc) :
    Matrix (Fin nf) (Fin nf) ℝ :=
  (tiedDen nm nf (nu i) (N i))⁻¹ •
    (∑ k, lam i k • Matrix.vecMulVec (cm i k) (cm i k) + (psi i)ᵀ + ∑ k, scat (T i) k (mu i k))

/-- `covariance_type="tied"`. -/
noncomputable def rTied (psi : Fin nc → Matrix (Fin nf) (Fin nf) ℝ) (nu : Fin nc → ℝ) :
    RKind (tied (nm := nm) (fun i l m => fin (psi i l m)) fun i => fin (nu i)) (PsdState nc nf) where
  embed v := fun i l m => fin (v.S i l m)
  dens := tiedComp
  dens_pos v mu x i k := fullB_pos _ (fun _ => v.psd i) _ _
  logDens_eq v mu i X := by
    simp only [tied, logDensityTied]
    exact logDensityFull_fin (mu i) (fun _ => v.S i) (fun _ => v.psd i) X
  stat mu T := fun i l m => fin (∑ k, scat (T i) k (mu i k) l m)
  zero_eq mu := by
    simp only [tied, zero_def, scat, Matrix.of_apply, Finset.sum_const_zero]
  acc_eq mu T m p x := by
    simp only [tied, memo_eq]
    funext i l r
    have : ∀ k, dotMix (List.ofFn fun t i k => fin (p t i k)) (List.ofFn fun t => row (x t))
        (fun x : Obs XF nf => (x l - fin (mu i k l)) * (x r - fin (mu i k r))) i k =
        fin (∑ t, p t i k * ((x t l - mu i k l) * (x t r - mu i k r))) := fun k =>
      dotMix_ofFn p _ (fun x : Obs XF nf => (x l - fin (mu i k l)) * (x r - fin (mu i k r)))
        (fun t => (x t l - mu i k l) * (x t r - mu i k r))
        (fun t => by simp only [row, fin_sub, fin_mul]) i k
    simp only [this, sumF_fin, fin_add]
    congr 1
    rw [← Finset.sum_add_distrib]
    rfl
  next lam cm mu T N v :=
    if h : ∀ i, (tiedCov psi nu lam cm mu T N i).PosSemidef then ⟨tiedCov psi nu lam cm mu T N, h⟩ else v
  Good lam cm mu T N := (∀ i, tiedDen nm nf (nu i) (N i) ≠ 0) ∧
    ∀ i, (tiedCov psi nu lam cm mu T N i).PosSemidef
  upd_eq lam cm mu T N v hg := by
    rw [dif_pos hg.2]
    simp only [tied, memo_eq, ofNat'_def, one_def, fin_add, fin_mul, sumF_fin]
    funext i l m
    rw [fin_div _ _ (by have := hg.1 i; unfold tiedDen at this; exact this)]
    congr 1
    simp only [tiedCov, Matrix.smul_apply, Matrix.add_apply, smul_eq_mul, Matrix.transpose_apply,
      Matrix.vecMulVec_apply, Matrix.sum_apply]
    rw [div_eq_inv_mul]
    rfl

end Gmm
end Verif
