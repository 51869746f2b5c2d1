import Verif.Proofs.Copies
import Verif.Props.RecodeGmm

/-!
# C97: a data set repeated, `GMMHMM`
-/

set_option autoImplicit false

namespace Verif
open FloatLike XF Hmmc Spec Gaussian Gmm
open scoped Classical Matrix

variable {nc nm nf : ℕ} {C V : Type}

/-- The claim C97 for `GMMHMM` with default priors on weights, means and covariances. -/
def Spec.FitCopies [NeZero nc] [NeZero nm] (k : ℕ) (K : Kind XF nc nm nf C) (embed : V → C)
    (dens : CompDens nc nm nf V) : Prop :=
  ∀ (sp : Fin nc → ℝ) (tp : Fin nc → Fin nc → ℝ) (params : List Char) (impl : Impl) (nIter : ℕ)
    (ss : List (ObsSeq (Fin nf → ℝ))) (p : GmmPoint nc nm nf V) (mon mon' : Monitor XF), Coarser k mon' mon →
    (∀ i, 1 ≤ sp i) → (∀ i j, 1 ≤ tp i j) → ss ≠ [] → ChainModel p.π p.A → MixWeights p.w →
    0 < p.L dens ss → EveryStateUsed p.π p.A (p.b dens) ss →
    CopiedFit k
      (gmmFit K (fun i => stronger k 1 (sp i)) (fun i j => stronger k 1 (tp i j)) params impl nIter (copies k ss)
        (theta embed p) mon')
      (gmmFit K sp tp params impl nIter ss (theta embed p) mon)

namespace Gmm
variable {K : Kind XF nc nm nf C} {k : ℕ}

/-- The new covariances of a covariance type do not change when all expected counts are multiplied. -/
def RKind.ScaleFree (R : RKind K V) (k : ℕ) : Prop :=
  ∀ (cm mu : Means ℝ nc nm nf) (T : Fun2 nc nm nf) N v, (∀ i, PosLin (T i)) →
    R.Good (fun _ _ => 0) cm mu T N →
    R.next (fun _ _ => 0) cm mu (fun i c f => k * T i c f) (fun i => k * N i) v = R.next (fun _ _ => 0) cm mu T N v

variable {R : RKind K V}

theorem split_copies (q : RGmm nc nm nf V) (T : Fin nc → ((Fin nf → ℝ) → ℝ) → ℝ) :
    R.split q (fun i f => k * T i f) = fun i c f => k * R.split q T i c f := rfl

theorem Live.copies (hk : 0 < k) {q : RGmm nc nm nf V} {T : Fin nc → ((Fin nf → ℝ) → ℝ) → ℝ}
    (hl : Live R q T) : Live R q (fun i f => k * T i f) :=
  ⟨hl.w_pos, hl.w_sum, fun i c => mul_pos (Nat.cast_pos.2 hk) (hl.count i c)⟩

theorem copies_posLin {ι : ℕ} {T : Fin ι → ((Fin nf → ℝ) → ℝ) → ℝ} (hT : PosLin T) :
    PosLin (fun i f => (k : ℝ) * T i f) :=
  ⟨fun i f hf => mul_nonneg (Nat.cast_nonneg k) (hT.nonneg i f hf), fun i f g => by rw [hT.add, mul_add],
    fun i c f => by rw [hT.smul]; ring⟩

variable [NeZero nc] [NeZero nm]

theorem gmm_copies (hk : 0 < k) (h : R.ScaleFree k) {ps : List Char} (hreg : Regular R ps) :
    Family.Copies k (Live R) (family R GmmPrior.flat ps) (family R GmmPrior.flat ps) where
  embed := rfl
  b := rfl
  next q T hT hl := by
    have hk' : (k : ℝ) ≠ 0 := Nat.cast_ne_zero.2 hk.ne'
    have hl' := hl.copies hk
    have hT' : PosLin (fun i f => (k : ℝ) * T i f) := copies_posLin hT
    have emu : R.muNext GmmPrior.flat ps q (fun i f => k * T i f) = R.muNext GmmPrior.flat ps q T := by
      funext i c
      rw [hl.muNext_eq hT, hl'.muNext_eq hT', split_copies]
      funext l
      unfold Gaussian.muNext
      simp only [g0, zero_mul, zero_add]
      rw [mul_div_mul_left _ _ hk']
    refine RGmm.ext' ?_ ?_ ?_
    · refine (hl'.next_w hT').trans (Eq.trans ?_ (hl.next_w hT).symm)
      funext i c
      rw [wNext_flat, wNext_flat, split_copies, mul_div_mul_left _ _ hk']
    · exact next_mu.trans (emu.trans next_mu.symm)
    · refine next_v.trans (Eq.trans ?_ next_v.symm)
      unfold RKind.vNext
      by_cases hc : 'c' ∈ ps
      · rw [if_pos hc, if_pos hc, emu, split_copies]
        exact h _ q.mu _ _ q.v (split_posLin R q hT) (hreg q T hT hl hc)
      · rw [if_neg hc, if_neg hc]
  good q T hT hl := (hl.copies hk).good hreg (copies_posLin hT)

theorem fit_copies (hk : 0 < k) (h : R.ScaleFree k) (hreg : ∀ ps, Regular R ps) : FitCopies k K R.embed R.dens := by
  intro sp tp params impl nIter ss p mon mon' hm hsp htp hne hc hw hL hu
  exact (gmm_copies hk h (hreg params)).fit_eq hk (c := ⟨sp, tp, impl, nIter⟩)
    (inv_closed (hreg params) ⟨sp, tp, impl, nIter⟩ ss (fun _ => hsp) fun _ => htp)
    (fun r hr _ => hr.live) hne (fun _ => hsp) (inv_start hc hw hL hu) hm

omit [NeZero nc] [NeZero nm] in
theorem scaleFree_diag (hk : 0 < k) : (dDiag (nc := nc) (nm := nm) (nf := nf)).ScaleFree k := by
  have hk' : (k : ℝ) ≠ 0 := Nat.cast_ne_zero.2 hk.ne'
  intro cm mu T N v hT hg
  funext i c l
  show (_ : ℝ) / diagDen _ _ = _ / diagDen _ _
  rw [diagDen_default, diagDen_default]
  simp only [zero_mul, mul_zero, add_zero, zero_add]
  exact mul_div_mul_left _ _ hk'

omit [NeZero nc] [NeZero nm] in
theorem scaleFree_spherical (hk : 0 < k) : (dSpherical (nc := nc) (nm := nm) (nf := nm)).ScaleFree k := by
  have hk' : (k : ℝ) ≠ 0 := Nat.cast_ne_zero.2 hk.ne'
  intro cm mu T N v hT hg
  funext i c
  show (_ : ℝ) / sphDen _ _ _ = _ / sphDen _ _ _
  rw [sphDen_default, sphDen_default]
  simp only [zero_mul, mul_zero, add_zero, zero_add, add_sub_cancel_right]
  rw [mul_left_comm]
  exact mul_div_mul_left _ _ hk'

omit [NeZero nc] in
theorem scaleFree_full (hk : 0 < k) : (dFull (nc := nc) (nm := nm) (nf := nf)).ScaleFree k := by
  have hk' : (k : ℝ) ≠ 0 := Nat.cast_ne_zero.2 hk.ne'
  intro cm mu T N v hT hg
  have e : fullCov (fun _ _ => (0 : Matrix (Fin nf) (Fin nf) ℝ)) (fun _ _ => -(1 + (nf : ℝ) + 1)) (fun _ _ => 0) cm
      mu (fun i c f => k * T i c f) = fullCov (fun _ _ => 0) (fun _ _ => -(1 + (nf : ℝ) + 1)) (fun _ _ => 0) cm mu T := by
    funext i c
    rw [fullCov_default _ fun _ _ => rfl, fullCov_default _ fun _ _ => rfl]
    have e1 : scat (fun c f => (k : ℝ) * T i c f) c (mu i c) = (k : ℝ) • scat (T i) c (mu i c) := by ext a b; rfl
    rw [e1, smul_smul, mul_inv_rev, mul_assoc, inv_mul_cancel₀ hk', mul_one]
  refine psdMix_ext ((rFull_next fun i c => ?_).trans (Eq.trans ?_ (rFull_next hg.2).symm))
  · rw [e]; exact hg.2 i c
  · exact e

omit [NeZero nc] in
theorem scaleFree_tied (hk : 0 < k) : (dTied (nc := nc) (nm := nm) (nf := nf)).ScaleFree k := by
  have hk' : (k : ℝ) ≠ 0 := Nat.cast_ne_zero.2 hk.ne'
  intro cm mu T N v hT hg
  have e : tiedCov (fun _ => (0 : Matrix (Fin nf) (Fin nf) ℝ)) (fun _ => -((nm : ℝ) + nf + 1)) (fun _ _ => 0) cm
      mu (fun i c f => k * T i c f) (fun i => k * N i) =
      tiedCov (fun _ => 0) (fun _ => -((nm : ℝ) + nf + 1)) (fun _ _ => 0) cm mu T N := by
    funext i
    rw [tiedCov_default _ fun _ _ => rfl, tiedCov_default _ fun _ _ => rfl]
    have e1 : ∀ c, scat (fun c f => (k : ℝ) * T i c f) c (mu i c) = (k : ℝ) • scat (T i) c (mu i c) := by
      intro c; ext a b; rfl
    simp only [e1]
    rw [← Finset.smul_sum, smul_smul, mul_inv_rev, mul_assoc, inv_mul_cancel₀ hk', mul_one]
  refine psdState_ext ((rTied_next fun i => ?_).trans (Eq.trans ?_ (rTied_next hg.2).symm))
  · rw [e]; exact hg.2 i
  · exact e

end Gmm

variable [NeZero nc] [NeZero nm] {k : ℕ}

/-- **C97** (GMMHMM, `diag`) -/
theorem C97_gmm_diag (hk : 0 < k) : FitCopies (nc := nc) (nm := nm) (nf := nf) k diagDefault
    (fun v i k l => fin (v i k l)) diagComp := by
  rw [diagDefault_eq]; exact fit_copies (R := dDiag) hk (scaleFree_diag hk) regular_diag

/-- **C97** (GMMHMM, `spherical`) as many features as mixture components: otherwise the divisor has a constant term. -/
theorem C97_gmm_spherical (hk : 0 < k) : FitCopies (nc := nc) (nm := nm) (nf := nm) k sphericalDefault
    (fun v i k => fin (v i k)) sphericalComp := by
  rw [sphericalDefault_eq]
  exact fit_copies (R := dSpherical) hk (scaleFree_spherical hk) fun ps => regular_spherical ps le_rfl

/-- **C97** (GMMHMM, `full`) -/
theorem C97_gmm_full (hk : 0 < k) : FitCopies (nc := nc) (nm := nm) (nf := nf) k fullDefault
    (fun v i k l r => fin (v.S i k l r)) fullComp := by
  rw [fullDefault_eq]; exact fit_copies (R := dFull) hk (scaleFree_full hk) regular_full

/-- **C97** (GMMHMM, `tied`) -/
theorem C97_gmm_tied (hk : 0 < k) : FitCopies (nc := nc) (nm := nm) (nf := nf) k tiedDefault
    (fun v i l r => fin (v.S i l r)) tiedComp := by
  rw [tiedDefault_eq]; exact fit_copies (R := dTied) hk (scaleFree_tied hk) regular_tied

/-! ## Concrete cases -/

namespace GmmExample

/-- The default `tol` for three copies. -/
noncomputable def mon (tol : ℝ) : Monitor XF := ⟨fin tol, 10, [], 0⟩

theorem mon_coarser (tol : ℝ) : Coarser 3 (mon (3 * tol)) (mon tol) := ⟨by simp [mon], rfl⟩

example (impl : Impl) :=
  C97_gmm_diag (k := 3) (by norm_num) (fun _ => 2) (fun _ _ => 1) ['s', 't', 'm', 'c', 'w'] impl 10 ss (p fun _ _ _ => 1) _ _
    (mon_coarser (1 / 100)) (by simp) (by simp) (by simp [ss]) (chain _) (weights _) (used dDiag _).2 (used dDiag _).1

example (impl : Impl) :=
  C97_gmm_spherical (k := 3) (by norm_num) (fun _ => 1) (fun _ _ => 1) ['s', 't', 'm', 'c', 'w'] impl 10 ss (p fun _ _ => 1) _ _
    (mon_coarser (1 / 100)) (by simp) (by simp) (by simp [ss]) (chain _) (weights _) (used dSpherical _).2
    (used dSpherical _).1

example (impl : Impl) :=
  C97_gmm_full (k := 3) (by norm_num) (fun _ => 1) (fun _ _ => 1) ['s', 't', 'c'] impl 10 ss
    (p ⟨fun _ _ => 1, fun _ _ => .one⟩) _ _ (mon_coarser (1 / 100)) (by simp) (by simp) (by simp [ss]) (chain _) (weights _)
    (used dFull _).2 (used dFull _).1

example (impl : Impl) :=
  C97_gmm_tied (k := 3) (by norm_num) (fun _ => 1) (fun _ _ => 1) ['s', 't', 'm', 'c', 'w'] impl 10 ss
    (p ⟨fun _ => 1, fun _ => .one⟩) _ _ (mon_coarser (1 / 100)) (by simp) (by simp) (by simp [ss]) (chain _) (weights _)
    (used dTied _).2 (used dTied _).1

end GmmExample
end Verif
