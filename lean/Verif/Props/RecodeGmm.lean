import Verif.Props.RecodeFull
import Verif.Props.GmmEM

/-!
# C96: rigid motions of the data, `GMMHMM`
-/

set_option autoImplicit false

namespace Verif
open FloatLike XF Hmmc Spec Gaussian Gmm
open scoped Classical Matrix

variable {nc nm nf : ℕ} {C V : Type}

/-- The moved model; `actV` moves the covariances. -/
def Spec.Motion.gmm (m : Motion nf) (actV : V → V) (p : GmmPoint nc nm nf V) : GmmPoint nc nm nf V :=
  ⟨p.π, p.A, p.w, fun i k => m.move (p.mu i k), actV p.v⟩

/-- The moved attributes. -/
noncomputable def Spec.Motion.gmmParams (m : Motion nf) (actC : C → C) (p : Gmm.Params XF nc nm nf C) :
    Gmm.Params XF nc nm nf C := ⟨p.weights, fun i k => m.moveX (p.means i k), actC p.covars⟩

/-- The claim C96 for `GMMHMM` with default priors. -/
def Spec.FitMoves [NeZero nc] [NeZero nm] (m : Motion nf) (K : Kind XF nc nm nf C) (embed : V → C)
    (dens : CompDens nc nm nf V) (actV : V → V) (actC : C → C) : Prop :=
  ∀ (sp : Fin nc → ℝ) (tp : Fin nc → Fin nc → ℝ) (params : List Char) (impl : Impl) (nIter : ℕ)
    (ss : List (ObsSeq (Fin nf → ℝ))) (p : GmmPoint nc nm nf V) (mon : Monitor XF),
    (∀ i, 1 ≤ sp i) → (∀ i j, 1 ≤ tp i j) → ss ≠ [] → ChainModel p.π p.A → MixWeights p.w →
    0 < p.L dens ss → EveryStateUsed p.π p.A (p.b dens) ss →
    RecodedFit (m.gmmParams actC)
      (gmmFit K sp tp params impl nIter (recode m.move ss) (theta embed (m.gmm actV p)) mon)
      (gmmFit K sp tp params impl nIter ss (theta embed p) mon)

namespace Gmm
variable {K : Kind XF nc nm nf C}

/-- A covariance type commutes with a motion. -/
structure RKind.Moves (R : RKind K V) (m : Motion nf) (actV : V → V) (actC : C → C) : Prop where
  embed : ∀ v, R.embed (actV v) = actC (R.embed v)
  dens : ∀ v mu x i k, R.dens (actV v) (fun i k => m.move (mu i k)) (m.move x) i k = R.dens v mu x i k
  next : ∀ (cm cm' mu : Means ℝ nc nm nf) (T : Fun2 nc nm nf) N v, (∀ i, PosLin (T i)) →
    R.Good (fun _ _ => 0) cm mu T N →
    R.next (fun _ _ => 0) cm' (fun i k => m.move (mu i k)) (fun i => rigidT m (T i)) N (actV v) =
      actV (R.next (fun _ _ => 0) cm mu T N v)

theorem RGmm.ext' {q q' : RGmm nc nm nf V} (hw : q.w = q'.w) (hm : q.mu = q'.mu) (hv : q.v = q'.v) : q = q' := by
  cases q; cases q'; simp only at hw hm hv; subst hw hm hv; rfl

/-- The moved parameters. -/
def RGmm.move (m : Motion nf) (actV : V → V) (q : RGmm nc nm nf V) : RGmm nc nm nf V :=
  ⟨q.w, fun i k => m.move (q.mu i k), actV q.v, q.w_nonneg, q.w_ex⟩

variable {R : RKind K V} {m : Motion nf} {actV : V → V} {actC : C → C}

theorem RKind.Moves.resp (h : R.Moves m actV actC) (q : RGmm nc nm nf V) (x : Fin nf → ℝ) (i : Fin nc) (k : Fin nm) :
    R.resp (q.move m actV) (m.move x) i k = R.resp q x i k := by
  unfold RKind.resp
  congr 1
  funext k
  exact h.dens q.v q.mu x i k

theorem RKind.Moves.split (h : R.Moves m actV actC) (q : RGmm nc nm nf V) (T : Fin nc → ((Fin nf → ℝ) → ℝ) → ℝ)
    (i : Fin nc) : R.split (q.move m actV) (rigidT m T) i = rigidT m (R.split q T i) := by
  funext k f
  unfold RKind.split rigidT
  simp only [h.resp]

variable [NeZero nc] [NeZero nm]

omit [NeZero nc] [NeZero nm] in
theorem RKind.Moves.live (h : R.Moves m actV actC) {q : RGmm nc nm nf V} {T : Fin nc → ((Fin nf → ℝ) → ℝ) → ℝ}
    (hl : Live R q T) : Live R (q.move m actV) (rigidT m T) :=
  ⟨hl.w_pos, hl.w_sum, fun i k => by rw [h.split]; exact hl.count i k⟩

omit [NeZero nc] [NeZero nm] in
theorem rigidT_posLin {ι : ℕ} {T : Fin ι → ((Fin nf → ℝ) → ℝ) → ℝ} (hT : PosLin T) : PosLin (rigidT m T) :=
  ⟨fun i f hf => hT.nonneg i _ fun x => hf _, fun i f g => hT.add i _ _, fun i c f => hT.smul i c _⟩

theorem gmm_recode (h : R.Moves m actV actC) {ps : List Char} (hreg : Regular R ps) :
    Family.RecodeOn (Live R) (family R GmmPrior.flat ps) (family R GmmPrior.flat ps) m.move (RGmm.move m actV)
      (m.gmmParams actC) where
  embed_act q := by
    show (⟨_, _, _⟩ : Gmm.Params XF nc nm nf C) = ⟨_, _, _⟩
    congr 1
    · funext i k
      exact (m.moveX_fin (q.mu i k)).symm
    · exact h.embed q.v
  b_act q o i := by
    show mixture _ _ = mixture _ _
    congr 1
    funext k
    exact h.dens q.v q.mu o i k
  next_act q T hT hl := by
    have hl' := h.live hl
    have hT' := rigidT_posLin (m := m) hT
    have emu : ∀ i k, R.muNext GmmPrior.flat ps (q.move m actV) (rigidT m T) i k =
        m.move (R.muNext GmmPrior.flat ps q T i k) := by
      intro i k
      rw [hl.muNext_eq hT, hl'.muNext_eq hT', h.split]
      have := muNext_rigid m g0 ps (q.mu i) (split_posLin R q hT i) fun _ k => by
        show (0 : ℝ) + _ ≠ 0
        rw [zero_add]; exact (hl.count i k).ne'
      refine Eq.trans ?_ (congrFun this k)
      unfold Gaussian.muNext
      simp [Motion.prior, g0]
      rfl
    refine RGmm.ext' ?_ ?_ ?_
    · refine (hl'.next_w hT').trans (Eq.trans ?_ (hl.next_w hT).symm)
      funext i k
      rw [wNext_flat, wNext_flat, h.split]
      rfl
    · refine next_mu.trans ?_
      funext i k
      refine (emu i k).trans ?_
      show _ = m.move (((family R GmmPrior.flat ps).next q T).mu i k)
      rw [next_mu]
    · refine next_v.trans (Eq.trans ?_ (congrArg actV next_v).symm)
      unfold RKind.vNext
      by_cases hc : 'c' ∈ ps
      · rw [if_pos hc, if_pos hc]
        have e : R.split (q.move m actV) (rigidT m T) = fun i => rigidT m (R.split q T i) := funext fun i => h.split q T i
        rw [e]
        exact h.next _ _ q.mu _ _ q.v (split_posLin R q hT) (hreg q T hT hl hc)
      · rw [if_neg hc, if_neg hc]
        rfl
  good_act q T hT hl := (h.live hl).good hreg (rigidT_posLin hT)

theorem fit_moves (h : R.Moves m actV actC) (hreg : ∀ ps, Regular R ps) :
    FitMoves m K R.embed R.dens actV actC := by
  intro sp tp params impl nIter ss p mon hsp htp hne hc hw hL hu
  exact (gmm_recode h (hreg params)).fit_eq' (c := ⟨sp, tp, impl, nIter⟩)
    (inv_closed (hreg params) ⟨sp, tp, impl, nIter⟩ ss (fun _ => hsp) fun _ => htp)
    (fun r hr _ => hr.live) hne (fun _ => hsp) (inv_start hc hw hL hu) mon

end Gmm

/-! ## The four covariance types -/

theorem Spec.Motion.move_sub_apply (m : Motion nf) (x y : Fin nf → ℝ) (k : Fin nf) :
    m.move x k - m.move y k = (m.O *ᵥ (x - y)) k := congrFun (m.move_sub x y) k

theorem dist2_move (m : Motion nf) (x y : Fin nf → ℝ) : dist2 (m.move y) (m.move x) = dist2 y x := by
  have e : ∀ u v : Fin nf → ℝ, dist2 u v = (v - u) ⬝ᵥ (v - u) := fun u v => by
    unfold dist2 dotProduct
    exact Finset.sum_congr rfl fun l _ => pow_two _
  rw [e, e, m.move_sub, m.dot_move]

theorem normal_prod (μ x : Fin nf → ℝ) (v : ℝ) :
    ∏ k, normalPdf (μ k) v (x k) = Real.exp (-dist2 μ x / (2 * v)) / Real.sqrt (2 * Real.pi * v) ^ nf := by
  unfold normalPdf dist2
  rw [Finset.prod_div_distrib, ← Real.exp_sum, Finset.prod_const, Finset.card_univ, Fintype.card_fin,
    ← Finset.sum_div, Finset.sum_neg_distrib]

/-- Axes reordered, reversed and shifted, as a motion. -/
noncomputable def Spec.Axes.motion (a : Axes nf) : Motion nf where
  O := Matrix.of fun k l => if l = a.τ k then a.ε k else 0
  c := a.c
  orth := by
    ext k l
    simp only [Matrix.mul_apply, Matrix.of_apply, Matrix.transpose_apply, ite_mul, zero_mul, mul_ite, mul_zero,
      Finset.sum_ite_eq', Finset.mem_univ, if_true, Matrix.one_apply, EmbeddingLike.apply_eq_iff_eq]
    by_cases h : k = l
    · subst h; simp [a.sign]
    · simp [h, Ne.symm h]

theorem Spec.Axes.motion_move (a : Axes nf) (x : Fin nf → ℝ) : a.motion.move x = a.move x := by
  funext k
  show (∑ l, (if l = a.τ k then a.ε k else 0) * x l) + a.c k = _
  simp [Spec.Axes.move]

namespace Gmm

theorem moves_spherical (m : Motion nf) : (dSpherical (nc := nc) (nm := nm) (nf := nf)).Moves m id id where
  embed v := rfl
  dens v mu x i k := by
    refine (normal_prod _ _ _).trans (Eq.trans ?_ (normal_prod _ _ _).symm)
    rw [dist2_move]; rfl
  next cm cm' mu T N v hT hg := by
    funext i k
    show (_ : ℝ) / _ = _ / _
    simp only [rigidT, dist2_move, zero_mul]

theorem moves_diag (a : Axes nf) : (dDiag (nc := nc) (nm := nm) (nf := nf)).Moves a.motion
    (fun v i k l => v i k (a.τ l)) (fun v i k l => v i k (a.τ l)) where
  embed v := rfl
  dens v mu x i k := by
    simp only [a.motion_move]
    exact diagB_moved a (mu i) (v i) x k
  next cm cm' mu T N v hT hg := by
    funext i k l
    show (_ : ℝ) / _ = _ / _
    simp only [rigidT, a.motion_move, zero_mul]
    congr 2
    congr 1
    funext x
    unfold Spec.Axes.move
    linear_combination (x (a.τ l) - mu i k (a.τ l)) ^ 2 * a.sign l

/-- The moved covariances. -/
def _root_.Verif.Spec.Motion.mixCov (m : Motion nf) (v : PsdMix nc nm nf) : PsdMix nc nm nf :=
  ⟨fun i k => m.cov (v.S i k), fun i k => m.cov_psd (v.psd i k)⟩

def _root_.Verif.Spec.Motion.stateCov (m : Motion nf) (v : PsdState nc nf) : PsdState nc nf :=
  ⟨fun i => m.cov (v.S i), fun i => m.cov_psd (v.psd i)⟩

theorem psdMix_ext {v v' : PsdMix nc nm nf} (h : v.S = v'.S) : v = v' := by cases v; cases v'; simp only at h; subst h; rfl
theorem psdState_ext {v v' : PsdState nc nf} (h : v.S = v'.S) : v = v' := by cases v; cases v'; simp only at h; subst h; rfl

theorem moves_full [NeZero nm] (m : Motion nf) : (dFull (nc := nc) (nm := nm) (nf := nf)).Moves m m.mixCov
    (fun c i k => m.covX (c i k)) where
  embed v := by
    funext i k
    exact (m.covX_fin (v.S i k)).symm
  dens v mu x i k := m.fullB_move (mu i) (v.S i) x k
  next cm cm' mu T N v hT hg := by
    have e : ∀ i k, fullCov (fun _ _ => (0 : Matrix (Fin nf) (Fin nf) ℝ)) (fun _ _ => -(1 + (nf : ℝ) + 1)) (fun _ _ => 0) cm'
        (fun i k => m.move (mu i k)) (fun i => rigidT m (T i)) i k =
        m.cov (fullCov (fun _ _ => 0) (fun _ _ => -(1 + (nf : ℝ) + 1)) (fun _ _ => 0) cm mu T i k) := by
      intro i k
      rw [fullCov_default _ fun _ _ => rfl, fullCov_default _ fun _ _ => rfl, m.cov_smul, rigidT_scat m (hT i)]
    refine psdMix_ext ((rFull_next fun i k => ?_).trans ?_)
    · rw [e]; exact m.cov_psd (hg.2 i k)
    · funext i k
      rw [e]
      show _ = m.cov _
      exact congrArg m.cov (congrFun (congrFun (rFull_next hg.2) i) k).symm

theorem moves_tied [NeZero nm] (m : Motion nf) : (dTied (nc := nc) (nm := nm) (nf := nf)).Moves m m.stateCov
    (fun c i => m.covX (c i)) where
  embed v := by
    funext i
    exact (m.covX_fin (v.S i)).symm
  dens v mu x i k := m.fullB_move (mu i) (fun _ => v.S i) x k
  next cm cm' mu T N v hT hg := by
    have e : ∀ i, tiedCov (fun _ => (0 : Matrix (Fin nf) (Fin nf) ℝ)) (fun _ => -((nm : ℝ) + nf + 1)) (fun _ _ => 0) cm'
        (fun i k => m.move (mu i k)) (fun i => rigidT m (T i)) N i =
        m.cov (tiedCov (fun _ => 0) (fun _ => -((nm : ℝ) + nf + 1)) (fun _ _ => 0) cm mu T N i) := by
      intro i
      rw [tiedCov_default _ fun _ _ => rfl, tiedCov_default _ fun _ _ => rfl, m.cov_smul, m.cov_sum]
      simp only [rigidT_scat m (hT i)]
    refine psdState_ext ((rTied_next fun i => ?_).trans ?_)
    · rw [e]; exact m.cov_psd (hg.2 i)
    · funext i
      rw [e]
      show _ = m.cov _
      exact congrArg m.cov (congrFun (rTied_next hg.2) i).symm

end Gmm

variable [NeZero nc] [NeZero nm]

/-- **C96** (GMMHMM, `diag`) Reordering, reversing and shifting the axes; `params` is arbitrary. -/
theorem C96_gmm_diag (a : Axes nf) : FitMoves (nc := nc) (nm := nm) a.motion diagDefault
    (fun v i k l => fin (v i k l)) diagComp (fun v i k l => v i k (a.τ l)) (fun v i k l => v i k (a.τ l)) := by
  rw [diagDefault_eq]; exact fit_moves (R := dDiag) (moves_diag a) regular_diag

/-- **C96** (GMMHMM, `spherical`) Rotations, reflections and translations; variances are not changed. -/
theorem C96_gmm_spherical [NeZero nf] (hn : nm ≤ nf) (m : Motion nf) : FitMoves (nc := nc) (nm := nm) m sphericalDefault
    (fun v i k => fin (v i k)) sphericalComp id id := by
  rw [sphericalDefault_eq]; exact fit_moves (R := dSpherical) (moves_spherical m) fun ps => regular_spherical ps hn

/-- **C96** (GMMHMM, `full`) -/
theorem C96_gmm_full (m : Motion nf) : FitMoves (nc := nc) (nm := nm) m fullDefault
    (fun v i k l r => fin (v.S i k l r)) fullComp m.mixCov (fun c i k => m.covX (c i k)) := by
  rw [fullDefault_eq]; exact fit_moves (R := dFull) (moves_full m) regular_full

/-- **C96** (GMMHMM, `tied`) -/
theorem C96_gmm_tied (m : Motion nf) : FitMoves (nc := nc) (nm := nm) m tiedDefault
    (fun v i l r => fin (v.S i l r)) tiedComp m.stateCov (fun c i => m.covX (c i)) := by
  rw [tiedDefault_eq]; exact fit_moves (R := dTied) (moves_tied m) regular_tied

/-! ## Concrete cases -/

namespace GmmExample

/-- A quarter turn about the origin, then a translation. -/
def turn : Motion 2 := ⟨!![0, -1; 1, 0], ![1, 5], by
  ext i j; fin_cases i <;> fin_cases j <;> simp [Matrix.mul_apply, Fin.sum_univ_two]⟩

/-- The axes exchanged, one of them reversed, the origin moved. -/
noncomputable def exchange : Axes 2 := ⟨Equiv.swap 0 1, ![1, -1], ![3, 4], fun k => by fin_cases k <;> simp⟩

example (impl : Impl) (mon : Monitor XF) :=
  C96_gmm_diag exchange (fun _ => 1) (fun _ _ => 1) ['s', 't', 'm', 'c', 'w'] impl 10 ss (p fun _ _ _ => 1) mon (by simp)
    (by simp) (by simp [ss]) (chain _) (weights _) (used dDiag _).2 (used dDiag _).1

example (impl : Impl) (mon : Monitor XF) :=
  C96_gmm_spherical le_rfl turn (fun _ => 1) (fun _ _ => 1) ['s', 't', 'm', 'c', 'w'] impl 10 ss (p fun _ _ => 1) mon
    (by simp) (by simp) (by simp [ss]) (chain _) (weights _) (used dSpherical _).2 (used dSpherical _).1

example (impl : Impl) (mon : Monitor XF) :=
  C96_gmm_full turn (fun _ => 1) (fun _ _ => 1) ['s', 't', 'c'] impl 10 ss (p ⟨fun _ _ => 1, fun _ _ => .one⟩) mon
    (by simp) (by simp) (by simp [ss]) (chain _) (weights _) (used dFull _).2 (used dFull _).1

example (impl : Impl) (mon : Monitor XF) :=
  C96_gmm_tied turn (fun _ => 1) (fun _ _ => 1) ['s', 't', 'm', 'c', 'w'] impl 10 ss (p ⟨fun _ => 1, fun _ => .one⟩) mon
    (by simp) (by simp) (by simp [ss]) (chain _) (weights _) (used dTied _).2 (used dTied _).1

end GmmExample
end Verif
