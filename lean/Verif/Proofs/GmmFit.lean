import Verif.Proofs.GmmGain
import Verif.Proofs.FitSeq
import Verif.Props.CountEM

/-!
# Runs of `fit` of `GMMHMM` with default priors
-/

namespace Verif
open FloatLike XF Hmmc Spec Gaussian
open scoped Matrix Classical

namespace Gmm
variable {nc nm nf : ℕ} {C V : Type} [NeZero nc] [NeZero nm]

section
variable {K : Kind XF nc nm nf C}

/-- The covariance update is defined whenever every component has positive expected count. -/
def Regular (R : RKind K V) (ps : List Char) : Prop :=
  ∀ (q : RGmm nc nm nf V) (T : Fin nc → ((Fin nf → ℝ) → ℝ) → ℝ), PosLin T → Live R q T → 'c' ∈ ps →
    R.Good (fun _ _ => 0) (fun i k l => R.muNext GmmPrior.flat ps q T i k l - 0)
      q.mu (R.split q T) fun i => T i fun _ => 1

variable {R : RKind K V}

omit [NeZero nc] in
theorem Live.good {ps : List Char} (hreg : Regular R ps) {q : RGmm nc nm nf V}
    {T : Fin nc → ((Fin nf → ℝ) → ℝ) → ℝ} (h : Live R q T) (hT : PosLin T) :
    R.GoodStep GmmPrior.flat ps q T where
  wden _ i := by
    have : wDen GmmPrior.flat (nm := nm) T i = T i fun _ => 1 := by simp [wDen, GmmPrior.flat]
    rw [this]
    exact (h.total hT i).ne'
  w_nonneg i k := (h.wNext_pos hT ps i k).le
  w_ex i := ⟨0, h.wNext_pos hT ps i 0⟩
  mden _ i k := by rw [h.mDen_eq hT]; exact (h.count i k).ne'
  cov hc := hreg q T hT h hc

/-- What EM with flat priors keeps. -/
def Inv (R : RKind K V) (ps : List Char) (ss : List (ObsSeq (Fin nf → ℝ)))
    (r : RParams nc (RGmm nc nm nf V)) : Prop :=
  (family R GmmPrior.flat ps).Keeps True ss r ∧ MixWeights r.q.w

omit [NeZero nc] [NeZero nm] in
theorem resp_pos {q : RGmm nc nm nf V} (h : ∀ i k, 0 < q.w i k) (x : Fin nf → ℝ) (i : Fin nc)
    (k : Fin nm) : 0 < R.resp q x i k :=
  div_pos (mul_pos (h i k) (R.dens_pos _ _ _ _ _)) (R.b_pos q x i)

theorem Inv.posLin {ps : List Char} {ss : List (ObsSeq (Fin nf → ℝ))}
    {r : RParams nc (RGmm nc nm nf V)} (h : Inv R ps ss r) :
    PosLin (obsStat r.π r.A (R.b r.q) ss) :=
  obsStat_posLin h.1.1.π_nonneg h.1.1.A_nonneg (fun o i => (R.b_pos r.q o i).le) ss

theorem Inv.live {ps : List Char} {ss : List (ObsSeq (Fin nf → ℝ))}
    {r : RParams nc (RGmm nc nm nf V)} (h : Inv R ps ss r) :
    Live R r.q (obsStat r.π r.A (R.b r.q) ss) where
  w_pos := h.2.pos
  w_sum := h.2.sum_le
  count i k := by
    have hpos : 0 < obsStat r.π r.A (R.b r.q) ss i fun _ => 1 := (h.1.2.2 trivial).pos h.1.1 h.1.2.1 i
    have hr : ∀ o, 0 < R.resp r.q o i k * 1 := fun o => by
      rw [mul_one]; exact resp_pos h.2.pos o i k
    refine lt_of_le_of_ne (h.posLin.nonneg i _ fun o => (hr o).le) fun h0 => ?_
    have hz := eq_zero_of_obsStat h.1.1.π_nonneg h.1.1.A_nonneg (fun o i => (R.b_pos r.q o i).le)
      (fun o => (hr o).le) h0.symm
    refine hpos.ne' ?_
    rw [obsStat_congr (g := fun _ => 0) fun s hs t hne => absurd (hz s hs t hne) (hr _).ne']
    simp [obsStat]

theorem inv_closed {ps : List Char} (hreg : Regular R ps) (c : RConfig nc)
    (ss : List (ObsSeq (Fin nf → ℝ)))
    (hp : 's' ∈ ps → ∀ i, 1 ≤ c.sp i) (ht : 't' ∈ ps → ∀ i j, 1 ≤ c.tp i j) :
    (family R GmmPrior.flat ps).Closed c ss (Inv R ps ss) where
  valid r h := h.1.1
  ok _ r h := h.1.2.1
  good r h _ := h.live.good hreg h.posLin
  next r h _ := by
    refine ⟨⟨(family R GmmPrior.flat ps).rstep_valid c ss h.1.1,
      ((family R GmmPrior.flat ps).rstep_gain c ss h.1.1 h.1.2.1 hp ht ⟨gmm_ac ss r, le_rfl⟩).1,
      fun _ => (family R GmmPrior.flat ps).occupied_next c ss hp ht h.1.1 h.1.2.1 (gmm_ac ss r)
        (h.1.2.2 trivial)⟩, ?_⟩
    have e : ((family R GmmPrior.flat ps).rstep c ss r).q.w =
        R.wNext GmmPrior.flat ps r.q (obsStat r.π r.A (R.b r.q) ss) := h.live.next_w h.posLin
    rw [e]
    exact ⟨h.live.wNext_pos h.posLin ps, h.live.wNext_sum h.posLin ps⟩

/-- The real parameters of a model. -/
def toR (p : GmmPoint nc nm nf V) (h : MixWeights p.w) : RParams nc (RGmm nc nm nf V) :=
  ⟨p.π, p.A, ⟨p.w, p.mu, p.v, fun i k => (h.pos i k).le, fun i => ⟨0, h.pos i 0⟩⟩⟩

def ofR (r : RParams nc (RGmm nc nm nf V)) : GmmPoint nc nm nf V := ⟨r.π, r.A, r.q.w, r.q.mu, r.q.v⟩

/-- A model as estimator attributes. -/
noncomputable def theta (embed : V → C) (p : GmmPoint nc nm nf V) : Theta XF nc (Params XF nc nm nf C) :=
  ⟨fun i => fin (p.π i), fun i j => fin (p.A i j), fun i k => fin (p.w i k),
    fun i k l => fin (p.mu i k l), embed p.v⟩

theorem inv_start {ps : List Char} {ss : List (ObsSeq (Fin nf → ℝ))} {p : GmmPoint nc nm nf V}
    (h : ChainModel p.π p.A) (hw : MixWeights p.w) (hL : 0 < p.L R.dens ss)
    (hu : EveryStateUsed p.π p.A (p.b R.dens) ss) : Inv R ps ss (toR p hw) :=
  ⟨⟨⟨h.π_nonneg, h.A_nonneg, h.π_sum, h.A_sum⟩,
    likelihoods_pos_of_data h.π_nonneg h.A_nonneg (b := R.b (toR p hw).q)
      (fun o i => (R.b_pos _ o i).le) hL, fun _ => hu⟩, hw⟩

/-- `fit` from real parameters, default priors for everything but the covariances. -/
theorem fit_main {ps : List Char} (hreg : Regular R ps) {Cond : V → Prop}
    (himp : ∀ (q : RGmm nc nm nf V) (T : Fin nc → ((Fin nf → ℝ) → ℝ) → ℝ), PosLin T → Live R q T →
      ('c' ∈ ps → Cond (R.vNext GmmPrior.flat ps q T)) → Improves R ps q T)
    (impl : Impl) (nIter : ℕ) (ss : List (ObsSeq (Fin nf → ℝ))) (hne : ss ≠ [])
    (p : GmmPoint nc nm nf V) (h : ChainModel p.π p.A) (hw : MixWeights p.w)
    (hL : 0 < p.L R.dens ss) (hu : EveryStateUsed p.π p.A (p.b R.dens) ss) (mon : Monitor XF) :
    let cfg := mapConfig (fun _ => 1) (fun _ _ => 1) ps impl nIter
    let out := fitFrom (emission K (prior GmmPrior.flat)) cfg (dataX row ss) (some (dataLengths ss))
      (theta R.embed p) mon
    let n := out.monitor.history.length
    ∃ seq : ℕ → GmmPoint nc nm nf V, seq 0 = p ∧ out.state = theta R.embed (seq n) ∧
      out.monitor.history = (List.range n).map (fun k => fin (Real.log ((seq k).L R.dens ss))) ∧
      (∀ k ≤ n, ChainModel (seq k).π (seq k).A ∧ MixWeights (seq k).w ∧ 0 < (seq k).L R.dens ss) ∧
      (∀ k < n, emStep (emission K (prior GmmPrior.flat)) cfg (dataX row ss) (dataLengths ss)
        (theta R.embed (seq k)) = .ok (theta R.embed (seq (k + 1)), fin (Real.log ((seq k).L R.dens ss)))) ∧
      ∀ k < n, ('c' ∈ ps → Cond (seq (k + 1)).v) → (seq k).L R.dens ss ≤ (seq (k + 1)).L R.dens ss := by
  intro cfg out
  let F := family R GmmPrior.flat ps
  obtain ⟨seq, h0, h1, h2, h3, h4, h5⟩ := F.fit_seq (c := ⟨fun _ => 1, fun _ _ => 1, impl, nIter⟩)
    (C := fun _ r' => 'c' ∈ ps → Cond r'.q.v) (fun _ => 0)
    (inv_closed hreg ⟨fun _ => 1, fun _ _ => 1, impl, nIter⟩ ss (fun _ => by simp) fun _ => by simp) hne
    (fun _ => by simp) (fun _ => by simp) (inv_start h hw hL hu)
    (fun r hr hC _ => by
      rw [sub_zero]
      refine gmm_gains ss r hr.1.1 hr.live (himp _ _ hr.posLin hr.live fun hc => ?_)
      have := hC hc
      have e : (F.rstep ⟨fun _ => 1, fun _ _ => 1, impl, nIter⟩ ss r).q.v =
          R.vNext GmmPrior.flat ps r.q (obsStat r.π r.A (R.b r.q) ss) := next_v
      rwa [e] at this) mon
  have hpos : ∀ k ≤ _, 0 < (ofR (seq k)).L R.dens ss := fun k hk =>
    (log_dataLikelihood ss (h3 k hk).1.2.1).1
  refine ⟨fun k => ofR (seq k), by simp only [h0]; rfl, h1, h2, fun k hkn => ?_, h4, fun k hk hc => ?_⟩
  · have := h3 k hkn
    exact ⟨⟨this.1.1.π_nonneg, this.1.1.A_nonneg, this.1.1.π_sum, this.1.1.A_sum⟩, this.2, hpos k hkn⟩
  · have := h5 k hk hc
    simp only [Family.objective, logDirichlet, sub_self, zero_mul, Finset.sum_const_zero, add_zero] at this
    exact (Real.log_le_log_iff (hpos k (le_of_lt hk)) (hpos (k + 1) hk)).1 this

end

/-! ## The four covariance types -/

section
variable (ps : List Char)

omit [NeZero nc] [NeZero nm] in
theorem sphericalDefault_eq : (sphericalDefault : Kind XF nc nm nf _) =
    spherical (fun _ _ => fin (-((nm : ℝ) + 2) / 2)) fun _ _ => fin 0 := by
  simp only [sphericalDefault, sphericalPrior, ofNat'_def, fin_add, fin_neg]
  rw [fin_div _ _ (by norm_num)]
  simp only [zero_def, Nat.cast_ofNat]

omit [NeZero nc] [NeZero nm] in
theorem diagDefault_eq : (diagDefault : Kind XF nc nm nf _) =
    diag (fun _ _ _ => fin (-3 / 2)) fun _ _ _ => fin 0 := by
  simp only [diagDefault, diagPrior, ofRat_def, zero_def]
  norm_num

omit [NeZero nc] [NeZero nm] in
theorem fullDefault_eq : (fullDefault : Kind XF nc nm nf _) =
    full (fun _ _ l m => fin ((0 : Matrix (Fin nf) (Fin nf) ℝ) l m)) fun _ _ => fin (-(1 + (nf : ℝ) + 1)) := by
  simp only [fullDefault, fullWeight, ofNat'_def, fin_add, fin_neg, one_def, zero_def, Matrix.zero_apply]

omit [NeZero nc] [NeZero nm] in
theorem tiedDefault_eq : (tiedDefault : Kind XF nc nm nf _) =
    tied (fun _ l m => fin ((0 : Matrix (Fin nf) (Fin nf) ℝ) l m)) fun _ => fin (-((nm : ℝ) + nf + 1)) := by
  simp only [tiedDefault, tiedWeight, ofNat'_def, fin_add, fin_neg, one_def, zero_def, Matrix.zero_apply]

/-- The real counterparts of the defaults. -/
noncomputable abbrev dSpherical : RKind (spherical (nc := nc) (nm := nm) (nf := nf)
    (fun _ _ => fin (-((nm : ℝ) + 2) / 2)) fun _ _ => fin 0) (Mix ℝ nc nm) :=
  rSpherical (fun _ _ => -((nm : ℝ) + 2) / 2) fun _ _ => 0

noncomputable abbrev dDiag : RKind (diag (nc := nc) (nm := nm) (nf := nf)
    (fun _ _ _ => fin (-3 / 2)) fun _ _ _ => fin 0) (Means ℝ nc nm nf) :=
  rDiag (fun _ _ _ => -3 / 2) fun _ _ _ => 0

noncomputable abbrev dFull : RKind (full (nc := nc) (nm := nm) (nf := nf)
    (fun _ _ l m => fin ((0 : Matrix (Fin nf) (Fin nf) ℝ) l m)) fun _ _ => fin (-(1 + (nf : ℝ) + 1)))
    (PsdMix nc nm nf) :=
  rFull (fun _ _ => 0) fun _ _ => -(1 + (nf : ℝ) + 1)

noncomputable abbrev dTied : RKind (tied (nc := nc) (nm := nm) (nf := nf)
    (fun _ l m => fin ((0 : Matrix (Fin nf) (Fin nf) ℝ) l m)) fun _ => fin (-((nm : ℝ) + nf + 1)))
    (PsdState nc nf) :=
  rTied (fun _ => 0) fun _ => -((nm : ℝ) + nf + 1)

theorem sphDen_default (nm nf : ℕ) (N : ℝ) : sphDen nf (-((nm : ℝ) + 2) / 2) N = nf * N + nf - nm := by
  unfold sphDen; ring

theorem diagDen_default (N : ℝ) : diagDen (-3 / 2) N = N := by unfold diagDen; ring

theorem fullDen_default (nf : ℕ) (N : ℝ) : fullDen nf (-(1 + (nf : ℝ) + 1)) N = N := by
  unfold fullDen; ring

theorem tiedDen_default (nm nf : ℕ) (N : ℝ) : tiedDen nm nf (-((nm : ℝ) + nf + 1)) N = N := by
  unfold tiedDen; ring

omit [NeZero nc] in
theorem regular_spherical [NeZero nf] (h : nm ≤ nf) :
    Regular (dSpherical (nc := nc) (nm := nm) (nf := nf)) ps := by
  intro q T hT hl _ i k
  show sphDen _ _ _ ≠ 0
  rw [sphDen_default]
  have h1 : (0 : ℝ) < nf := by exact_mod_cast Nat.pos_of_ne_zero (NeZero.ne nf)
  have h2 : (nm : ℝ) ≤ nf := by exact_mod_cast h
  have := mul_pos h1 (hl.count i k)
  linarith

omit [NeZero nc] in
theorem regular_diag : Regular (dDiag (nc := nc) (nm := nm) (nf := nf)) ps := by
  intro q T hT hl _ i k l
  show diagDen _ _ ≠ 0
  rw [diagDen_default]
  exact (hl.count i k).ne'

omit [NeZero nc] in
theorem fullCov_default (lam : Mix ℝ nc nm) (hlam : ∀ i k, lam i k = 0) (cm mu : Means ℝ nc nm nf)
    (T : Fun2 nc nm nf) (i : Fin nc) (k : Fin nm) :
    fullCov (fun _ _ => 0) (fun _ _ => -(1 + (nf : ℝ) + 1)) lam cm mu T i k =
      (T i k fun _ => 1)⁻¹ • scat (T i) k (mu i k) := by
  simp only [fullCov, fullDen_default]; simp [hlam]

omit [NeZero nc] in
theorem tiedCov_default (lam : Mix ℝ nc nm) (hlam : ∀ i k, lam i k = 0) (cm mu : Means ℝ nc nm nf)
    (T : Fun2 nc nm nf) (N : Fin nc → ℝ) (i : Fin nc) :
    tiedCov (fun _ => 0) (fun _ => -((nm : ℝ) + nf + 1)) lam cm mu T N i =
      (N i)⁻¹ • ∑ k, scat (T i) k (mu i k) := by
  simp only [tiedCov, tiedDen_default]; simp [hlam]

omit [NeZero nc] in
theorem regular_full : Regular (dFull (nc := nc) (nm := nm) (nf := nf)) ps := by
  intro q T hT hl _
  refine ⟨fun i k => ?_, fun i k => ?_⟩
  · rw [fullDen_default]; exact (hl.count i k).ne'
  · rw [fullCov_default _ fun _ _ => rfl]
    exact (scat_psd (split_posLin _ q hT i) k _).smul (inv_nonneg.2 (hl.count i k).le)

omit [NeZero nc] in
theorem regular_tied : Regular (dTied (nc := nc) (nm := nm) (nf := nf)) ps := by
  intro q T hT hl _
  refine ⟨fun i => ?_, fun i => ?_⟩
  · rw [tiedDen_default]; exact (hl.total hT i).ne'
  · rw [tiedCov_default _ fun _ _ => rfl]
    exact (Matrix.posSemidef_sum _ fun k _ => scat_psd (split_posLin _ q hT i) k _).smul
      (inv_nonneg.2 (hl.total hT i).le)

omit [NeZero nc] [NeZero nm] in
theorem rFull_next {psi : Fin nc → Fin nm → Matrix (Fin nf) (Fin nf) ℝ} {nu lam : Mix ℝ nc nm}
    {cm mu : Means ℝ nc nm nf} {T : Fun2 nc nm nf} {N : Fin nc → ℝ} {v : PsdMix nc nm nf}
    (h : ∀ i k, (fullCov psi nu lam cm mu T i k).PosSemidef) :
    ((rFull psi nu).next lam cm mu T N v).S = fullCov psi nu lam cm mu T := by
  show (dite _ _ _ : PsdMix nc nm nf).S = _
  rw [dif_pos h]

omit [NeZero nc] [NeZero nm] in
theorem rTied_next {psi : Fin nc → Matrix (Fin nf) (Fin nf) ℝ} {nu : Fin nc → ℝ} {lam : Mix ℝ nc nm}
    {cm mu : Means ℝ nc nm nf} {T : Fun2 nc nm nf} {N : Fin nc → ℝ} {v : PsdState nc nf}
    (h : ∀ i, (tiedCov psi nu lam cm mu T N i).PosSemidef) :
    ((rTied psi nu).next lam cm mu T N v).S = tiedCov psi nu lam cm mu T N := by
  show (dite _ _ _ : PsdState nc nf).S = _
  rw [dif_pos h]

omit [NeZero nc] in
theorem improves_spherical [NeZero nf] (h : 'c' ∈ ps → nm = nf) (q : RGmm nc nm nf (Mix ℝ nc nm))
    (T : Fin nc → ((Fin nf → ℝ) → ℝ) → ℝ) (hT : PosLin T) (hl : Live dSpherical q T) :
    Improves dSpherical ps q T := by
  intro i
  refine Finset.sum_nonneg fun k _ => ?_
  refine le_of_le_of_eq (spherical_improves (split_posLin _ q hT i) (hl.count i) ps (q.mu i) (q.v i) (dSpherical.vNext GmmPrior.flat ps q T i) ?_ k) (by rw [← hl.muNext_eq hT]; rfl)
  by_cases hc : 'c' ∈ ps
  · right
    funext k
    simp only [RKind.vNext, hc, if_true, rSpherical, sphDen_default, h hc]
    simp [GmmPrior.flat]
  · left
    simp only [RKind.vNext, hc, if_false]

omit [NeZero nc] in
theorem improves_diag (q : RGmm nc nm nf (Means ℝ nc nm nf))
    (T : Fin nc → ((Fin nf → ℝ) → ℝ) → ℝ) (hT : PosLin T) (hl : Live dDiag q T) :
    Improves dDiag ps q T := by
  intro i
  refine Finset.sum_nonneg fun k _ => ?_
  refine le_of_le_of_eq (diag_improves (split_posLin _ q hT i) (hl.count i) ps (q.mu i) (q.v i) (dDiag.vNext GmmPrior.flat ps q T i) ?_ k) (by rw [← hl.muNext_eq hT]; rfl)
  by_cases hc : 'c' ∈ ps
  · right
    funext k l
    simp only [RKind.vNext, hc, if_true, rDiag, diagDen_default]
    simp [GmmPrior.flat]
  · left
    simp only [RKind.vNext, hc, if_false]

omit [NeZero nc] in
theorem improves_full (q : RGmm nc nm nf (PsdMix nc nm nf))
    (T : Fin nc → ((Fin nf → ℝ) → ℝ) → ℝ) (hT : PosLin T) (hl : Live dFull q T)
    (hv : 'c' ∈ ps → ∀ i k, ((dFull.vNext GmmPrior.flat ps q T).S i k).PosDef) :
    Improves dFull ps q T := by
  intro i
  refine Finset.sum_nonneg fun k _ => ?_
  refine le_of_le_of_eq (full_improves (split_posLin _ q hT i) (hl.count i) ps (q.mu i) (q.v.S i) ((dFull.vNext GmmPrior.flat ps q T).S i) (q.v.psd i) k ?_) (by rw [← hl.muNext_eq hT]; rfl)
  by_cases hc : 'c' ∈ ps
  · refine Or.inr ⟨?_, hv hc i k⟩
    have e : dFull.vNext GmmPrior.flat ps q T = dFull.next _ _ _ _ _ q.v := if_pos hc
    rw [e]
    refine (congrFun (congrFun (rFull_next (regular_full ps q T hT hl hc).2) i) k).trans ?_
    exact fullCov_default _ (fun _ _ => rfl) _ _ _ _ _
  · left
    simp only [RKind.vNext, hc, if_false]

omit [NeZero nc] in
theorem improves_tied (q : RGmm nc nm nf (PsdState nc nf))
    (T : Fin nc → ((Fin nf → ℝ) → ℝ) → ℝ) (hT : PosLin T) (hl : Live dTied q T)
    (hv : 'c' ∈ ps → ∀ i, ((dTied.vNext GmmPrior.flat ps q T).S i).PosDef) :
    Improves dTied ps q T := by
  intro i
  refine le_of_le_of_eq (tied_improves (split_posLin _ q hT i) (hl.count i) ps (q.mu i) (q.v.S i) ((dTied.vNext GmmPrior.flat ps q T).S i) (q.v.psd i) ?_) (by rw [← hl.muNext_eq hT]; rfl)
  by_cases hc : 'c' ∈ ps
  · refine Or.inr ⟨?_, hv hc i⟩
    have e : dTied.vNext GmmPrior.flat ps q T = dTied.next _ _ _ _ _ q.v := if_pos hc
    rw [e, sum_split _ q hT]
    refine (congrFun (rTied_next (regular_tied ps q T hT hl hc).2) i).trans ?_
    exact tiedCov_default _ (fun _ _ => rfl) _ _ _ _ _
  · left
    simp only [RKind.vNext, hc, if_false]

end
end Gmm
end Verif
