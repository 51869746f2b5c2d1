import Verif.Proofs.VGaussStart
import Verif.Props.VObjectFit
import Verif.Props.VGaussian
import Verif.Props.GaussFit

/-!
# C79: `fit` of a `VariationalGaussianHMM` object, from the call to the trained attributes
-/

set_option autoImplicit false

namespace Verif
open FloatLike XF Hmmc Spec
open scoped Classical

variable {G : Type} {R : RandomLib XF G} {sci : Sci XF} {eig : Eigvalsh XF}

/-! ## The four covariance types -/

/-- The arrays of one covariance type are read and written as the specification stores them. -/
structure Lays (L : VLayout XF G) (nc nf : ℕ) [NeZero nc] [NeZero nf] where
  H : VGaussian.Holds (L.kind nc nf) L.ty
  readDof : ∀ {ν : Fin nc → ℝ} {a : NdArray XF}, StoresDof L.ty ν a → L.readDof nc a = some (H.toDof ν)
  readSc : ∀ {S : Fin nc → Matrix (Fin nf) (Fin nf) ℝ} {a : NdArray XF}, StoresScale L.ty S a →
    L.readSc nc nf a = some (H.toSc S)
  writeDof : ∀ {ν : Fin nc → ℝ} {a : NdArray XF}, StoresDof L.ty ν a → L.writeDof (H.toDof ν) = a
  writeSc : ∀ {S : Fin nc → Matrix (Fin nf) (Fin nf) ℝ} {a : NdArray XF}, StoresScale L.ty S a → L.writeSc (H.toSc S) = a
  density : ∀ (p : Fin nc → NW nf), Allowed L.ty p → (∀ i, (p i).Proper) → Resolved L.ty p → ∀ (g : GaussAttrs XF)
    (a : NdArray XF), g.means = some (mat fun i => (p i).m) → g.covars = some a →
    StoresScale L.ty (fun i => (p i).covar) a → ∃ θ, L.read g nc nf = some θ ∧ ∀ X : List (Fin nf → ℝ),
      (L.emission g nc nf).loglik θ (X.map Gaussian.row) =
        .ok (X.map fun x i => FloatLike.log (fin (mvnPdf (p i).m (p i).covar x))) ∧
      (L.emission g nc nf).lik θ (X.map Gaussian.row) =
        ((L.emission g nc nf).loglik θ (X.map Gaussian.row)).map Gaussian.expRows

section
variable {nc nf : ℕ} [NeZero nc] [NeZero nf]

noncomputable def laysFull : Lays (vlayoutFull (G := G) eig) nc nf where
  H := VGaussian.holdsFull
  readDof := by rintro ν a rfl; exact asRow_vec ν
  readSc := by rintro S a rfl; exact asCube_cube S
  writeDof := by rintro ν a rfl; rfl
  writeSc := by rintro S a rfl; rfl
  density p _ hp _ g a hm hc ha := by
    cases ha
    refine ⟨⟨fun i k => fin ((p i).m k), fun i k l => fin ((p i).covar k l)⟩, ?_, fun X => ⟨VGaussian.logDensityFull_covar hp X, rfl⟩⟩
    have : asCube nc nf nf (cube fun i => (p i).covar) = some fun i k l => fin ((p i).covar k l) := asCube_cube _
    simp only [vlayoutFull, gaussFullSub, hm, hc, Option.bind_eq_bind, Option.bind_some, asMat_mat, this]
    rfl

noncomputable def laysTied : Lays (vlayoutTied (G := G) eig) nc nf where
  H := VGaussian.holdsTied
  readDof := by
    rintro ν a ⟨x, rfl, hx⟩
    exact congrArg (fun y => some (fin y)) (hx 0).symm
  readSc := by
    rintro S a ⟨M, rfl, hM⟩
    refine (asMat_mat M).trans ?_
    rw [← hM 0]
    rfl
  writeDof := by
    rintro ν a ⟨x, rfl, hx⟩
    exact congrArg (fun y => NdArray.d0 (fin y)) (hx 0)
  writeSc := by
    rintro S a ⟨M, rfl, hM⟩
    rw [← hM 0]
    rfl
  density p hA hp hr g a hm hc ha := by
    obtain ⟨M, rfl, hM⟩ := ha
    refine ⟨⟨fun i k => fin ((p i).m k), fun k l => fin (M k l)⟩, ?_, fun X => ⟨?_, rfl⟩⟩
    · have : asMat nf nf (mat M) = some fun k l => fin (M k l) := asMat_mat _
      simp only [vlayoutTied, gaussTiedSub, hm, hc, Option.bind_eq_bind, Option.bind_some, asMat_mat, this]
      rfl
    · have h := VGaussian.holdsTied.density_eq p hA hp hr X
      have e : (VGaussian.holdsTied (nc := nc) (nf := nf)).toSc (fun i => (p i).covar) = fun k l => fin (M k l) := by
        rw [← hM 0]; rfl
      rw [e] at h
      exact h

noncomputable def laysDiag : Lays (vlayoutDiag (G := G) eig) nc nf where
  H := VGaussian.holdsDiag
  readDof := by rintro ν a rfl; exact asRow_vec ν
  readSc := by
    rintro S a ⟨v, rfl, hv⟩
    refine (asMat_mat v).trans (congrArg some ?_)
    funext i k
    show fin (v i k) = fin (S i k k)
    rw [hv i, Matrix.diagonal_apply_eq]
  writeDof := by rintro ν a rfl; rfl
  writeSc := by
    rintro S a ⟨v, rfl, hv⟩
    refine congrArg NdArray.d2 ?_
    funext i k
    show fin (S i k k) = fin (v i k)
    rw [hv i, Matrix.diagonal_apply_eq]
  density p hA hp hr g a hm hc ha := by
    obtain ⟨v, rfl, hv⟩ := ha
    have hd : ∀ i, (p i).covar.diag = v i := fun i => by
      have : (p i).covar = _ := hv i
      rw [this, Matrix.diag_diagonal]
    refine ⟨⟨fun i k => fin ((p i).m k), fun i k => fin (v i k)⟩, ?_, fun X => ⟨?_, rfl⟩⟩
    · simp only [vlayoutDiag, gaussDiagSub, hm, hc, Option.bind_eq_bind, Option.bind_some, asMat_mat]
      rfl
    · have h := VGaussian.loglikDiag_covar (p := p) (fun i => by rw [hd]; exact hv i) (hr (.inl rfl)) X
      have e : (fun i k => fin ((p i).covar k k) : Fin nc → Fin nf → XF) = fun i k => fin (v i k) := by
        funext i k
        exact congrArg fin (congrFun (hd i) k)
      rw [e] at h
      exact congrArg Except.ok h

noncomputable def laysSpherical : Lays (vlayoutSpherical (G := G) eig) nc nf where
  H := VGaussian.holdsSpherical
  readDof := by rintro ν a rfl; exact asRow_vec ν
  readSc := by
    rintro S a ⟨v, rfl, hv⟩
    refine (asRow_vec v).trans (congrArg some ?_)
    funext i
    show fin (v i) = fin (S i 0 0)
    rw [hv i]
    simp
  writeDof := by rintro ν a rfl; rfl
  writeSc := by
    rintro S a ⟨v, rfl, hv⟩
    refine congrArg NdArray.d1 ?_
    funext i
    show fin (S i 0 0) = fin (v i)
    rw [hv i]
    simp
  density p hA hp hr g a hm hc ha := by
    obtain ⟨v, rfl, hv⟩ := ha
    have hv' : ∀ i, (p i).covar = v i • 1 := hv
    refine ⟨⟨fun i k => fin ((p i).m k), fun i _ => fin (v i)⟩, ?_, fun X => ⟨?_, rfl⟩⟩
    · have : asSpherical nc nf (vec v) = some fun i _ => fin (v i) := by
        simp [asSpherical, asMat, asRow, vec]
      simp only [vlayoutSpherical, gaussSphericalSub, hm, hc, Option.bind_eq_bind, Option.bind_some, asMat_mat, this]
      rfl
    · have h := VGaussian.loglikDiag_covar (p := p) (fun i => by
        rw [hv' i]
        ext k l
        by_cases hkl : k = l
        · subst hkl; simp
        · simp [hkl]) (hr (.inr rfl)) X
      have e : (fun i k => fin ((p i).covar k k) : Fin nc → Fin nf → XF) = fun i _ => fin (v i) := by
        funext i k
        rw [hv' i]
        simp
      rw [e] at h
      exact congrArg Except.ok h

end

/-! ## `_check` -/

theorem vgauss_check {nc nf : ℕ} {ty : CovType} {e : VEst XF G (VGaussAttrs XF)} {p m : GaussPost nc nf}
    (h : VStoresGauss ty p e m) : vgaussCheck ty e = (.ok (), e) := by
  obtain ⟨⟨rfl, h2, h3, h4, h5, h6⟩, b1, b2, m1, m2, ⟨d1, hd1, sd1⟩, ⟨d2, hd2, sd2⟩, ⟨s1, hs1, ss1⟩, ⟨s2, hs2, ss2⟩⟩ := h
  have k1 : (mat fun i => (p.p i).m).shape = [e.nComponents, nf] := rfl
  have k2 : (mat fun i => (m.p i).m).shape = [e.nComponents, nf] := rfl
  have k3 : (vec fun i => (p.p i).β).shape = [e.nComponents] := rfl
  have k4 : (vec fun i => (m.p i).β).shape = [e.nComponents] := rfl
  unfold vgaussCheck checkPair attr
  simp only [h2, b1, b2, m1, m2, hd1, hd2, hs1, hs2, storesDof_shape sd1, storesDof_shape sd2, storesScale_shape ss1,
    storesScale_shape ss2, k1, k2, k3, k4, bind, Except.bind, ne_eq, not_true_eq_false, if_false]

/-! ## Training -/

theorem vgauss_answers {nf : ℕ} [NeZero nf] {e : VEst XF G (VGaussAttrs XF)} [NeZero e.nComponents] {L : VLayout XF G}
    (K : Lays L e.nComponents nf) {p m : GaussPost e.nComponents nf} (hst : VStoresGauss L.ty p e m)
    (hm1 : ∀ i, 0 < m.s i) (hm2 : ∀ i j, 0 < m.t i j) (hm3 : ∀ i, (m.p i).Proper) (hA : Allowed L.ty m.p)
    (hr : Resolved L.ty m.p)
    (g1 : e.startprob = some (vec (dirMean m.s))) (g2 : e.transmat = some (mat fun i => dirMean (m.t i)))
    {a : NdArray XF} (g3 : e.sub.sub.covars = some a) (g4 : StoresScale L.ty (fun i => (m.p i).covar) a) :
    AnswersBy (vmethodsOf (vgaussSub L sci eig)) e realsX (dirMean m.s) (fun i => dirMean (m.t i))
      (mvnB (fun i => (m.p i).m) fun i => (m.p i).covar) := by
  have hch : HoldsChain e (dirMean m.s) (fun i => dirMean (m.t i)) :=
    ⟨g1, g2, fun i => (dirMean_pos hm1 i).le, fun i j => (dirMean_pos (hm2 i) j).le,
      by rw [sum_dirMean hm1]; simp [NearOne]; positivity,
      fun i => by rw [sum_dirMean (hm2 i)]; simp [NearOne]; positivity⟩
  have he : { e with nFeatures := some nf, sub := e.sub } = e := by rw [← hst.chain.nFeatures]
  obtain ⟨θ, hθ, hd⟩ := K.density m.p hA hm3 hr e.sub.sub.gauss a hst.meansPost g3 g4
  have hb : ∀ (x : Fin nf → ℝ) i, 0 ≤ mvnB (fun i => (m.p i).m) (fun i => (m.p i).covar) x i := fun x i =>
    (Gaussian.mvnPdf_pos (VGaussian.covar_posDef (hm3 i)) _ _).le
  refine vanswers_of ?_ ?_ ?_
  · unfold VSub.checkFitted
    refine (Py.bind_ok (Py.get_apply _)).trans ?_
    have : e.startprob.isNone = false := by rw [g1]; rfl
    simp only [this, Bool.false_eq_true, if_false]
    exact vgauss_check hst
  · exact hch.fitted
  · refine answers_of hch (S := vgaussCore L) (nf := nf) (p := e.sub) (by rw [he]; rfl) (θ := θ) hθ Gaussian.row
      (fun impl => ?_) (reals_data (NeZero.ne nf))
    exact
      { startprob_eq := rfl, transmat_eq := rfl, π_nonneg := hch.π_nonneg, A_nonneg := hch.A_nonneg, b_nonneg := hb
        lik_eq := fun X => by
          show (L.emission e.sub.sub.gauss e.nComponents nf).lik θ (X.map Gaussian.row) = _
          rw [(hd X).2, (hd X).1]
          exact congrArg Except.ok (Gaussian.expRows_log _ hb X)
        loglik_eq := fun X => (hd X).1 }

theorem vgauss_loop (hsci : sci.Exact) {nf : ℕ} [NeZero nf] {impl : Impl} {e : VEst XF G (VGaussAttrs XF)}
    [NeZero e.nComponents] {L : VLayout XF G} (K : Lays L e.nComponents nf)
    (hset : VSettings e impl) (hcm : 'c' ∈ e.params → 'm' ∈ e.params) {p m : GaussPost e.nComponents nf}
    (hst : VStoresGauss L.ty p e m)
    (hp1 : ∀ i, 0 < p.s i) (hp2 : ∀ i j, 0 < p.t i j) (hp3 : ∀ i, (p.p i).Proper)
    (hm1 : ∀ i, 0 < m.s i) (hm2 : ∀ i j, 0 < m.t i j) (hm3 : ∀ i, (m.p i).Proper)
    {sP : Option (Fin e.nComponents → ℝ)} (h1 : e.startprob = sP.map vec)
    {tP : Option (Fin e.nComponents → Fin e.nComponents → ℝ)} (h2 : e.transmat = tP.map mat)
    {ss : List (ObsSeq (Fin nf → ℝ))} (hne : ss ≠ []) {X' : XArr XF}
    (hX : gaussRows nf X' = .ok ((samples ss).map Gaussian.row)) {ls : Option (List Int)} (hl : LengthsFor ss ls) :
    VTrainsFrom (vgaussTraining L.ty (vgaussSub L sci eig) p e.params ss) m e impl ((vgaussSub L sci eig).loop X' ls e) := by
  obtain ⟨d₀, hd₀, sd₀⟩ := hst.dofPri
  obtain ⟨d, hd, sd⟩ := hst.dofPost
  obtain ⟨s₀, hs₀, ss₀⟩ := hst.scalePri
  obtain ⟨s, hs, ssc⟩ := hst.scalePost
  have hA₀ : Allowed L.ty p.p := allowed_of_stores sd₀ ss₀
  have hA : Allowed L.ty m.p := allowed_of_stores sd ssc
  let F := VGaussian.family K.H hsci hp3 hA₀ e.params hcm
  let c : RConfig e.nComponents := ⟨p.s, p.t, impl, e.nIter⟩
  let r0 : VR e.nComponents (VGaussian.R L.ty e.nComponents nf) := ⟨m.s, m.t, sP, tP, ⟨m.p, none, hm3, hA⟩⟩
  let pt : VR e.nComponents (VGaussian.R L.ty e.nComponents nf) → GaussPost e.nComponents nf := fun r => ⟨r.s, r.t, r.q.p⟩
  have hc : c.Pos := ⟨hp1, hp2⟩
  have hr0 : r0.Pos := ⟨hm1, hm2⟩
  have hput : ∀ r mon, VStoresGauss L.ty p ((vgaussSub L sci eig).put (nf := nf) e (F.theta r) mon) (pt r) := by
    intro r mon
    obtain ⟨⟨a, ha⟩, ⟨b, hb⟩, -⟩ := stores_of_allowed r.q.allowed
    exact ⟨⟨rfl, hst.chain.nFeatures, hst.chain.startPrior, hst.chain.transPrior, rfl, rfl⟩, hst.betaPri, rfl, hst.meansPri, rfl,
      hst.dofPri, ⟨a, congrArg some (K.writeDof ha), ha⟩, hst.scalePri, ⟨b, congrArg some (K.writeSc hb), hb⟩⟩
  have hT : ∀ r : VR e.nComponents (VGaussian.R L.ty e.nComponents nf), r.Pos → PosLin (obsStat (expWeight r.s)
      (fun i => expWeight (r.t i)) (nwB r.q.p) ss) := fun r hr =>
    obsStat_posLin hr.valid.π_nonneg hr.valid.A_nonneg (fun x i => (VGaussian.weight_pos _ _).le) ss
  have hq : ∀ (r : VR e.nComponents (VGaussian.R L.ty e.nComponents nf)) (hr : r.Pos), (F.vstep c ss r).q =
      ⟨nwUpdate L.ty e.params p.p r.q.p (obsStat (expWeight r.s) (fun i => expWeight (r.t i)) (nwB r.q.p) ss),
      if 'c' ∈ e.params then some fun i => (nwUpdate L.ty e.params p.p r.q.p
          (obsStat (expWeight r.s) (fun i => expWeight (r.t i)) (nwB r.q.p) ss) i).ν⁻¹ • (nwUpdate L.ty e.params p.p r.q.p
          (obsStat (expWeight r.s) (fun i => expWeight (r.t i)) (nwB r.q.p) ss) i).S else r.q.cov,
      VGaussian.nwUpdate_proper L.ty e.params (hT r hr) hp3 r.q.proper, VGaussian.nwUpdate_allowed L.ty e.params hA₀ r.q.allowed⟩ := by
    intro r hr
    exact dif_pos (hT r hr)
  have hup : GaussUpdates L.ty p.s p.t p.p e.params ss (fun k => ((F.vstep c ss)^[k] r0).s) (fun k => ((F.vstep c ss)^[k] r0).t)
      (fun k => ((F.vstep c ss)^[k] r0).q.p) := by
    refine ⟨?_, ?_, ?_⟩
    · intro k; rw [Function.iterate_succ_apply']; rfl
    · intro k; rw [Function.iterate_succ_apply']; rfl
    · intro k; rw [Function.iterate_succ_apply', hq _ (F.iterate_pos hc ss hr0 k)]
  have es : ∀ r mon, 's' ∈ e.params → ((vgaussSub L sci eig).put (nf := nf) e (F.theta (F.vstep c ss r)) mon).startprob =
      some (vec (dirMean (pt (F.vstep c ss r)).s)) := by
    intro r mon h
    have : (F.vstep c ss r).sp = some (dirMean (F.vstep c ss r).s) := by simp [VFamily.vstep, h]
    show (((F.vstep c ss r).sp.map fun p i => fin (p i)).map NdArray.d1 <|> e.startprob) = _
    rw [this]
    rfl
  have et : ∀ r mon, 't' ∈ e.params → ((vgaussSub L sci eig).put (nf := nf) e (F.theta (F.vstep c ss r)) mon).transmat =
      some (mat fun i => dirMean ((pt (F.vstep c ss r)).t i)) := by
    intro r mon h
    have : (F.vstep c ss r).tp = some (fun i => dirMean ((F.vstep c ss r).t i)) := by simp [VFamily.vstep, h]
    show (((F.vstep c ss r).tp.map fun p i j => fin (p i j)).map NdArray.d2 <|> e.transmat) = _
    rw [this]
    rfl
  have ec : ∀ r mon, r.Pos → 'c' ∈ e.params → ∃ a, ((vgaussSub L sci eig).put (nf := nf) e (F.theta (F.vstep c ss r)) mon).sub.sub.covars =
      some a ∧ StoresScale L.ty (fun i => ((pt (F.vstep c ss r)).p i).covar) a := by
    intro r mon hr h
    obtain ⟨-, -, a, ha⟩ := stores_of_allowed (F.vstep c ss r).q.allowed
    refine ⟨a, ?_, ha⟩
    have : (F.vstep c ss r).q.cov = some fun i => ((F.vstep c ss r).q.p i).covar := by
      rw [hq r hr]; simp [h, NW.covar]
    show ((((F.vstep c ss r).q.cov).map K.H.toSc).map L.writeSc <|> e.sub.sub.covars) = _
    rw [this, Option.map_some, Option.map_some, K.writeSc ha]
    rfl
  refine vloop_trains (V := vgaussSub L sci eig) F (c := c) (r := r0) (vgaussTraining L.ty (vgaussSub L sci eig) p e.params ss)
    hsci hset.implementation rfl hset.nIter hc hr0 hst.chain h1 h2 ?_ ?_ hne hX hl ?_ pt (fun r => rfl) hup
    (fun r mon _ => hput r mon) (fun r mon hr => ⟨⟨es r mon, et r mon⟩, ec r mon hr⟩) fun r mon hr k1 k2 k3 k4 => ?_
  · show (do
      let b ← e.sub.sub.betaPri.bind (asRow e.nComponents)
      let m ← e.sub.sub.meansPri.bind (asMat e.nComponents nf)
      let d ← e.sub.sub.dofPri.bind (L.readDof e.nComponents)
      let s ← e.sub.sub.scalePri.bind (L.readSc e.nComponents nf)
      return (⟨b, m, d, s⟩ : VGaussian.Prior XF e.nComponents nf (L.Dof e.nComponents) (L.Sc e.nComponents nf))) = _
    rw [hst.betaPri, hst.meansPri, hd₀, hs₀]
    simp only [Option.bind_some, asRow_vec, asMat_mat, K.readDof sd₀, K.readSc ss₀]
    rfl
  · show (do
      let b ← e.sub.sub.betaPost.bind (asRow e.nComponents)
      let m ← e.sub.sub.meansPost.bind (asMat e.nComponents nf)
      let d ← e.sub.sub.dofPost.bind (L.readDof e.nComponents)
      let s ← e.sub.sub.scalePost.bind (L.readSc e.nComponents nf)
      return (⟨b, m, d, s, none⟩ : VGaussian.Params XF e.nComponents nf (L.Dof e.nComponents) (L.Sc e.nComponents nf))) = _
    rw [hst.betaPost, hst.meansPost, hd, hs]
    simp only [Option.bind_some, asRow_vec, asMat_mat, K.readDof sd, K.readSc ssc]
    rfl
  · rcases hset.transmat with h | h
    · exact .inl h
    · right
      rw [h2] at h
      simpa using h
  · have hr' := F.vstep_pos hc ss hr
    obtain ⟨a, ha1, ha2⟩ := ec r mon hr k3
    haveI : NeZero ((vgaussSub L sci eig).put (nf := nf) e (F.theta (F.vstep c ss r)) mon).nComponents :=
      inferInstanceAs (NeZero e.nComponents)
    exact vgauss_answers (e := (vgaussSub L sci eig).put (nf := nf) e (F.theta (F.vstep c ss r)) mon) K (p := p)
      (m := pt (F.vstep c ss r)) (hput _ mon) hr'.s hr'.t (F.vstep c ss r).q.proper (F.vstep c ss r).q.allowed k4
      (es r mon k1) (et r mon k2) ha1 ha2

/-! ## `fit` -/

/-- The object ends as the training from laws from which it may start leaves it. -/
def Spec.FitsVGauss {nf : ℕ} (L : VLayout XF G) (sci : Sci XF) (eig : Eigvalsh XF) (R : RandomLib XF G) (impl : Impl)
    (w : World XF G (VAttrs XF (VGaussAttrs XF))) [NeZero w.est.nComponents] (ss : List (ObsSeq (Fin nf → ℝ)))
    (ls : Option (List Int)) : Prop :=
  ∃ p m₀ : GaussPost w.est.nComponents nf, VStartsGauss L.ty R w.est ss.length (samples ss) p m₀ ∧
    VTrainsFrom (vgaussTraining L.ty (vgaussSub L sci eig) p w.est.params ss) m₀ w.est impl
      (((vgaussSub L sci eig).fit R (realsX (samples ss)) ls w).1, ((vgaussSub L sci eig).fit R (realsX (samples ss)) ls w).2.est)

theorem fits_vgauss (hsci : sci.Exact) (heig : EigvalshSpec eig) {nf : ℕ} [NeZero nf] {impl : Impl}
    {w : World XF G (VAttrs XF (VGaussAttrs XF))} [NeZero w.est.nComponents] {L : VLayout XF G}
    (K : Lays L w.est.nComponents nf) {ss : List (ObsSeq (Fin nf → ℝ))}
    {ls : Option (List Int)} (h : VGaussCall L.ty R impl w ss ls) : FitsVGauss L sci eig R impl w ss ls := by
  have hsne := samples_ne h.data
  have hn : (XArr.floats ((samples ss).map Gaussian.row) : XArr XF).n = (samples ss).length := by simp [XArr.n]
  obtain ⟨l1, l2⟩ := lengths_counts h.lengths hn
  have l2' : (ls.getD [((XArr.floats ((samples ss).map Gaussian.row) : XArr XF).n : Int)]).sum =
      ((samples ss).length : Int) := by rw [l2, hn]
  obtain ⟨rs, g, p, m, d₀, d, s₀, s, cov, hinit, sd₀, sd, ss₀, ssc, hm⟩ := vgauss_starts (L := L) (sci := sci) heig h.draws
    h.centres (NeZero.ne nf) hsne h.features (NeZero.ne _) h.given h.enough h.params
    (lens := ls.getD [((XArr.floats ((samples ss).map Gaussian.row) : XArr XF).n : Int)])
    (by rw [l1]; exact fun h' => h.data (List.length_eq_zero_iff.1 h')) l2'
  rw [l1] at hm
  refine ⟨p, m, hm, ?_⟩
  obtain ⟨sP, hsP⟩ := h.given.chain.startprob
  obtain ⟨tP, htP⟩ := h.given.chain.transmat
  generalize hw1 : (⟨{ w.est with
        nFeatures := some nf, randomState := rs
        sub :=
          { chain := { w.est.sub.chain with startPrior := some (vec p.s), startPost := some (vec m.s)
                                            transPrior := some (mat p.t), transPost := some (mat m.t) }
            sub := { w.est.sub.sub with
              meansPri := some (mat fun i => (p.p i).m), meansPost := some (mat fun i => (m.p i).m)
              betaPri := some (vec fun i => (p.p i).β), betaPost := some (vec fun i => (m.p i).β)
              dofPri := some d₀, dofPost := some d, scalePri := some s₀, scalePost := some s, covars := cov } } }, g⟩ :
      World XF G (VAttrs XF (VGaussAttrs XF))) = w1 at hinit
  have hst : VStoresGauss L.ty p w1.est m := by
    subst hw1
    exact ⟨⟨rfl, rfl, rfl, rfl, rfl, rfl⟩, rfl, rfl, rfl, rfl, ⟨_, rfl, sd₀⟩, ⟨_, rfl, sd⟩, ⟨_, rfl, ss₀⟩, ⟨_, rfl, ssc⟩⟩
  have hcheck : (vgaussSub L sci eig).check w1.est = (.ok (), w1.est) := by
    subst hw1
    exact vgauss_check (p := p) (m := m) hst
  have hs1 : SameSettings w.est w1.est := by subst hw1; exact ⟨rfl, rfl, rfl, rfl, rfl, rfl, rfl, rfl, rfl⟩
  rw [VSub.fit_eq (reals_array (NeZero.ne nf) hsne) ls hinit hcheck]
  subst hw1
  haveI : NeZero ({ w.est with
        nFeatures := some nf, randomState := rs
        sub :=
          { chain := { w.est.sub.chain with startPrior := some (vec p.s), startPost := some (vec m.s)
                                            transPrior := some (mat p.t), transPost := some (mat m.t) }
            sub := { w.est.sub.sub with
              meansPri := some (mat fun i => (p.p i).m), meansPost := some (mat fun i => (m.p i).m)
              betaPri := some (vec fun i => (p.p i).β), betaPost := some (vec fun i => (m.p i).β)
              dofPri := some d₀, dofPost := some d, scalePri := some s₀, scalePost := some s, covars := cov } } } :
        VEst XF G (VGaussAttrs XF)).nComponents := inferInstanceAs (NeZero w.est.nComponents)
  obtain ⟨t1, t2, t3, t4⟩ := vgauss_loop (e := { w.est with
        nFeatures := some nf, randomState := rs
        sub :=
          { chain := { w.est.sub.chain with startPrior := some (vec p.s), startPost := some (vec m.s)
                                            transPrior := some (mat p.t), transPost := some (mat m.t) }
            sub := { w.est.sub.sub with
              meansPri := some (mat fun i => (p.p i).m), meansPost := some (mat fun i => (m.p i).m)
              betaPri := some (vec fun i => (p.p i).β), betaPost := some (vec fun i => (m.p i).β)
              dofPri := some d₀, dofPost := some d, scalePri := some s₀, scalePost := some s, covars := cov } } })
    hsci K ⟨NeZero.ne w.est.nComponents, h.nIter, h.implementation, h.transmat⟩ h.meansToo hst hm.chain.sp_pos hm.chain.tp_pos
    hm.prior hm.chain.s_pos hm.chain.t_pos hm.proper hsP htP h.data (gaussRows_floats _) h.lengths
  exact ⟨t1, ⟨t2.1.trans hs1.1, t2.2.trans hs1.2, t2.3.trans hs1.3, t2.4.trans hs1.4, t2.5.trans hs1.5,
    t2.6.trans hs1.6, t2.7.trans hs1.7, t2.8.trans hs1.8, t2.9.trans hs1.9⟩, t3, t4⟩

section
variable {nf : ℕ} {impl : Impl} {w : World XF G (VAttrs XF (VGaussAttrs XF))} [NeZero w.est.nComponents]
  {ss : List (ObsSeq (Fin nf → ℝ))} {ls : Option (List Int)}

/-- **C79** `fit` of a `VariationalGaussianHMM(covariance_type="full")`: any data set, any priors that can be passed or
were set, any `params`, `init_params` and implementation. -/
theorem C79_full (hsci : sci.Exact) (heig : EigvalshSpec eig) (h : VGaussCall .full R impl w ss ls) :
    FitsVGauss (vlayoutFull eig) sci eig R impl w ss ls := by
  haveI : NeZero nf := ⟨h.columns⟩
  exact fits_vgauss hsci heig laysFull h

/-- **C79** The same for `tied`. -/
theorem C79_tied (hsci : sci.Exact) (heig : EigvalshSpec eig) (h : VGaussCall .tied R impl w ss ls) :
    FitsVGauss (vlayoutTied eig) sci eig R impl w ss ls := by
  haveI : NeZero nf := ⟨h.columns⟩
  exact fits_vgauss hsci heig laysTied h

/-- **C79** The same for `diag`. -/
theorem C79_diag (hsci : sci.Exact) (heig : EigvalshSpec eig) (h : VGaussCall .diag R impl w ss ls) :
    FitsVGauss (vlayoutDiag eig) sci eig R impl w ss ls := by
  haveI : NeZero nf := ⟨h.columns⟩
  exact fits_vgauss hsci heig laysDiag h

/-- **C79** The same for `spherical`. -/
theorem C79_spherical (hsci : sci.Exact) (heig : EigvalshSpec eig) (h : VGaussCall .spherical R impl w ss ls) :
    FitsVGauss (vlayoutSpherical eig) sci eig R impl w ss ls := by
  haveI : NeZero nf := ⟨h.columns⟩
  exact fits_vgauss hsci heig laysSpherical h

end

/-! ## A new object -/

/-- An update keeps the variances above the limit if the prior scale is above it per sample. -/
theorem nwUpdate_resolved {nc nf : ℕ} [NeZero nc] [NeZero nf] {ty : CovType} {params : List Char} (pc : 'c' ∈ params)
    {s : Fin nc → ℝ} {t : Fin nc → Fin nc → ℝ} {p₀ p : Fin nc → NW nf} (h₀ : ∀ i, (p₀ i).Proper)
    {ss : List (ObsSeq (Fin nf → ℝ))}
    (htiny : (ty = .diag ∨ ty = .spherical) → ∀ i k, tinyVar * ((p₀ i).ν + numSamples ss) ≤ (p₀ i).S k k) :
    Resolved ty (nwUpdate ty params p₀ p (obsStat (expWeight s) (fun i => expWeight (t i)) (nwB p) ss)) := by
  intro hty i j
  have hπ : ∀ i, 0 ≤ expWeight s i := fun i => (expWeight_pos _ i).le
  have hA' : ∀ i j, 0 ≤ expWeight (t i) j := fun i j => (expWeight_pos _ j).le
  have hw : ∀ x i, 0 ≤ nwB p x i := fun x i => (VGaussian.weight_pos _ _).le
  have hT := obsStat_posLin hπ hA' hw ss
  set T := obsStat (expWeight s) (fun i => expWeight (t i)) (nwB p) ss with hTd
  have hN : T i (fun _ => 1) ≤ numSamples ss := by
    refine (obsStat_le hπ hA' hw ss (fun s' _ => likelihood_pos_of_pos (fun i => expWeight_pos _ i)
      (fun i j => expWeight_pos _ j) (fun x i => VGaussian.weight_pos _ _) s') i fun _ => zero_le_one).trans ?_
    simp [numSamples, Function.comp_def]
  have h0 : 0 ≤ T i (fun _ => 1) := hT.nonneg i _ fun _ => zero_le_one
  have hty' : ty ≠ .tied := by rcases hty with h | h <;> simp [h]
  have eν : (nwUpdate ty params p₀ p T i).ν = (p₀ i).ν + T i (fun _ => 1) := by
    rw [VGaussian.nwUpdate_eq]; simp [pc, shareCount, hty']
  have eS : (p₀ i).S j j ≤ (nwUpdate ty params p₀ p T i).S j j := by
    have h : (nwUpdate ty params p₀ p T i).S = (p₀ i).S + shareScatter ty (VGaussian.CNext p₀ T) i := by
      rw [VGaussian.nwUpdate_eq]; simp [pc]
    rw [h, Matrix.add_apply]
    linarith [(VGaussian.share_psd ty (VGaussian.CNext_psd hT h₀) i).diag_nonneg (i := j)]
  have hνpos : 0 < (nwUpdate ty params p₀ p T i).ν := by
    have h1 : (1 : ℝ) ≤ nf := by exact_mod_cast NeZero.one_le
    rw [eν]
    linarith [(h₀ i).ν]
  rw [NW.covar, Matrix.smul_apply, smul_eq_mul, inv_mul_eq_div, le_div_iff₀ hνpos]
  refine le_trans ?_ ((htiny hty i j).trans eS)
  exact mul_le_mul_of_nonneg_left (by linarith) tinyVar_pos.le

/-- The object is the trained Gaussian HMM, and scores every data set with a number. -/
def Spec.VGaussReady {nf : ℕ} (L : VLayout XF G) (sci : Sci XF) (eig : Eigvalsh XF) (R : RandomLib XF G)
    (w : World XF G (VAttrs XF (VGaussAttrs XF))) (ss : List (ObsSeq (Fin nf → ℝ))) (ls : Option (List Int)) : Prop :=
  let res := (vgaussSub L sci eig).fit R (realsX (samples ss)) ls w
  res.1 = .ok () ∧ ∃ p m : GaussPost w.est.nComponents nf, VStoresGauss L.ty p res.2.est m ∧ (∀ i, (m.p i).covar.PosDef) ∧
    AnswersBy (vmethodsOf (vgaussSub L sci eig)) res.2.est realsX (dirMean m.s) (fun i => dirMean (m.t i))
      (mvnB (fun i => (m.p i).m) fun i => (m.p i).covar) ∧
    ∀ ss' : List (ObsSeq (Fin nf → ℝ)), ss' ≠ [] → ∃ v : ℝ,
      ((vgaussSub L sci eig).score (realsX (samples ss')) (some (dataLengths ss')) res.2.est).1 = .ok (fin v)

theorem vgauss_ready (hsci : sci.Exact) (heig : EigvalshSpec eig) {nf : ℕ} [NeZero nf]
    {w : World XF G (VAttrs XF (VGaussAttrs XF))} [NeZero w.est.nComponents] {L : VLayout XF G}
    (K : Lays L w.est.nComponents nf) {ss : List (ObsSeq (Fin nf → ℝ))}
    {ls : Option (List Int)} (h : VGaussCall L.ty R .log w ss ls) (hpar : w.est.params = ['s', 't', 'm', 'c'])
    (hinit : 'c' ∈ w.est.initParams) (hd : w.est.sub.sub.dofPrior = none) (hs : w.est.sub.sub.scalePrior = none)
    (htiny : (L.ty = .diag ∨ L.ty = .spherical) → tinyVar * (nf + numSamples ss) ≤ 1 / 1000) :
    VGaussReady L sci eig R w ss ls := by
  obtain ⟨p, m₀, hm, t1, t2, -, t4⟩ := fits_vgauss hsci heig K h
  have hok : ((vgaussSub L sci eig).fit R (realsX (samples ss)) ls w).1 = .ok () := by
    rcases t1 with h | ⟨h, -⟩
    · exact h
    · exact absurd h (by decide)
  obtain ⟨n, m, k1, -, k2, k3, k4, -, -, -, k5⟩ := t4
  obtain ⟨_, _, -, -, hcov⟩ := hm.init
  obtain ⟨a1, a2, -⟩ := hcov (.inl hinit)
  rw [hd] at a1
  rw [hs] at a2
  generalize hν : (fun i => (p.p i).ν) = ν at a1
  generalize hS : (fun i => (p.p i).S) = S at a2
  cases a1
  cases a2
  have ht : (L.ty = .diag ∨ L.ty = .spherical) → ∀ i k, tinyVar * ((p.p i).ν + numSamples ss) ≤ (p.p i).S k k := by
    intro hty i k
    have e1 : (p.p i).ν = nf := congrFun hν i
    have e2 : (p.p i).S = (1 / 1000 : ℝ) • 1 := congrFun hS i
    rw [e1, e2]
    simpa using htiny hty
  have hpos : ∀ k, (∀ i, 0 < (m k).s i) ∧ (∀ i j, 0 < (m k).t i j) ∧ ∀ i, ((m k).p i).Proper := by
    intro k
    induction k with
    | zero => rw [k1]; exact ⟨hm.chain.s_pos, hm.chain.t_pos, hm.proper⟩
    | succ k ih =>
      have e1 := k3.start k
      have e2 := k3.trans k
      have e3 := k3.emit k
      rw [if_pos (by simp [hpar])] at e1 e2
      have w1 : ∀ i, 0 ≤ expWeight (m k).s i := fun i => (expWeight_pos _ _).le
      have w2 : ∀ i j, 0 ≤ expWeight ((m k).t i) j := fun i j => (expWeight_pos _ _).le
      have w3 : ∀ (o : Fin nf → ℝ) i, 0 ≤ nwB (m k).p o i := fun o i => (VGaussian.weight_pos _ _).le
      refine ⟨fun i => ?_, fun i j => ?_, fun i => ?_⟩
      · rw [e1]
        exact add_pos_of_pos_of_nonneg (hm.chain.sp_pos i) (startStat_nonneg w1 w2 w3 ss i)
      · rw [e2]
        exact add_pos_of_pos_of_nonneg (hm.chain.tp_pos i j) (transStat_nonneg w1 w2 w3 ss i j)
      · rw [e3]
        exact VGaussian.nwUpdate_proper L.ty w.est.params (obsStat_posLin w1 w2 w3 ss) hm.prior ih.2.2 i
  obtain ⟨q1, q2, q3⟩ := hpos n
  have hn : n ≠ 0 := (k2 hok).ne'
  have hres : Resolved L.ty (m n).p := by
    obtain ⟨j, rfl⟩ := Nat.exists_eq_succ_of_ne_zero hn
    have e3 := k3.emit j
    rw [Nat.succ_eq_add_one, e3]
    exact nwUpdate_resolved (by simp [hpar]) hm.prior ht
  have ha := k5 hok (by simp [hpar]) (by simp [hpar]) (by simp [hpar]) hres
  have hc : ∀ i, ((m n).p i).covar.PosDef := fun i => VGaussian.covar_posDef (q3 i)
  refine ⟨hok, p, m n, k4, hc, ha, fun ss' hne' => ?_⟩
  have hL := dataLikelihood_pos (nc := w.est.nComponents) (π := dirMean (m n).s) (A := fun i => dirMean ((m n).t i))
    (b := mvnB (fun i => ((m n).p i).m) fun i => ((m n).p i).covar) (fun i => dirMean_pos q1 i) (fun i j => dirMean_pos (q2 i) j)
    (fun o i => Gaussian.mvnPdf_pos (hc i) _ _) ss'
  refine ⟨Real.log (dataLikelihood (dirMean (m n).s) (fun i => dirMean ((m n).t i))
    (mvnB (fun i => ((m n).p i).m) fun i => ((m n).p i).covar) ss'), (ha.score ?_ ss' _ hne' (.inl rfl)).trans ?_⟩
  · rw [t2.implementation, h.implementation]; rfl
  · rw [xlog, if_neg hL.ne']

section
variable {nf : ℕ} {w : World XF G (VAttrs XF (VGaussAttrs XF))} [NeZero w.est.nComponents]
  {ss : List (ObsSeq (Fin nf → ℝ))} {ls : Option (List Int)}

/-- **C79** A `VariationalGaussianHMM(covariance_type="full")` with the default priors of the covariances: `fit`
returns, and the object is the Gaussian HMM of the means of the posteriors. -/
theorem C79_full_ready (hsci : sci.Exact) (heig : EigvalshSpec eig) (h : VGaussCall .full R .log w ss ls)
    (hpar : w.est.params = ['s', 't', 'm', 'c']) (hinit : 'c' ∈ w.est.initParams) (hd : w.est.sub.sub.dofPrior = none)
    (hs : w.est.sub.sub.scalePrior = none) : VGaussReady (vlayoutFull eig) sci eig R w ss ls := by
  haveI : NeZero nf := ⟨h.columns⟩
  exact vgauss_ready hsci heig laysFull h hpar hinit hd hs (by rintro (h | h) <;> cases h)

/-- **C79** The same for `tied`. -/
theorem C79_tied_ready (hsci : sci.Exact) (heig : EigvalshSpec eig) (h : VGaussCall .tied R .log w ss ls)
    (hpar : w.est.params = ['s', 't', 'm', 'c']) (hinit : 'c' ∈ w.est.initParams) (hd : w.est.sub.sub.dofPrior = none)
    (hs : w.est.sub.sub.scalePrior = none) : VGaussReady (vlayoutTied eig) sci eig R w ss ls := by
  haveI : NeZero nf := ⟨h.columns⟩
  exact vgauss_ready hsci heig laysTied h hpar hinit hd hs (by rintro (h | h) <;> cases h)

/-- **C79** The same for `diag`; the bound on the number of samples is about `10³⁰⁵`. -/
theorem C79_diag_ready (hsci : sci.Exact) (heig : EigvalshSpec eig) (h : VGaussCall .diag R .log w ss ls)
    (hpar : w.est.params = ['s', 't', 'm', 'c']) (hinit : 'c' ∈ w.est.initParams) (hd : w.est.sub.sub.dofPrior = none)
    (hs : w.est.sub.sub.scalePrior = none) (htiny : tinyVar * (nf + numSamples ss) ≤ 1 / 1000) :
    VGaussReady (vlayoutDiag eig) sci eig R w ss ls := by
  haveI : NeZero nf := ⟨h.columns⟩
  exact vgauss_ready hsci heig laysDiag h hpar hinit hd hs fun _ => htiny

/-- **C79** The same for `spherical`. -/
theorem C79_spherical_ready (hsci : sci.Exact) (heig : EigvalshSpec eig) (h : VGaussCall .spherical R .log w ss ls)
    (hpar : w.est.params = ['s', 't', 'm', 'c']) (hinit : 'c' ∈ w.est.initParams) (hd : w.est.sub.sub.dofPrior = none)
    (hs : w.est.sub.sub.scalePrior = none) (htiny : tinyVar * (nf + numSamples ss) ≤ 1 / 1000) :
    VGaussReady (vlayoutSpherical eig) sci eig R w ss ls := by
  haveI : NeZero nf := ⟨h.columns⟩
  exact vgauss_ready hsci heig laysSpherical h hpar hinit hd hs fun _ => htiny

end

/-! ## An empty last cluster -/

section
variable {α : Type} [FloatLike α]

theorem vgaussInitCovars_keeps (eig : Eigvalsh α) (ty : CovType) {d : ℕ} (X : List (Fin d → α)) (counts : List ℕ)
    (e : VEst α G (VGaussAttrs α)) : (vgaussInitCovars eig ty X counts e).2.sub.sub.betaPost = e.sub.sub.betaPost ∧
      (vgaussInitCovars eig ty X counts e).2.nComponents = e.nComponents := by
  unfold vgaussInitCovars
  rw [Py.bind_apply, Py.get_apply]
  dsimp only
  cases needsCovars e with
  | false => exact ⟨rfl, rfl⟩
  | true =>
    simp only [if_true]
    rw [Py.bind_apply, Py.modify_apply]
    dsimp only
    rw [Py.bind_apply, Py.lift_apply]
    cases setCovars eig ty e.nComponents (distributeCovar (initCov (ofRat (1 / 1000)) X) ty e.nComponents) with
    | error err => exact ⟨rfl, rfl⟩
    | ok c =>
      dsimp only
      rw [Py.bind_apply, Py.modify_apply]
      dsimp only
      rw [Py.bind_apply, Py.lift_apply]
      cases initScalePost ty counts c with
      | error err => exact ⟨rfl, rfl⟩
      | ok s => exact ⟨rfl, rfl⟩

theorem vgaussCheck_beta (ty : CovType) (e : VEst α G (VGaussAttrs α)) {a : NdArray α} (ha : e.sub.sub.betaPost = some a)
    (hs : a.shape ≠ [e.nComponents]) : (vgaussCheck ty e).1 ≠ .ok () := by
  have hb : ∀ pri, checkPair "beta" [e.nComponents] pri (some a) ≠ .ok () := by
    intro pri
    cases pri with
    | none => simp [checkPair, attr, bind, Except.bind]
    | some b =>
      by_cases h : b.shape = [e.nComponents]
      · simp [checkPair, attr, bind, Except.bind, h, hs]
      · simp [checkPair, attr, bind, Except.bind, h]
  unfold vgaussCheck
  cases e.nFeatures with
  | none => simp
  | some nf =>
    simp only [ha, bind, Except.bind]
    cases checkPair "means" [e.nComponents, nf] e.sub.sub.meansPri e.sub.sub.meansPost with
    | error err => simp
    | ok u =>
      have := hb e.sub.sub.betaPri
      cases h : checkPair "beta" [e.nComponents] e.sub.sub.betaPri (some a) with
      | error err => simp
      | ok u => exact absurd h this

theorem bincount_length {l : List ℕ} {n : ℕ} (h : ∀ x ∈ l, x + 1 < n) (hn : 1 < n) : (bincount l).length < n := by
  unfold bincount
  cases l with
  | nil => simpa using Nat.zero_lt_of_lt hn
  | cons a l =>
    simp only [List.length_map, List.length_range]
    have := natMax_le (m := n - 2) (a :: l) 0 (Nat.zero_le _) fun x hx => by have := h x hx; omega
    omega

/-- **C79** `np.bincount` lists no trailing zeros: if the attributes of the means are to be initialised and `KMeans`
labels no sample with the last of at least two clusters, `fit` raises — whatever the data, the priors and the state
of the object. -/
theorem C79_last_empty (L : VLayout α G) (sci : Sci α) (eig : Eigvalsh α) (R : RandomLib α G) (X : RawX α) {X' : XArr α}
    (hX : checkArray X = .ok X') (ls : Option (List Int)) (w : World α G (VAttrs α (VGaussAttrs α)))
    (hn : 2 ≤ w.est.nComponents) (hfr : 'm' ∈ w.est.initParams ∨ w.est.sub.sub.betaPost = none)
    (hempty : ∀ [NeZero w.est.nComponents] (g : G), ∀ x ∈ X'.floatRows,
      (nearestCentre (R.kmeans w.est.nComponents X'.floatRows g).1 x).val + 1 < w.est.nComponents) :
    ((vgaussSub L sci eig).fit R X ls w).1 ≠ .ok () := by
  intro hok
  have hcf : ∀ X, KeepsEmission (onEst ((vgaussSub L sci eig).core.checkFeatures X)) := by
    intro X w
    show (checkFeaturesBase X w.est).2.initParams = _ ∧ (checkFeaturesBase X w.est).2.sub.sub = _ ∧
      (checkFeaturesBase X w.est).2.nComponents = _
    unfold checkFeaturesBase
    split
    all_goals (try split)
    all_goals exact ⟨rfl, rfl, rfl⟩
  unfold VSub.fit at hok
  rw [Py.bind_apply, Py.lift_apply, hX] at hok
  simp only at hok
  have hin : ∀ w', (vgaussSub L sci eig).init R X' (ls.getD [(X'.n : Int)]) w = (.ok (), w') →
      ∃ a : NdArray α, w'.est.sub.sub.betaPost = some a ∧ a.shape ≠ [w'.est.nComponents] := by
    unfold VSub.init
    have hk := vinitBase_keeps (vgaussSub L sci eig) R X' (ls.getD [(X'.n : Int)]) (hcf X') w
    rw [Py.bind_apply]
    rcases hb : (vgaussSub L sci eig).initBase R X' (ls.getD [(X'.n : Int)]) w with ⟨r, w1⟩
    rw [hb] at hk
    obtain ⟨k1, k2, k3⟩ := hk
    simp only at k1 k2 k3
    cases r with
    | error err => intro w' h; cases h
    | ok u =>
      simp only
      have hempty1 : ∀ n, n = w.est.nComponents → ∀ [NeZero n] (g : G), ∀ x ∈ X'.floatRows,
          (nearestCentre (R.kmeans n X'.floatRows g).1 x).val + 1 < n := by
        rintro n rfl; exact hempty
      have hneed : needsMeans w1.est = true := by
        unfold needsMeans needsInit
        rw [k1, k2]
        rcases hfr with h | h <;> simp [h]
      show ∀ w', vgaussInit eig L.ty R X' (ls.getD [(X'.n : Int)]) w1 = (.ok (), w') →
        ∃ a : NdArray α, w'.est.sub.sub.betaPost = some a ∧ a.shape ≠ [w'.est.nComponents]
      intro w' h
      unfold vgaussInit at h
      rw [Py.bind_apply, Py.get_apply] at h
      have h0 : w1.est.nComponents ≠ 0 := by rw [k3]; omega
      simp only [h0, dif_neg, not_false_eq_true] at h
      by_cases hlt : X'.n < w1.est.nComponents
      · simp only [hlt, if_true] at h
        cases h
      · simp only [hlt, if_false] at h
        haveI : NeZero w1.est.nComponents := ⟨h0⟩
        obtain ⟨rs, g, hgen, -⟩ := withSelfGen_eq R (R.kmeans w1.est.nComponents X'.floatRows) w1
        rw [Py.bind_ok hgen, Py.bind_apply] at h
        have hlen : (clusterCounts (R.kmeans w1.est.nComponents X'.floatRows (selfGen R w1)).1 X'.floatRows).length <
            w1.est.nComponents := by
          refine bincount_length (fun x hx => ?_) (by rw [k3]; omega)
          obtain ⟨r, hr, rfl⟩ := List.mem_map.1 hx
          exact hempty1 _ k3 _ r hr
        generalize clusterCounts (R.kmeans w1.est.nComponents X'.floatRows (selfGen R w1)).1 X'.floatRows = counts at h hlen
        generalize NdArray.d2 (R.kmeans w1.est.nComponents X'.floatRows (selfGen R w1)).1 = cs at h
        have hm : needsMeans { w1.est with randomState := rs } = true := hneed
        have h' : (vgaussInitCovars eig L.ty X'.floatRows counts (vgaussInitMeans X'.floatRows cs counts
            { w1.est with randomState := rs })).2 = w'.est := by
          exact congrArg (fun r => r.2.est) h
        obtain ⟨b1, b2⟩ := vgaussInitCovars_keeps eig L.ty X'.floatRows counts (vgaussInitMeans X'.floatRows cs counts
            { w1.est with randomState := rs })
        rw [h'] at b1 b2
        unfold vgaussInitMeans at b1 b2
        rw [if_pos hm] at b1 b2
        refine ⟨_, b1, ?_⟩
        rw [b2]
        show [counts.length] ≠ [w1.est.nComponents]
        simpa using hlen.ne
  rw [Py.bind_apply] at hok
  rcases hi : (vgaussSub L sci eig).init R X' (ls.getD [(X'.n : Int)]) w with ⟨r, w'⟩
  rw [hi] at hok
  cases r with
  | error err => cases hok
  | ok u =>
    obtain ⟨a, ha, hs⟩ := hin w' hi
    simp only at hok
    rw [Py.bind_apply] at hok
    have hc := vgaussCheck_beta L.ty w'.est ha hs
    have hc' : (onEst (vgaussSub L sci eig).check w').1 ≠ .ok () := hc
    rcases hch : onEst (vgaussSub L sci eig).check w' with ⟨r, w''⟩
    rw [hch] at hok hc'
    cases r with
    | error err => cases hok
    | ok u => exact hc' rfl

end

/-- **C79** Constant data, at least two states: `KMeans` puts all centres at the one sample and labels everything
with the first, so `fit` raises. -/
theorem C79_constant (L : VLayout XF G) (sci : Sci XF) (eig : Eigvalsh XF) {nf : ℕ} (hf : nf ≠ 0) (x : Fin nf → ℝ) {n : ℕ}
    (hn : n ≠ 0) (ls : Option (List Int)) (w : World XF G (VAttrs XF (VGaussAttrs XF))) (hnc : 2 ≤ w.est.nComponents)
    (hfr : 'm' ∈ w.est.initParams ∨ w.est.sub.sub.betaPost = none)
    (hK : ∀ g, (R.kmeans w.est.nComponents ((List.replicate n x).map fun x k => fin (x k)) g).1 = fun _ k => fin (x k)) :
    ((vgaussSub L sci eig).fit R (realsX (List.replicate n x)) ls w).1 ≠ .ok () := by
  have hne : List.replicate n x ≠ [] := by simpa using hn
  refine C79_last_empty L sci eig R _ (reals_array hf hne) ls w hnc hfr ?_
  intro _ g r hr
  have hr' : r ∈ (List.replicate n x).map Gaussian.row := hr
  obtain ⟨y, hy, rfl⟩ := List.mem_map.1 hr'
  have hyx : y = x := List.eq_of_mem_replicate hy
  subst hyx
  show (nearestCentre (R.kmeans w.est.nComponents ((List.replicate n y).map fun x k => fin (x k)) g).1
    (fun k => fin (y k))).val + 1 < _
  rw [hK g]
  have h := nearestCentre_nearest (nc := w.est.nComponents) (fun _ => y) y
  have h0 : nearestCentre (fun (_ : Fin w.est.nComponents) k => fin (y k)) (fun k => fin (y k)) = 0 := by
    by_contra hne0
    have := h.2 0 (Fin.pos_iff_ne_zero.2 hne0)
    exact lt_irrefl _ this
  rw [h0]
  simp only [Fin.val_zero]
  omega

end Verif
