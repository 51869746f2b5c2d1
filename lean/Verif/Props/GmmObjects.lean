import Verif.Props.Objects
import Verif.Props.GmmSample
import Verif.Props.GmmEM

/-!
# C71 for `GMMHMM`
-/

set_option autoImplicit false

namespace Verif
open FloatLike XF Hmmc Spec
open scoped Classical

variable {G : Type} {nm nf : ℕ}

namespace Spec

/-- The density of component `k` of state `i`, read off the arrays `means_` and `covars_`. -/
noncomputable def gmmComp (ty : CovType) (fm fc : List ℕ → ℝ) (x : Fin nf → ℝ) (i k : ℕ) : ℝ :=
  match ty with
  | .spherical => ∏ l : Fin nf, normalPdf (fm [i, k, l]) (fc [i, k]) (x l)
  | .diag => ∏ l : Fin nf, normalPdf (fm [i, k, l]) (fc [i, k, l]) (x l)
  | .full => mvnPdf (fun l : Fin nf => fm [i, k, l]) (Matrix.of fun a b : Fin nf => fc [i, k, a, b]) x
  | .tied => mvnPdf (fun l : Fin nf => fm [i, k, l]) (Matrix.of fun a b : Fin nf => fc [i, a, b]) x

/-- The density of a state: the weighted sum of its components. -/
noncomputable def gmmB (ty : CovType) (nm : ℕ) (fw fm fc : List ℕ → ℝ) {nc : ℕ} (x : Fin nf → ℝ) (i : Fin nc) : ℝ :=
  ∑ k : Fin nm, fw [i, k] * gmmComp ty fm fc x i k

/-- Variances at least the smallest normal double; positive definite matrices. -/
def gmmCovProper (ty : CovType) (nc nm nf : ℕ) (fc : List ℕ → ℝ) : Prop :=
  match ty with
  | .spherical => ∀ (i : Fin nc) (k : Fin nm), tinyVar ≤ fc [i, k]
  | .diag => ∀ (i : Fin nc) (k : Fin nm) (l : Fin nf), tinyVar ≤ fc [i, k, l]
  | .full => ∀ (i : Fin nc) (k : Fin nm), (Matrix.of fun a b : Fin nf => fc [i, k, a, b]).PosDef
  | .tied => ∀ i : Fin nc, (Matrix.of fun a b : Fin nf => fc [i, a, b]).PosDef

/-- A `GMMHMM` with weights `fw`, means `fm` and covariances `fc`. -/
structure HoldsGmm (ty : CovType) (nm nf : ℕ) (e : Est XF G (GmmAttrs XF)) (π : Fin e.nComponents → ℝ)
    (A : Fin e.nComponents → Fin e.nComponents → ℝ) (fw fm fc : List ℕ → ℝ) : Prop where
  chain : HoldsChain e π A
  features : FeaturesAre e nf
  priors : PriorsFit ty e.nComponents nm nf e.sub
  weights : e.sub.weights = some (rT [e.nComponents, nm] fw)
  means : e.sub.means = some (rT [e.nComponents, nm, nf] fm)
  covars : e.sub.covars = some (rT (gmmCovShape ty e.nComponents nm nf) fc)
  w_nonneg : ∀ (i : Fin e.nComponents) (k : Fin nm), 0 ≤ fw [i, k]
  w_sum : ∀ i : Fin e.nComponents, NearOne (∑ k : Fin nm, fw [i, k])
  cov : gmmCovProper ty e.nComponents nm nf fc

end Spec

theorem NearOne.pos {x : ℝ} (h : NearOne x) : 0 < x := by
  have := (abs_le.1 h).1
  norm_num at this
  linarith

theorem posDef_near {n : ℕ} {A : Fin n → Fin n → ℝ} (h : (Matrix.of A).PosDef) :
    NearlySymmetric A ∧ (symLower A).PosSemidef := by
  have hs : (Matrix.of A).IsSymm := by
    have := h.1
    rwa [Matrix.IsHermitian, Matrix.conjTranspose_eq_transpose_of_trivial] at this
  refine ⟨fun i j => ?_, ?_⟩
  · have : A i j = A j i := congrFun (congrFun hs.symm i) j
    rw [this, sub_self, abs_zero]
    positivity
  · have := symLower_eq hs
    rw [show symLower A = Matrix.of A from this]
    exact h.posSemidef

theorem gmmCov_ok {ty : CovType} {nc : ℕ} {fc : List ℕ → ℝ} (h : gmmCovProper ty nc nm nf fc) :
    gmmCovOk ty nc nm nf fc := by
  cases ty with
  | spherical => exact fun i k => tinyVar_pos.le.trans (h i k)
  | diag => exact fun i k l => tinyVar_pos.le.trans (h i k l)
  | full => exact fun i k => posDef_near (h i k)
  | tied => exact fun i => posDef_near (h i)

variable [NeZero nm]

/-- The frame likelihoods are the mixture densities. -/
structure MixesAt {nc nf : ℕ} {C : Type} (ty : CovType) (K : Gmm.Kind XF nc nm nf C) (pr : Gmm.Prior XF nc nm nf) (c : C)
    (fw fm fc : List ℕ → ℝ) : Prop where
  pos : ∀ (x : Fin nf → ℝ) (i : Fin nc), 0 < gmmB ty nm fw fm fc x i
  lik : ∀ X : List (Fin nf → ℝ), (Gmm.emission K pr).lik ⟨fun i k => fin (fw [i, k]), fun i k l => fin (fm [i, k, l]), c⟩
    (X.map Gaussian.row) = .ok (X.map fun x i => fin (gmmB ty nm fw fm fc x i))
  loglik : ∀ X : List (Fin nf → ℝ), (Gmm.emission K pr).loglik ⟨fun i k => fin (fw [i, k]), fun i k l => fin (fm [i, k, l]), c⟩
    (X.map Gaussian.row) = .ok (X.map fun x i => fin (Real.log (gmmB ty nm fw fm fc x i)))

theorem mixesAt_of {nc nf : ℕ} {C V : Type} {ty : CovType} {K K' : Gmm.Kind XF nc nm nf C} (R : Gmm.RKind K V)
    (hK : K'.logDens = K.logDens) {pr : Gmm.Prior XF nc nm nf} (v : V) {c : C} (hc : c = R.embed v) {fw fm fc : List ℕ → ℝ}
    (h0 : ∀ (i : Fin nc) (k : Fin nm), 0 ≤ fw [i, k]) (h1 : ∀ i : Fin nc, ∃ k : Fin nm, 0 < fw [i, k])
    (hd : ∀ (x : Fin nf → ℝ) (i : Fin nc) (k : Fin nm),
      gmmComp ty fm fc x i k = R.dens v (fun i k l => fm [i, k, l]) x i k) :
    MixesAt ty K' pr c fw fm fc := by
  subst hc
  have hK : ∀ p X, Gmm.loglik K' p X = Gmm.loglik K p X := fun p X => by
    unfold Gmm.loglik
    congr 2
    funext i
    unfold Gmm.logWeighted
    rw [hK]
  let q : Gmm.RGmm nc nm nf V := ⟨fun i k => fw [i, k], fun i k l => fm [i, k, l], v, h0, h1⟩
  have hb : ∀ (x : Fin nf → ℝ) (i : Fin nc), gmmB ty nm fw fm fc x i = R.b q x i := fun x i =>
    Finset.sum_congr rfl fun k _ => by rw [hd x i k]
  have hl : ∀ X : List (Fin nf → ℝ), Gmm.loglik K' (R.params q) (X.map Gaussian.row) =
      .ok (X.map fun x i => FloatLike.log (fin (R.b q x i))) := fun X => (hK _ _).trans (Gmm.loglik_fin R q X)
  refine ⟨fun x i => ?_, fun X => ?_, fun X => ?_⟩
  · rw [hb]; exact R.b_pos q x i
  · refine (congrArg (Except.map Gaussian.expRows) (hl X)).trans ?_
    simp only [Except.map, hb]
    rw [Gaussian.expRows_log _ fun o i => (R.b_pos q o i).le]
  · refine (hl X).trans ?_
    congr 1
    refine List.map_congr_left fun x _ => ?_
    funext i
    rw [hb]
    exact lg_pos (R.b_pos q x i)

/-- The same, for all weights and proper covariances, whatever the hyper-parameters. -/
def GmmType.Mixes (T : GmmType XF nm) : Prop :=
  ∀ (nc nf : ℕ) (P W : Tensor XF) (pr : Gmm.Prior XF nc nm nf) (s : List ℕ) (fw fm fc : List ℕ → ℝ),
    (∀ (i : Fin nc) (k : Fin nm), 0 ≤ fw [i, k]) → (∀ i : Fin nc, ∃ k : Fin nm, 0 < fw [i, k]) →
    gmmCovProper T.ty nc nm nf fc → MixesAt T.ty (T.kind nc nf P W) pr (T.read nc nf (rT s fc)) fw fm fc

theorem gmmSpherical_mixes : (gmmSpherical (α := XF) (nm := nm)).Mixes := by
  intro nc nf P W pr s fw fm fc h0 h1 hc
  have hd : ∀ (x : Fin nf → ℝ) (i : Fin nc) (k : Fin nm), gmmComp .spherical fm fc x i k =
      sphericalComp (fun i k => fc [i.val, k.val]) (fun i k l => fm [i.val, k.val, l.val]) x i k := by
    intro x i k
    simp only [sphericalComp, diagB, gmmComp]
    exact Finset.prod_congr rfl fun l _ => by rw [effVar_eq (hc i k)]
  have : MixesAt .spherical (Gmm.spherical (nf := nf) (P.at2 nc nm) (W.at2 nc nm)) pr (fun i k => fin (fc [i, k])) fw fm fc := by
    refine mixesAt_of (Gmm.rSpherical (fun _ _ => 0) fun _ _ => 0) ?_ (fun i k => fc [i, k]) ?_ h0 h1 ?_
    · rfl
    · rfl
    · exact hd
  exact this

theorem gmmDiag_mixes : (gmmDiag (α := XF) (nm := nm)).Mixes := by
  intro nc nf P W pr s fw fm fc h0 h1 hc
  have hd : ∀ (x : Fin nf → ℝ) (i : Fin nc) (k : Fin nm), gmmComp .diag fm fc x i k =
      diagComp (fun i k l => fc [i.val, k.val, l.val]) (fun i k l => fm [i.val, k.val, l.val]) x i k := by
    intro x i k
    simp only [diagComp, diagB, gmmComp]
    exact Finset.prod_congr rfl fun l _ => by rw [effVar_eq (hc i k l)]
  have : MixesAt .diag (Gmm.diag (P.at3 nc nm nf) (W.at3 nc nm nf)) pr (fun i k l => fin (fc [i, k, l])) fw fm fc := by
    refine mixesAt_of (Gmm.rDiag (fun _ _ _ => 0) fun _ _ _ => 0) ?_ (fun i k l => fc [i, k, l]) ?_ h0 h1 ?_
    · rfl
    · rfl
    · exact hd
  exact this

theorem gmmFull_mixes (eig : Eigvalsh XF) : (gmmFull (nm := nm) eig).Mixes := by
  intro nc nf P W pr s fw fm fc h0 h1 hc
  let v : PsdMix nc nm nf := ⟨fun i k => Matrix.of fun a b => fc [i, k, a, b], fun i k => (hc i k).posSemidef⟩
  have hd : ∀ (x : Fin nf → ℝ) (i : Fin nc) (k : Fin nm), gmmComp .full fm fc x i k =
      fullComp v (fun i k l => fm [i.val, k.val, l.val]) x i k := by
    intro x i k
    simp only [fullComp, fullB, gmmComp, effCov]
    rw [if_pos (hc i k)]
  have : MixesAt .full (Gmm.full (P.at4 nc nm nf nf) (W.at2 nc nm)) pr (fun i k a b => fin (fc [i, k, a, b])) fw fm fc := by
    refine mixesAt_of (Gmm.rFull (fun _ _ => 0) fun _ _ => 0) ?_ v ?_ h0 h1 ?_
    · rfl
    · rfl
    · exact hd
  exact this

theorem gmmTied_mixes (eig : Eigvalsh XF) : (gmmTied (nm := nm) eig).Mixes := by
  intro nc nf P W pr s fw fm fc h0 h1 hc
  let v : PsdState nc nf := ⟨fun i => Matrix.of fun a b => fc [i, a, b], fun i => (hc i).posSemidef⟩
  have hd : ∀ (x : Fin nf → ℝ) (i : Fin nc) (k : Fin nm), gmmComp .tied fm fc x i k =
      tiedComp v (fun i k l => fm [i.val, k.val, l.val]) x i k := by
    intro x i k
    simp only [tiedComp, fullB, gmmComp, effCov]
    rw [if_pos (hc i)]
  have : MixesAt .tied (Gmm.tied (P.at3 nc nf nf) fun i => W.data [i]) pr (fun i a b => fin (fc [i, a, b])) fw fm fc := by
    refine mixesAt_of (Gmm.rTied (fun _ => 0) fun _ => 0) ?_ v ?_ h0 h1 ?_
    · rfl
    · rfl
    · exact hd
  exact this

variable {T : GmmType XF nm}

theorem Spec.HoldsGmm.ex {ty : CovType} {e : Est XF G (GmmAttrs XF)} {π : Fin e.nComponents → ℝ}
    {A : Fin e.nComponents → Fin e.nComponents → ℝ} {fw fm fc : List ℕ → ℝ} (h : HoldsGmm ty nm nf e π A fw fm fc)
    (i : Fin e.nComponents) : ∃ k : Fin nm, 0 < fw [i, k] := by
  by_contra hn
  push Not at hn
  have := NearOne.pos (h.w_sum i)
  exact absurd (Finset.sum_nonpos fun k _ => hn k) (not_le.2 this)

/-- **C71** `GMMHMM`, any covariance type that checks and computes what it should. -/
theorem C71_gmm (hT : T.Checks) (hM : T.Mixes) (hf : nf ≠ 0) (e : Est XF G (GmmAttrs XF)) (π : Fin e.nComponents → ℝ)
    (A : Fin e.nComponents → Fin e.nComponents → ℝ) (fw fm fc : List ℕ → ℝ) (h : HoldsGmm T.ty nm nf e π A fw fm fc) :
    Answers (gmmSub T) e realsX π A (gmmB (nf := nf) T.ty nm fw fm fc) := by
  have hs : e.startprob.isSome := by rw [h.chain.startprob]; rfl
  have hnf : (e.nFeatures <|> [e.nComponents, nm, nf][2]?) = some nf := by
    cases hn : e.nFeatures with
    | none => rfl
    | some n => rw [h.features n hn]; rfl
  obtain ⟨h1, h2⟩ := C30_gmm hT e h.chain.base hs h.weights h.means h.covars
  have hok := h1.2 ⟨nf, hnf, h.priors, rfl, h.w_sum, rfl, rfl, gmmCov_ok h.cov⟩
  obtain ⟨nf', p, hn', hp, -, pw, pm, pc⟩ := h2 hok
  obtain rfl : nf' = nf := by rw [hnf] at hn'; exact (Option.some.inj hn').symm
  refine answers_of h.chain (S := gmmSub T) (h.chain.fitted.symm.trans (Prod.ext hok hp))
    (θ := ⟨fun i k => fin (fw [i, k]), fun i k l => fin (fm [i, k, l]),
      T.read _ _ (rT (gmmCovShape T.ty e.nComponents nm nf') fc)⟩) ?_ Gaussian.row (fun impl => ?_) (reals_data hf)
  · simp only [gmmSub, pw, pm, pc, h.weights, h.means, h.covars, Option.bind_eq_bind, Option.bind_some]
    rw [if_pos ⟨rfl, rfl, (hT.shape _ _).symm⟩]
    rfl
  · have hm := hM e.nComponents nf' (p.covarsPrior.getD (.scalar 0)) (p.covarsWeight.getD (.scalar 0))
      ⟨p.weightsPrior.at2 _ _, p.meansPrior.at3 _ _ _, p.meansWeight.at2 _ _⟩
      (gmmCovShape T.ty e.nComponents nm nf') fw fm fc h.w_nonneg h.ex h.cov
    refine { startprob_eq := rfl, transmat_eq := rfl, π_nonneg := h.chain.π_nonneg, A_nonneg := h.chain.A_nonneg
             b_nonneg := fun x i => (hm.pos x i).le, lik_eq := hm.lik, loglik_eq := fun X => (hm.loglik X).trans ?_ }
    congr 1
    refine List.map_congr_left fun x _ => ?_
    funext i
    exact (lg_pos (hm.pos x i)).symm

section
variable (hf : nf ≠ 0) (e : Est XF G (GmmAttrs XF)) (π : Fin e.nComponents → ℝ)
  (A : Fin e.nComponents → Fin e.nComponents → ℝ) (fw fm fc : List ℕ → ℝ)
include hf

/-- **C71** `GMMHMM(covariance_type="spherical")`. -/
theorem C71_gmm_spherical (h : HoldsGmm .spherical nm nf e π A fw fm fc) :
    Answers (gmmSub (nm := nm) gmmSpherical) e realsX π A (gmmB (nf := nf) .spherical nm fw fm fc) :=
  C71_gmm gmmSpherical_checks gmmSpherical_mixes hf e π A fw fm fc h

/-- **C71** `GMMHMM(covariance_type="diag")`. -/
theorem C71_gmm_diag (h : HoldsGmm .diag nm nf e π A fw fm fc) :
    Answers (gmmSub (nm := nm) gmmDiag) e realsX π A (gmmB (nf := nf) .diag nm fw fm fc) :=
  C71_gmm gmmDiag_checks gmmDiag_mixes hf e π A fw fm fc h

/-- **C71** `GMMHMM(covariance_type="full")`. -/
theorem C71_gmm_full {eig : Eigvalsh XF} (he : EigvalshSpec eig) (h : HoldsGmm .full nm nf e π A fw fm fc) :
    Answers (gmmSub (nm := nm) (gmmFull eig)) e realsX π A (gmmB (nf := nf) .full nm fw fm fc) :=
  C71_gmm (gmmFull_checks he) (gmmFull_mixes eig) hf e π A fw fm fc h

/-- **C71** `GMMHMM(covariance_type="tied")`. -/
theorem C71_gmm_tied {eig : Eigvalsh XF} (he : EigvalshSpec eig) (h : HoldsGmm .tied nm nf e π A fw fm fc) :
    Answers (gmmSub (nm := nm) (gmmTied eig)) e realsX π A (gmmB (nf := nf) .tied nm fw fm fc) :=
  C71_gmm (gmmTied_checks he) (gmmTied_mixes eig) hf e π A fw fm fc h

end

end Verif
