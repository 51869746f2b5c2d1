import Verif.Proofs.GmmFit
import Verif.Props.GaussianEM

/-!
# `GMMHMM`: C20, C26, C27, C42, C43, C46, C62

The claims are stated once for an estimator `K` (a covariance type with its hyper-parameters), the
way `embed` its covariances are stored, and the component densities `dens` it ought to have; they
are then proved for each of the four covariance types.
-/

namespace Verif
open FloatLike XF Hmmc Spec Gaussian Gmm
open scoped Matrix Classical

variable {nc nm nf : ℕ} {C V : Type} [NeZero nm]

/-! ## C20 -/

/-- **C20** (GMMHMM, any covariance type, any arithmetic) Without `'w'`, `'m'` or `'c'` in `params`,
`fit` leaves `weights_`, `means_` or `covars_` untouched. -/
theorem C20_gmm [NeZero nc] {α : Type} [FloatLike α] (K : Kind α nc nm nf C) (pr : Gmm.Prior α nc nm nf) (cfg : Config α nc)
    (X : List (Obs α nf)) (lengths : Option (List Int)) (θ : Theta α nc (Gmm.Params α nc nm nf C))
    (mon : Monitor α) :
    ('w' ∉ cfg.params → (fitFrom (Gmm.emission K pr) cfg X lengths θ
      mon).state.emission.weights = θ.emission.weights) ∧
    ('m' ∉ cfg.params → (fitFrom (Gmm.emission K pr) cfg X lengths θ
      mon).state.emission.means = θ.emission.means) ∧
    ('c' ∉ cfg.params → (fitFrom (Gmm.emission K pr) cfg X lengths θ
      mon).state.emission.covars = θ.emission.covars) :=
  ⟨fun h => fit_keeps Gmm.Params.weights _ cfg X lengths θ mon fun p st => by
      simp [Gmm.emission, Gmm.mstep, h],
    fun h => fit_keeps Gmm.Params.means _ cfg X lengths θ mon fun p st => by
      simp [Gmm.emission, Gmm.mstep, h],
    fun h => fit_keeps Gmm.Params.covars _ cfg X lengths θ mon fun p st => by
      simp [Gmm.emission, Gmm.mstep, h]⟩

/-! ## C42 -/

/-- Non-negative weights, a positive one in each state. -/
structure Spec.ProperWeights (w : Fin nc → Fin nm → ℝ) : Prop where
  nonneg : ∀ i k, 0 ≤ w i k
  ex : ∀ i, ∃ k, 0 < w i k

/-- The claim C42. -/
structure Spec.MixtureEmission (K : Kind XF nc nm nf C) (embed : V → C) (dens : CompDens nc nm nf V) :
    Prop where
  /-- The frame log-likelihoods are the logarithms of the weighted sums of component densities. -/
  loglik : ∀ (pr : Gmm.Prior XF nc nm nf) (p : GmmPoint nc nm nf V), ProperWeights p.w →
    ∀ X : List (Fin nf → ℝ), (Gmm.emission K pr).loglik (theta embed p).emission (X.map row) =
      .ok (X.map fun x i => fin (Real.log (∑ k, p.w i k * dens p.v p.mu x i k)))
  /-- The frame likelihoods are the weighted sums themselves. -/
  lik : ∀ (pr : Gmm.Prior XF nc nm nf) (p : GmmPoint nc nm nf V), ProperWeights p.w →
    ∀ X : List (Fin nf → ℝ), (Gmm.emission K pr).lik (theta embed p).emission (X.map row) =
      .ok (X.map fun x i => fin (∑ k, p.w i k * dens p.v p.mu x i k))
  /-- From posteriors `γ` the E-step adds to `post_mix_sum` (and, weighted with the samples, to
  `m_n`) numbers `r t i k` that are non-negative, sum over the components to the posterior of the
  state, and are proportional to weight times density. -/
  acc : ∀ (pr : Gmm.Prior XF nc nm nf) (ps : List Char) (p : GmmPoint nc nm nf V), ProperWeights p.w →
    ∀ (st : Gmm.Stats XF nc nm nf C) (n : ℕ) (x : Fin n → Fin nf → ℝ) (γ : Fin n → Fin nc → ℝ),
    ∃ (st' : Gmm.Stats XF nc nm nf C) (r : Fin n → Fin nc → Fin nm → ℝ),
      (Gmm.emission K pr).acc ps (theta embed p).emission st (List.ofFn fun t => row (x t))
        (List.ofFn fun t i => fin (γ t i)) = .ok st' ∧
      (∀ t i k, 0 ≤ γ t i → 0 ≤ r t i k) ∧ (∀ t i, ∑ k, r t i k = γ t i) ∧
      (∀ t i k, r t i k * ∑ j, p.w i j * dens p.v p.mu (x t) i j =
        γ t i * (p.w i k * dens p.v p.mu (x t) i k)) ∧
      (∀ i k, st'.postMixSum i k = st.postMixSum i k + fin (∑ t, r t i k)) ∧
      (∀ i, st'.postSum i = st.postSum i + fin (∑ t, γ t i)) ∧
      ('m' ∈ ps → ∀ i k l, st'.mN i k l = st.mN i k l + fin (∑ t, r t i k * x t l))

theorem Gmm.mixture_emission {K : Kind XF nc nm nf C} (R : RKind K V) :
    MixtureEmission K R.embed R.dens where
  loglik pr p hw X := by
    have := loglik_fin R ⟨p.w, p.mu, p.v, hw.nonneg, hw.ex⟩ X
    refine this.trans ?_
    congr 1
    refine List.map_congr_left fun x _ => ?_
    funext i
    exact lg_pos (R.b_pos ⟨p.w, p.mu, p.v, hw.nonneg, hw.ex⟩ x i)
  lik pr p hw X := by
    have := loglik_fin R ⟨p.w, p.mu, p.v, hw.nonneg, hw.ex⟩ X
    show Except.map Gaussian.expRows (loglik K _ _) = _
    refine (congrArg (Except.map Gaussian.expRows) this).trans ?_
    simp only [Except.map]
    rw [expRows_log _ fun o i => (R.b_pos _ o i).le]
    rfl
  acc pr ps p hw st n x γ := by
    set q : RGmm nc nm nf V := ⟨p.w, p.mu, p.v, hw.nonneg, hw.ex⟩ with hq
    have hpm := postMix_fin R q (List.ofFn x)
    rw [List.map_ofFn, List.map_ofFn] at hpm
    have hpcm : postCompMix (List.ofFn fun t i => fin (γ t i))
        (List.ofFn ((fun x i k => fin (R.resp q x i k)) ∘ x)) =
        List.ofFn fun t i k => fin (γ t i * R.resp q (x t) i k) := by
      unfold postCompMix
      apply List.ext_getElem
      · simp
      · intro j h1 h2
        simp only [List.getElem_zipWith, List.getElem_ofFn, memo_eq, fin_mul, Function.comp_apply]
    refine ⟨{
        postMixSum := fun i k => st.postMixSum i k + sumL ((List.ofFn fun t i k =>
          fin (γ t i * R.resp q (x t) i k)).map fun r : Mix XF nc nm => r i k)
        postSum := fun i => st.postSum i + sumPost (List.ofFn fun t i => fin (γ t i)) i
        mN := if 'm' ∈ ps then fun i k l => st.mN i k l + dotMix (List.ofFn fun t i k =>
          fin (γ t i * R.resp q (x t) i k)) (List.ofFn (row ∘ x)) (fun x => x l) i k else st.mN
        cN := if 'c' ∈ ps then K.acc (R.params q).means (List.ofFn fun t i k =>
          fin (γ t i * R.resp q (x t) i k)) (List.ofFn (row ∘ x)) st.cN else st.cN },
      fun t i k => γ t i * R.resp q (x t) i k, ?_, ?_, ?_, ?_, ?_, ?_, ?_⟩
    · show Gmm.acc K ps (R.params q) st (List.ofFn (row ∘ x)) _ = _
      unfold Gmm.acc
      rw [hpm]
      simp only [bind, Except.bind, pure, Except.pure, memo_eq]
      rw [hpcm]
    · exact fun t i k h => mul_nonneg h (R.resp_nonneg q _ _ _)
    · intro t i
      rw [← Finset.mul_sum, R.sum_resp, mul_one]
    · intro t i k
      have hb := R.b_pos q (x t) i
      rw [mul_assoc]
      congr 1
      exact div_mul_cancel₀ _ hb.ne'
    · intro i k
      show _ + sumL _ = _
      rw [List.map_ofFn]
      congr 1
      exact sumL_ofFn _
    · intro i
      show _ + sumPost _ _ = _
      rw [sumPost_ofFn]
    · intro hm i k l
      simp only [hm, if_true]
      congr 1
      exact dotMix_ofFn _ _ (fun x : Obs XF nf => x l) (fun t => x t l) (fun t => rfl) _ _

/-- **C42** `covariance_type="spherical"`. -/
theorem C42_spherical (a be : Mix ℝ nc nm) : MixtureEmission (nf := nf)
    (spherical (fun i k => fin (a i k)) fun i k => fin (be i k)) (fun v i k => fin (v i k)) sphericalComp :=
  mixture_emission (rSpherical a be)

/-- **C42** `covariance_type="diag"`. -/
theorem C42_diag (a be : Means ℝ nc nm nf) : MixtureEmission
    (diag (fun i k l => fin (a i k l)) fun i k l => fin (be i k l)) (fun v i k l => fin (v i k l)) diagComp :=
  mixture_emission (rDiag a be)

/-- **C42** `covariance_type="full"`, positive semidefinite covariances. -/
theorem C42_full (psi : Fin nc → Fin nm → Matrix (Fin nf) (Fin nf) ℝ) (nu : Mix ℝ nc nm) : MixtureEmission
    (full (fun i k l m => fin (psi i k l m)) fun i k => fin (nu i k))
    (fun v i k l m => fin (v.S i k l m)) fullComp :=
  mixture_emission (rFull psi nu)

/-- **C42** `covariance_type="tied"`, positive semidefinite covariances. -/
theorem C42_tied (psi : Fin nc → Matrix (Fin nf) (Fin nf) ℝ) (nu : Fin nc → ℝ) : MixtureEmission (nm := nm)
    (tied (fun i l m => fin (psi i l m)) fun i => fin (nu i)) (fun v i l m => fin (v.S i l m)) tiedComp :=
  mixture_emission (rTied psi nu)

/-! ## C43 -/

section
variable [NeZero nc]

/-- The claim C43: one EM iteration, any hyper-parameters. -/
def Spec.WeightUpdate (K : Kind XF nc nm nf C) (embed : V → C) (dens : CompDens nc nm nf V) : Prop :=
  ∀ (g : GmmPrior nc nm nf) (sp : Fin nc → ℝ) (tp : Fin nc → Fin nc → ℝ) (params : List Char)
    (impl : Impl) (nIter : ℕ) (ss : List (ObsSeq (Fin nf → ℝ))) (p : GmmPoint nc nm nf V)
    (θ' : Theta XF nc (Gmm.Params XF nc nm nf C)) (v : XF), ss ≠ [] → ChainModel p.π p.A →
    ProperWeights p.w → 0 < p.L dens ss → 'w' ∈ params →
    emStep (Gmm.emission K (Gmm.prior g)) (mapConfig sp tp params impl nIter) (dataX row ss)
      (dataLengths ss) (theta embed p) = .ok (θ', v) →
    ∀ i, visits p.π p.A (p.b dens) ss i + ∑ k, (g.wp i k - 1) ≠ 0 →
      ∃ w' : Fin nm → ℝ, θ'.emission.weights i = (fun k => fin (w' k)) ∧ ∑ k, w' k = 1 ∧
        ((∀ k, 1 ≤ g.wp i k) → ∀ k, 0 ≤ w' k) ∧
        ∀ k, w' k = (weighted p.π p.A (p.b dens) ss i
            (fun x => responsibility (p.w i) (dens p.v p.mu x i) k) + (g.wp i k - 1)) /
          (visits p.π p.A (p.b dens) ss i + ∑ k, (g.wp i k - 1))

theorem Gmm.doMstep_weights (K : Kind XF nc nm nf C) (pr : Gmm.Prior XF nc nm nf) (cfg : Config XF nc)
    (θ : Theta XF nc (Gmm.Params XF nc nm nf C)) (st : Verif.Stats XF nc (Gmm.Stats XF nc nm nf C)) :
    (doMstep (Gmm.emission K pr) cfg θ st).emission.weights =
      if 'w' ∈ cfg.params then mstepWeights pr st.em else θ.emission.weights := rfl

theorem Gmm.weight_update {K : Kind XF nc nm nf C} (R : RKind K V) :
    WeightUpdate K R.embed R.dens := by
  intro g sp tp params impl nIter ss p θ' v hne h hw hL hp hst i hd
  set q : RGmm nc nm nf V := ⟨p.w, p.mu, p.v, hw.nonneg, hw.ex⟩ with hq
  let F := Gmm.family R g params
  let r : RParams nc (RGmm nc nm nf V) := ⟨p.π, p.A, q⟩
  have hv : r.Valid := ⟨h.π_nonneg, h.A_nonneg, h.π_sum, h.A_sum⟩
  have hok : F.Ok impl ss r := by
    cases impl with
    | log =>
      exact likelihoods_pos_of_data h.π_nonneg h.A_nonneg (b := R.b q)
        (fun o i => (R.b_pos _ o i).le) hL
    | scaling =>
      by_contra hno
      have := F.emStep_underflow ⟨sp, tp, .scaling, nIter⟩ rfl ss hv hno
      have h2 := this.symm.trans hst
      simp at h2
  have he := F.doEstep_real ⟨sp, tp, impl, nIter⟩ ss hne hv hok
  have hst' : emStep (Gmm.emission K (Gmm.prior g)) (RConfig.toConfig ⟨sp, tp, impl, nIter⟩ params)
    (dataX row ss) (dataLengths ss) (F.theta r) = .ok (θ', v) := hst
  unfold emStep at hst'
  rw [he] at hst'
  simp only [bind, Except.bind, pure, Except.pure, Except.ok.injEq, Prod.mk.injEq] at hst'
  have hT : PosLin (obsStat p.π p.A (R.b q) ss) :=
    obsStat_posLin h.π_nonneg h.A_nonneg (fun o i => (R.b_pos _ o i).le) ss
  set T := obsStat p.π p.A (R.b q) ss with hTd
  have hden : T i (fun _ => 1) + ∑ k, (g.wp i k - 1) ≠ 0 := by
    rw [hTd, visits_eq]; exact hd
  have hθ : θ'.emission.weights i = fun k => fin (((R.split q T i k fun _ => 1) + (g.wp i k - 1)) /
      (T i (fun _ => 1) + ∑ k, (g.wp i k - 1))) := by
    rw [← hst'.1, Gmm.doMstep_weights]
    refine (congrFun (if_pos hp) i).trans ?_
    show mstepWeights (Gmm.prior g) (R.gstat g params q T) i = _
    funext k
    simp only [mstepWeights, memo_eq, Gmm.prior, RKind.gstat, one_def, fin_sub, sumF_fin, fin_add]
    rw [fin_div _ _ hden]
  refine ⟨_, hθ, ?_, ?_, ?_⟩
  · rw [← Finset.sum_div, Finset.sum_add_distrib, sum_split R q hT, div_self hden]
  · intro hwp k
    have h1 : 0 ≤ R.split q T i k fun _ => 1 := (split_posLin R q hT i).nonneg k _ fun _ => zero_le_one
    exact div_nonneg (add_nonneg h1 (sub_nonneg.2 (hwp k)))
      (add_nonneg (hT.nonneg i _ fun _ => zero_le_one)
        (Finset.sum_nonneg fun k _ => sub_nonneg.2 (hwp k)))
  · intro k
    rw [hTd, visits_eq]
    simp only [RKind.split, mul_one]
    rfl

/-- **C43** `covariance_type="spherical"`. -/
theorem C43_spherical (a be : Mix ℝ nc nm) : WeightUpdate (nf := nf)
    (spherical (fun i k => fin (a i k)) fun i k => fin (be i k)) (fun v i k => fin (v i k)) sphericalComp :=
  weight_update (rSpherical a be)

/-- **C43** `covariance_type="diag"`. -/
theorem C43_diag (a be : Means ℝ nc nm nf) : WeightUpdate
    (diag (fun i k l => fin (a i k l)) fun i k l => fin (be i k l)) (fun v i k l => fin (v i k l)) diagComp :=
  weight_update (rDiag a be)

/-- **C43** `covariance_type="full"`. -/
theorem C43_full (psi : Fin nc → Fin nm → Matrix (Fin nf) (Fin nf) ℝ) (nu : Mix ℝ nc nm) : WeightUpdate
    (full (fun i k l m => fin (psi i k l m)) fun i k => fin (nu i k))
    (fun v i k l m => fin (v.S i k l m)) fullComp :=
  weight_update (rFull psi nu)

/-- **C43** `covariance_type="tied"`. -/
theorem C43_tied (psi : Fin nc → Matrix (Fin nf) (Fin nf) ℝ) (nu : Fin nc → ℝ) : WeightUpdate (nm := nm)
    (tied (fun i l m => fin (psi i l m)) fun i => fin (nu i)) (fun v i l m => fin (v.S i l m)) tiedComp :=
  weight_update (rTied psi nu)

end

/-! ## C46 -/

section
variable {Cr : Type}

/-- Means after the M-step are finite if statistics and counts are, and the counts are not zero. -/
theorem Gmm.mstep_means_fin (K : Kind XF nc nm nf C) (ps : List Char) (p : Gmm.Params XF nc nm nf C)
    (st : Gmm.Stats XF nc nm nf C) (mu mN : Means ℝ nc nm nf) (N : Mix ℝ nc nm)
    (hmu : p.means = fun i k l => fin (mu i k l)) (hm : st.mN = fun i k l => fin (mN i k l))
    (hN : st.postMixSum = fun i k => fin (N i k)) (h0 : ∀ i k, N i k ≠ 0) :
    ∃ mu' : Means ℝ nc nm nf, (Gmm.mstep K (Gmm.prior GmmPrior.flat) ps p st).means =
      fun i k l => fin (mu' i k l) := by
  by_cases h : 'm' ∈ ps
  · have : ∀ i k, ∃ d : ℝ, d ≠ 0 ∧ (if FloatLike.eq ((Gmm.mstep K (Gmm.prior GmmPrior.flat) ps p
        st).weights i k) 0 && (List.finRange nf).all (fun l => FloatLike.eq (st.mN i k l) 0) then (1 : XF)
        else st.postMixSum i k + (Gmm.prior GmmPrior.flat : Gmm.Prior XF nc nm nf).meansWeight i k) =
        fin d := by
      intro i k
      split
      · exact ⟨1, one_ne_zero, one_def⟩
      · exact ⟨N i k, h0 i k, by simp [hN, Gmm.prior, GmmPrior.flat]⟩
    choose d hd0 hd using this
    refine ⟨fun i k l => mN i k l / d i k, ?_⟩
    funext i k l
    have e : (Gmm.mstep K (Gmm.prior GmmPrior.flat) ps p st).means i k l = fin (mN i k l) / fin (d i k) := by
      have hd' := hd i k
      simp only [Gmm.mstep, h, if_true, mstepMeans, memo_eq] at hd' ⊢
      rw [hd', hm]
    rw [e, fin_div _ _ (hd0 i k)]
  · exact ⟨mu, by simp only [Gmm.mstep, h, if_false, hmu]⟩

/-- The covariances after an M-step with flat priors. -/
theorem Gmm.mstep_covars (K : Kind XF nc nm nf C) (ps : List Char) (hc : 'c' ∈ ps)
    (p : Gmm.Params XF nc nm nf C)
    (st : Gmm.Stats XF nc nm nf C) (mu mN : Means ℝ nc nm nf) (N : Mix ℝ nc nm)
    (hmu : p.means = fun i k l => fin (mu i k l)) (hm : st.mN = fun i k l => fin (mN i k l))
    (hN : st.postMixSum = fun i k => fin (N i k)) (h0 : ∀ i k, N i k ≠ 0) :
    ∃ cm : Means ℝ nc nm nf, ((Gmm.emission K (Gmm.prior GmmPrior.flat)).mstep ps p st).covars =
      K.upd (fun _ _ => fin 0) (fun i k l => fin (cm i k l)) st.postMixSum st.postSum st.cN := by
  obtain ⟨mu', h⟩ := mstep_means_fin K ps p st mu mN N hmu hm hN h0
  refine ⟨mu', ?_⟩
  have e : ((Gmm.emission K (Gmm.prior GmmPrior.flat)).mstep ps p st).covars =
      K.upd (Gmm.prior GmmPrior.flat : Gmm.Prior XF nc nm nf).meansWeight
        (fun i k l => (Gmm.mstep K (Gmm.prior GmmPrior.flat) ps p st).means i k l -
          (Gmm.prior GmmPrior.flat : Gmm.Prior XF nc nm nf).meansPrior i k l)
        st.postMixSum st.postSum st.cN := if_pos hc
  rw [e, h]
  simp [Gmm.prior, GmmPrior.flat]

variable (ps : List Char) (hc : 'c' ∈ ps) (mu mN : Means ℝ nc nm nf) (N : Mix ℝ nc nm)
  (h0 : ∀ i k, N i k ≠ 0)
include hc h0

/-- **C46** (`full`) With the default hyper-parameters, from statistics with component counts
`N ≠ 0` and scatter `c`, the new covariances are `c / N`. -/
theorem C46_full (p : Gmm.Params XF nc nm nf (Fin nc → Fin nm → Sq XF nf))
    (hmu : p.means = fun i k l => fin (mu i k l)) (c : Fin nc → Fin nm → Fin nf → Fin nf → ℝ) (ns : Fin nc → XF) :
    ((Gmm.emission fullDefault (Gmm.prior GmmPrior.flat)).mstep ps p
      ⟨fun i k => fin (N i k), ns, fun i k l => fin (mN i k l), fun i k l m => fin (c i k l m)⟩).covars =
      fun i k l m => fin (c i k l m / N i k) := by
  obtain ⟨cm, h⟩ := mstep_covars fullDefault ps hc p
    ⟨fun i k => fin (N i k), ns, fun i k l => fin (mN i k l), fun i k l m => fin (c i k l m)⟩
    mu mN N hmu rfl rfl h0
  rw [h, fullDefault_eq]
  funext i k l m
  simp only [full, memo_eq, ofNat'_def, fin_add, fin_mul, one_def, Matrix.zero_apply]
  rw [show N i k + 1 + -(1 + (nf : ℝ) + 1) + nf + 1 = N i k by ring, fin_div _ _ (h0 i k)]
  simp

/-- **C46** (`diag`) The same: `c / N`. -/
theorem C46_diag (p : Gmm.Params XF nc nm nf (Means XF nc nm nf))
    (hmu : p.means = fun i k l => fin (mu i k l)) (c : Means ℝ nc nm nf) (ns : Fin nc → XF) :
    ((Gmm.emission diagDefault (Gmm.prior GmmPrior.flat)).mstep ps p
      ⟨fun i k => fin (N i k), ns, fun i k l => fin (mN i k l), fun i k l => fin (c i k l)⟩).covars =
      fun i k l => fin (c i k l / N i k) := by
  obtain ⟨cm, h⟩ := mstep_covars diagDefault ps hc p
    ⟨fun i k => fin (N i k), ns, fun i k l => fin (mN i k l), fun i k l => fin (c i k l)⟩
    mu mN N hmu rfl rfl h0
  rw [h, diagDefault_eq]
  funext i k l
  simp only [diag, memo_eq, ofNat'_def, fin_add, fin_mul, one_def, sq_fin]
  rw [show N i k + 1 + ((2 : ℕ) : ℝ) * (-3 / 2 + 1) = N i k by push_cast; ring, fin_div _ _ (h0 i k)]
  simp

/-- **C46** (`tied`) The count is that of the state. -/
theorem C46_tied (p : Gmm.Params XF nc nm nf (Fin nc → Sq XF nf))
    (hmu : p.means = fun i k l => fin (mu i k l)) (c : Fin nc → Fin nf → Fin nf → ℝ) (ns : Fin nc → ℝ)
    (hns : ∀ i, ns i ≠ 0) :
    ((Gmm.emission tiedDefault (Gmm.prior GmmPrior.flat)).mstep ps p
      ⟨fun i k => fin (N i k), fun i => fin (ns i), fun i k l => fin (mN i k l),
        fun i l m => fin (c i l m)⟩).covars = fun i l m => fin (c i l m / ns i) := by
  obtain ⟨cm, h⟩ := mstep_covars tiedDefault ps hc p
    ⟨fun i k => fin (N i k), fun i => fin (ns i), fun i k l => fin (mN i k l), fun i l m => fin (c i l m)⟩
    mu mN N hmu rfl rfl h0
  rw [h, tiedDefault_eq]
  funext i l m
  simp only [tied, memo_eq, ofNat'_def, fin_add, fin_mul, one_def, sumF_fin, Matrix.zero_apply]
  rw [show ns i + (nm : ℝ) + -((nm : ℝ) + nf + 1) + nf + 1 = ns i by ring, fin_div _ _ (hns i)]
  simp

/-- **C46** (`spherical`) The divisor is `n_features * N + n_features - n_mix` instead of
`n_features * N`. -/
theorem C46_spherical (p : Gmm.Params XF nc nm nf (Mix XF nc nm))
    (hmu : p.means = fun i k l => fin (mu i k l)) (c : Mix ℝ nc nm) (ns : Fin nc → XF)
    (hd : ∀ i k, nf * N i k + nf - nm ≠ 0) :
    ((Gmm.emission sphericalDefault (Gmm.prior GmmPrior.flat)).mstep ps p
      ⟨fun i k => fin (N i k), ns, fun i k l => fin (mN i k l), fun i k => fin (c i k)⟩).covars =
      fun i k => fin (c i k / (nf * N i k + nf - nm)) := by
  obtain ⟨cm, h⟩ := mstep_covars sphericalDefault ps hc p
    ⟨fun i k => fin (N i k), ns, fun i k l => fin (mN i k l), fun i k => fin (c i k)⟩
    mu mN N hmu rfl rfl h0
  rw [h, sphericalDefault_eq]
  funext i k
  simp only [spherical, memo_eq, ofNat'_def, fin_add, fin_mul, one_def, norm2_fin]
  rw [show (nf : ℝ) * (N i k + 1) + ((2 : ℕ) : ℝ) * (-((nm : ℝ) + 2) / 2 + 1) = nf * N i k + nf - nm by
    push_cast; ring, fin_div _ _ (hd i k)]
  simp

/-- **C46** (`spherical`) From a non-zero scatter, the update is the maximum-likelihood one
(`c / (n_features * N)`) exactly when `n_mix = n_features`. -/
theorem C46_spherical_iff (p : Gmm.Params XF nc nm nf (Mix XF nc nm))
    (hmu : p.means = fun i k l => fin (mu i k l)) (c : Mix ℝ nc nm) (ns : Fin nc → XF)
    (hd : ∀ i k, nf * N i k + nf - nm ≠ 0) (i : Fin nc) (k : Fin nm) (hci : c i k ≠ 0) :
    ((Gmm.emission sphericalDefault (Gmm.prior GmmPrior.flat)).mstep ps p
      ⟨fun i k => fin (N i k), ns, fun i k l => fin (mN i k l), fun i k => fin (c i k)⟩).covars i k =
      fin (c i k / (nf * N i k)) ↔ nm = nf := by
  rw [C46_spherical ps hc mu mN N h0 p hmu c ns hd, fin_inj]
  constructor
  · intro h
    rw [div_eq_mul_inv, div_eq_mul_inv] at h
    have h2 := inv_injective (mul_left_cancel₀ hci h)
    have : (nm : ℝ) = nf := by linarith
    exact_mod_cast this
  · intro h
    rw [h]
    congr 1
    ring

end

/-- **C46** (`spherical`) With three components and one feature, a component holding one sample at
distance one gets variance `-1`. -/
theorem C46_spherical_negative :
    ((Gmm.emission (sphericalDefault : Kind XF 1 3 1 _) (Gmm.prior GmmPrior.flat)).mstep ['c']
      ⟨fun _ _ => fin (1 / 3), fun _ _ _ => fin 0, fun _ _ => fin 1⟩
      ⟨fun _ _ => fin 1, fun _ => fin 3, fun _ _ _ => fin 1, fun _ _ => fin 1⟩).covars =
      fun _ _ => fin (-1) := by
  have := C46_spherical (nc := 1) (nm := 3) (nf := 1) ['c'] (by simp) (fun _ _ _ => 0) (fun _ _ _ => 1)
    (fun _ _ => 1) (by simp) ⟨fun _ _ => fin (1 / 3), fun _ _ _ => fin 0, fun _ _ => fin 1⟩ rfl
    (fun _ _ => 1) (fun _ => fin 3) (by norm_num)
  rw [this]
  funext i k
  norm_num

/-! ## C62, C26, C27: whole runs of `fit` -/

section
variable [NeZero nc]

/-- `fit` of a `GMMHMM` with default `weights_prior`, `means_prior`, `means_weight`. -/
noncomputable def gmmFit (K : Kind XF nc nm nf C) (sp : Fin nc → ℝ) (tp : Fin nc → Fin nc → ℝ)
    (params : List Char) (impl : Impl) (nIter : ℕ) (ss : List (ObsSeq (Fin nf → ℝ)))
    (θ : Theta XF nc (Gmm.Params XF nc nm nf C)) (mon : Monitor XF) :
    FitOutcome XF (Theta XF nc (Gmm.Params XF nc nm nf C)) :=
  fitFrom (Gmm.emission K (Gmm.prior GmmPrior.flat)) (mapConfig sp tp params impl nIter)
    (dataX row ss) (some (dataLengths ss)) θ mon

/-- The claim C62.  From any model with positive weights under which the data set is possible and
every state is on a possible path: `fit` runs through models `seq 0, …, seq n`, each the EM update of
the one before; `monitor_.history` holds their log-likelihoods; weights stay positive with sum at
most one; and the likelihood does not decrease from `seq k` to `seq (k+1)` provided the covariances at
`seq (k+1)` satisfy `cond`. -/
def Spec.FitNeverDecreases (K : Kind XF nc nm nf C) (embed : V → C) (dens : CompDens nc nm nf V)
    (cond : V → Prop) : Prop :=
  ∀ (params : List Char) (impl : Impl) (nIter : ℕ) (ss : List (ObsSeq (Fin nf → ℝ)))
    (p : GmmPoint nc nm nf V) (mon : Monitor XF), ss ≠ [] → ChainModel p.π p.A → MixWeights p.w →
    0 < p.L dens ss → EveryStateUsed p.π p.A (p.b dens) ss →
    let out := gmmFit K (fun _ => 1) (fun _ _ => 1) params impl nIter ss (theta embed p) mon
    let n := out.monitor.history.length
    ∃ seq : ℕ → GmmPoint nc nm nf V, seq 0 = p ∧ out.state = theta embed (seq n) ∧
      out.monitor.history = (List.range n).map (fun k => fin (Real.log ((seq k).L dens ss))) ∧
      (∀ k ≤ n, ChainModel (seq k).π (seq k).A ∧ MixWeights (seq k).w ∧ 0 < (seq k).L dens ss) ∧
      (∀ k < n, emStep (Gmm.emission K (Gmm.prior GmmPrior.flat))
        (mapConfig (fun _ => 1) (fun _ _ => 1) params impl nIter) (dataX row ss) (dataLengths ss)
        (theta embed (seq k)) = .ok (theta embed (seq (k + 1)), fin (Real.log ((seq k).L dens ss)))) ∧
      ∀ k < n, ('c' ∈ params → cond (seq (k + 1)).v) → (seq k).L dens ss ≤ (seq (k + 1)).L dens ss

/-- The claim C26 for `GMMHMM`. -/
def Spec.FitImplFree (K : Kind XF nc nm nf C) (embed : V → C) (dens : CompDens nc nm nf V) : Prop :=
  ∀ (sp : Fin nc → ℝ) (tp : Fin nc → Fin nc → ℝ) (params : List Char) (nIter : ℕ)
    (ss : List (ObsSeq (Fin nf → ℝ))) (p : GmmPoint nc nm nf V) (mon : Monitor XF),
    (∀ i, 1 ≤ sp i) → (∀ i j, 1 ≤ tp i j) → ss ≠ [] → ChainModel p.π p.A → MixWeights p.w →
    0 < p.L dens ss → EveryStateUsed p.π p.A (p.b dens) ss →
    (gmmFit K sp tp params .scaling nIter ss (theta embed p) mon).raised = none →
    gmmFit K sp tp params .log nIter ss (theta embed p) mon =
      gmmFit K sp tp params .scaling nIter ss (theta embed p) mon

/-- The claim C27 for `GMMHMM`. -/
def Spec.FitOrderFree (K : Kind XF nc nm nf C) (embed : V → C) (dens : CompDens nc nm nf V) : Prop :=
  ∀ (sp : Fin nc → ℝ) (tp : Fin nc → Fin nc → ℝ) (params : List Char) (impl : Impl) (nIter : ℕ)
    (ss ss' : List (ObsSeq (Fin nf → ℝ))) (p : GmmPoint nc nm nf V) (mon : Monitor XF),
    (∀ i, 1 ≤ sp i) → (∀ i j, 1 ≤ tp i j) → ss.Perm ss' → ss ≠ [] → ChainModel p.π p.A →
    MixWeights p.w → 0 < p.L dens ss → EveryStateUsed p.π p.A (p.b dens) ss →
    gmmFit K sp tp params impl nIter ss' (theta embed p) mon =
      gmmFit K sp tp params impl nIter ss (theta embed p) mon

theorem Gmm.impl_free {K : Kind XF nc nm nf C} (R : RKind K V) (hreg : ∀ ps, Regular R ps) :
    FitImplFree K R.embed R.dens := by
  intro sp tp params nIter ss p mon hsp htp hne h hw hL hu hr
  exact (Gmm.family R GmmPrior.flat params).fit_impl
    (inv_closed (hreg params) ⟨sp, tp, .scaling, nIter⟩ ss (fun _ => hsp) fun _ => htp) hne
    (fun _ => hsp) (inv_start h hw hL hu) mon hr

theorem Gmm.order_free {K : Kind XF nc nm nf C} (R : RKind K V) (hreg : ∀ ps, Regular R ps) :
    FitOrderFree K R.embed R.dens := by
  intro sp tp params impl nIter ss ss' p mon hsp htp hperm hne h hw hL hu
  exact (Gmm.family R GmmPrior.flat params).fit_perm
    (inv_closed (hreg params) ⟨sp, tp, impl, nIter⟩ ss (fun _ => hsp) fun _ => htp) hperm hne
    (fun _ => hsp) (inv_start h hw hL hu) mon

/-- **C62** (`diag`) No condition on the new variances. -/
theorem C62_diag : FitNeverDecreases (nc := nc) (nm := nm) (nf := nf) diagDefault
    (fun v i k l => fin (v i k l)) diagComp fun _ => True := by
  rw [diagDefault_eq]
  exact fun params impl nIter ss p mon hne h hw hL hu => fit_main (R := dDiag) (regular_diag params)
    (Cond := fun _ => True) (fun q T hT hl _ => improves_diag params q T hT hl) impl nIter ss hne p h hw hL hu mon

/-- **C62** (`full`) As long as the new covariances are not singular. -/
theorem C62_full : FitNeverDecreases (nc := nc) (nm := nm) (nf := nf) fullDefault
    (fun v i k l m => fin (v.S i k l m)) fullComp fun v => ∀ i k, (v.S i k).PosDef := by
  rw [fullDefault_eq]
  exact fun params impl nIter ss p mon hne h hw hL hu => fit_main (R := dFull) (regular_full params)
    (Cond := fun v => ∀ i k, (v.S i k).PosDef) (fun q T hT hl hv => improves_full params q T hT hl hv) impl nIter ss hne p h hw hL hu mon

/-- **C62** (`tied`) As long as the new covariances are not singular. -/
theorem C62_tied : FitNeverDecreases (nc := nc) (nm := nm) (nf := nf) tiedDefault
    (fun v i l m => fin (v.S i l m)) tiedComp fun v => ∀ i, (v.S i).PosDef := by
  rw [tiedDefault_eq]
  exact fun params impl nIter ss p mon hne h hw hL hu => fit_main (R := dTied) (regular_tied params)
    (Cond := fun v => ∀ i, (v.S i).PosDef) (fun q T hT hl hv => improves_tied params q T hT hl hv) impl nIter ss hne p h hw hL hu mon

/-- **C62** (`spherical`) If `n_mix = n_features` (see C46). -/
theorem C62_spherical [NeZero nf] (hn : nm = nf) : FitNeverDecreases (nc := nc) (nm := nm) (nf := nf)
    sphericalDefault (fun v i k => fin (v i k)) sphericalComp fun _ => True := by
  rw [sphericalDefault_eq]
  exact fun params impl nIter ss p mon hne h hw hL hu => fit_main (R := dSpherical)
    (regular_spherical params hn.le) (Cond := fun _ => True)
    (fun q T hT hl _ => improves_spherical params (fun _ => hn) q T hT hl)
    impl nIter ss hne p h hw hL hu mon

/-- **C26** (GMMHMM, `diag`) -/
theorem C26_gmm_diag : FitImplFree (nc := nc) (nm := nm) (nf := nf) diagDefault
    (fun v i k l => fin (v i k l)) diagComp := by
  rw [diagDefault_eq]; exact impl_free dDiag regular_diag

/-- **C26** (GMMHMM, `full`) -/
theorem C26_gmm_full : FitImplFree (nc := nc) (nm := nm) (nf := nf) fullDefault
    (fun v i k l m => fin (v.S i k l m)) fullComp := by
  rw [fullDefault_eq]; exact impl_free dFull regular_full

/-- **C26** (GMMHMM, `tied`) -/
theorem C26_gmm_tied : FitImplFree (nc := nc) (nm := nm) (nf := nf) tiedDefault
    (fun v i l m => fin (v.S i l m)) tiedComp := by
  rw [tiedDefault_eq]; exact impl_free dTied regular_tied

/-- **C26** (GMMHMM, `spherical`) The divisor of the update is positive if `n_mix ≤ n_features`. -/
theorem C26_gmm_spherical [NeZero nf] (hn : nm ≤ nf) : FitImplFree (nc := nc) (nm := nm) (nf := nf)
    sphericalDefault (fun v i k => fin (v i k)) sphericalComp := by
  rw [sphericalDefault_eq]; exact impl_free dSpherical fun ps => regular_spherical ps hn

/-- **C27** (GMMHMM, `diag`) -/
theorem C27_gmm_diag : FitOrderFree (nc := nc) (nm := nm) (nf := nf) diagDefault
    (fun v i k l => fin (v i k l)) diagComp := by
  rw [diagDefault_eq]; exact order_free dDiag regular_diag

/-- **C27** (GMMHMM, `full`) -/
theorem C27_gmm_full : FitOrderFree (nc := nc) (nm := nm) (nf := nf) fullDefault
    (fun v i k l m => fin (v.S i k l m)) fullComp := by
  rw [fullDefault_eq]; exact order_free dFull regular_full

/-- **C27** (GMMHMM, `tied`) -/
theorem C27_gmm_tied : FitOrderFree (nc := nc) (nm := nm) (nf := nf) tiedDefault
    (fun v i l m => fin (v.S i l m)) tiedComp := by
  rw [tiedDefault_eq]; exact order_free dTied regular_tied

/-- **C27** (GMMHMM, `spherical`) -/
theorem C27_gmm_spherical [NeZero nf] (hn : nm ≤ nf) : FitOrderFree (nc := nc) (nm := nm) (nf := nf)
    sphericalDefault (fun v i k => fin (v i k)) sphericalComp := by
  rw [sphericalDefault_eq]; exact order_free dSpherical fun ps => regular_spherical ps hn

end

/-! ## Concrete cases -/

namespace GmmExample

noncomputable def p {V : Type} (v : V) : GmmPoint 2 2 2 V :=
  ⟨fun _ => 1 / 2, fun _ _ => 1 / 2, fun _ => ![1 / 4, 3 / 4],
    fun i k l => i.val + 2 * k.val + l.val, v⟩

noncomputable def ss : List (ObsSeq (Fin 2 → ℝ)) := [⟨1, ![![0, 1], ![2, 5]]⟩, ⟨2, ![![0, 1], ![2, 3], ![4, 4]]⟩]

theorem chain {V : Type} (v : V) : ChainModel (p v).π (p v).A := by
  constructor <;> intros <;> simp [p]

theorem weights {V : Type} (v : V) : MixWeights (p v).w := by
  constructor
  · intro i k; fin_cases k <;> simp [p]
  · intro i; simp [p, Fin.sum_univ_two]; norm_num

theorem used {V C : Type} {K : Kind XF 2 2 2 C} (R : RKind K V) (v : V) :
    EveryStateUsed (p v).π (p v).A ((p v).b R.dens) ss ∧ 0 < (p v).L R.dens ss :=
  everyStateUsed_of_pos (by simp [ss]) (by simp [p]) (by simp [p]) fun o i =>
    R.b_pos (toR (p v) (weights v)).q o i

example (impl : Impl) (mon : Monitor XF) :=
  C62_diag ['s', 't', 'm', 'c', 'w'] impl 10 ss (p fun _ _ _ => 1) mon (by simp [ss]) (chain _)
    (weights _) (used dDiag _).2 (used dDiag _).1

example (impl : Impl) (mon : Monitor XF) :=
  C62_spherical rfl ['s', 't', 'm', 'c', 'w'] impl 10 ss (p fun _ _ => 1) mon (by simp [ss]) (chain _)
    (weights _) (used dSpherical _).2 (used dSpherical _).1

example (impl : Impl) (mon : Monitor XF) :=
  C62_full ['s', 't', 'm', 'c', 'w'] impl 10 ss (p ⟨fun _ _ => 1, fun _ _ => .one⟩) mon (by simp [ss])
    (chain _) (weights _) (used dFull _).2 (used dFull _).1

example (impl : Impl) (mon : Monitor XF) :=
  C62_tied ['s', 't', 'm', 'c', 'w'] impl 10 ss (p ⟨fun _ => 1, fun _ => .one⟩) mon (by simp [ss])
    (chain _) (weights _) (used dTied _).2 (used dTied _).1

end GmmExample
end Verif
