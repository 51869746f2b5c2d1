import Verif.Proofs.GaussStart
import Verif.Props.GaussianEM
import Verif.Props.GaussianFullEM

/-!
# C73: `fit` of a `GaussianHMM` object
-/

set_option autoImplicit false

namespace Verif
open FloatLike XF Hmmc Spec
open scoped Classical

variable {D G P M Q : Type} {R : RandomLib XF G} {nf : ℕ}

/-! ## Positive densities -/

/-- A chain of distributions always has a possible path. -/
theorem likelihood_pos_of_chain {nc n : ℕ} {π : Fin nc → ℝ} {A : Fin nc → Fin nc → ℝ} {B : Fin (n + 1) → Fin nc → ℝ}
    (h1 : ∀ i, 0 ≤ π i) (h2 : ∀ i j, 0 ≤ A i j) (h3 : ∑ i, π i = 1) (h4 : ∀ i, ∑ j, A i j = 1) (h5 : ∀ t i, 0 < B t i) :
    0 < likelihood π A B := by
  have ex : ∀ f : Fin nc → ℝ, (∀ i, 0 ≤ f i) → ∑ i, f i = 1 → ∃ i, 0 < f i := by
    intro f hf hs
    by_contra hcon
    push_neg at hcon
    have : ∑ i, f i = 0 := Finset.sum_eq_zero fun i _ => le_antisymm (hcon i) (hf i)
    linarith
  obtain ⟨i0, hi0⟩ := ex π h1 h3
  choose f hf using fun i => ex (A i) (h2 i) (h4 i)
  have : 0 < joint π A B fun t => f^[t.val] i0 := by
    refine mul_pos (mul_pos hi0 (Finset.prod_pos fun t _ => ?_)) (Finset.prod_pos fun t _ => h5 t _)
    have := hf (f^[t.val] i0)
    rw [← Function.iterate_succ_apply' f] at this
    exact this
  exact lt_of_lt_of_le this (Finset.single_le_sum (f := fun z => joint π A B z) (fun z _ => mul_nonneg (mul_nonneg (h1 _)
    (Finset.prod_nonneg fun t _ => h2 _ _)) (Finset.prod_nonneg fun t _ => (h5 t _).le)) (Finset.mem_univ _))

theorem dataLikelihood_pos_of_chain {nc : ℕ} {π : Fin nc → ℝ} {A : Fin nc → Fin nc → ℝ} {b : D → Fin nc → ℝ}
    (h1 : ∀ i, 0 ≤ π i) (h2 : ∀ i j, 0 ≤ A i j) (h3 : ∑ i, π i = 1) (h4 : ∀ i, ∑ j, A i j = 1) (h5 : ∀ o i, 0 < b o i)
    (ss : List (ObsSeq D)) : 0 < dataLikelihood π A b ss := by
  unfold dataLikelihood
  refine List.prod_pos fun x hx => ?_
  obtain ⟨s, hs, rfl⟩ := List.mem_map.1 hx
  exact likelihood_pos_of_chain h1 h2 h3 h4 fun t i => h5 _ _

/-! ## Answers from a family -/

/-- An object that training leaves accepted answers for the model it holds. -/
theorem answers_family {S : Sub XF G P} {e : Est XF G P} [NeZero e.nComponents] {obs : D → S.Obs nf}
    {E : Emission XF e.nComponents (S.Obs nf) (S.Params e.nComponents nf) (S.Stats e.nComponents nf)}
    (F : Family E obs e.params Q) {r : RParams e.nComponents Q} {mon : Monitor XF} {X : List D → RawX XF}
    (ha : Accepted S (S.put e (F.theta r) mon)) (hnf : e.nFeatures = some nf)
    (hE : S.emission (S.put e (F.theta r) mon).sub e.nComponents nf = E) (hv : r.Valid)
    (hc : S.checkSub (S.put e (F.theta r) mon) = (.ok (), S.put e (F.theta r) mon))
    (hr : S.read (S.put e (F.theta r) mon).sub e.nComponents nf = some (F.embed r.q))
    (hX : ∀ l, l ≠ [] → ∃ X', checkArray (X l) = .ok X' ∧ S.rows nf X' = .ok (l.map obs)) :
    Answers S (S.put e (F.theta r) mon) X r.π r.A (F.b r.q) := by
  have heta : ({ S.put e (F.theta r) mon with nFeatures := some nf, sub := (S.put e (F.theta r) mon).sub } : Est XF G P) =
      S.put e (F.theta r) mon := by
    rw [← hnf]; rfl
  refine answers_of (holdsChain_of ha rfl rfl hv.π_nonneg hv.A_nonneg) (nf := nf) (p := (S.put e (F.theta r) mon).sub)
    (by rw [heta]; exact hc) hr obs (fun impl => ?_) hX
  have hE' : S.emission (S.put e (F.theta r) mon).sub (S.put e (F.theta r) mon).nComponents nf = E := hE
  rw [hE']
  exact { startprob_eq := rfl, transmat_eq := rfl, π_nonneg := hv.π_nonneg, A_nonneg := hv.A_nonneg
          b_nonneg := F.b_nonneg r.q, lik_eq := F.lik_eq r.q, loglik_eq := F.loglik_eq r.q }

/-! ## Every covariance type -/

/-- The loop of `fit`. -/
theorem gauss_loop {S : Sub XF G (GaussAttrs XF)} {eig : Eigvalsh XF} {ty : CovType} (hS : IsGauss S eig ty)
    {e : Est XF G (GaussAttrs XF)} [NeZero e.nComponents] {K : GaussForm e.nComponents nf M}
    {obs : (Fin nf → ℝ) → S.Obs nf}
    {E : Emission XF e.nComponents (S.Obs nf) (S.Params e.nComponents nf) (S.Stats e.nComponents nf)}
    (F : Family E obs e.params Q) (hE : S.emission e.sub e.nComponents nf = E)
    (hEw : ∀ θ : S.Params e.nComponents nf, S.emission (S.write θ e.sub) e.nComponents nf = E)
    (hrw : ∀ q, S.read (S.write (F.embed q) e.sub) e.nComponents nf = some (F.embed q)) {impl : Impl}
    (hset : FlatChain e impl) {r : RParams e.nComponents Q} (hnf : e.nFeatures = some nf)
    (h1 : e.startprob = some (vec r.π)) (h2 : e.transmat = some (mat r.A))
    (h3 : S.read e.sub e.nComponents nf = some (F.embed r.q)) {ss : List (ObsSeq (Fin nf → ℝ))} (hne : ss ≠ [])
    (hX : ∀ l, l ≠ [] → ∃ X', checkArray (realsX l) = .ok X' ∧ S.rows nf X' = .ok (l.map obs))
    {X' : XArr XF} (hX' : S.rows nf X' = .ok ((samples ss).map obs)) {ls : Option (List Int)} (hl : LengthsFor ss ls)
    {I : RParams e.nComponents Q → Prop} (hI : F.Closed ⟨fun _ => 1, fun _ _ => 1, impl, e.nIter⟩ ss I) (hr : I r)
    (hIok : ∀ r, I r → r.Valid ∧ F.Ok .log ss r)
    (pt : RParams e.nComponents Q → M) (hπ : ∀ r, K.π (pt r) = r.π) (hA : ∀ r, K.A (pt r) = r.A)
    (hb : ∀ r, K.b (pt r) = F.b r.q)
    (hw : ∀ r : RParams e.nComponents Q, (S.write (F.embed r.q) e.sub).means = some (mat (K.mu (pt r))) ∧
      ∃ c, (S.write (F.embed r.q) e.sub).covars = some c ∧ K.stored (pt r) c)
    {obj : M → ℝ} {mono : M → M → Prop}
    (hobj : ∀ r, I r → mono (pt r) (pt (F.rstep ⟨fun _ => 1, fun _ _ => 1, impl, e.nIter⟩ ss r)) →
      obj (pt r) ≤ obj (pt (F.rstep ⟨fun _ => 1, fun _ _ => 1, impl, e.nIter⟩ ss r)))
    (hacc : 't' ∈ e.params → UsedBeforeLast r.π r.A (F.b r.q) ss → ∀ mon mon',
      (F.fit ⟨fun _ => 1, fun _ _ => 1, impl, e.nIter⟩ ss r mon).raised = none →
      Accepted S (S.put e (F.fit ⟨fun _ => 1, fun _ _ => 1, impl, e.nIter⟩ ss r mon).state mon')) :
    TrainsFrom (gaussTraining K S e.params ss obj mono) (pt r) e impl (S.loop X' ls e) := by
  have hcfg : e.config impl = (⟨fun _ => 1, fun _ _ => 1, impl, e.nIter⟩ : RConfig e.nComponents).toConfig e.params := by
    simp only [Est.config, RConfig.toConfig]
    congr 1
    · funext i; exact hset.startprobPrior i
    · funext i j; exact hset.transmatPrior i j
  refine loop_trains (gaussTraining K S e.params ss obj mono) F hE (c := ⟨fun _ => 1, fun _ _ => 1, impl, e.nIter⟩)
    hset.implementation hcfg hset.nIter hnf h1 h2 h3 hne hX' hl (fun _ _ => le_rfl) hI hr pt (fun r => ?_)
    (fun r hr => (log_dataLikelihood ss (hIok r hr).2).1) (fun r mon hr => ?_) (fun r hr _ _ hm => hobj r hr hm) ?_ ?_
  · show dataLikelihood (K.π (pt r)) (K.A (pt r)) (K.b (pt r)) ss = _
    rw [hπ, hA, hb]; rfl
  · refine ⟨⟨rfl, hnf, ?_, ?_⟩, (hw r).1, (hw r).2⟩
    · rw [hπ]; rfl
    · rw [hA]; rfl
  · intro hu hraise
    obtain ⟨ht, hu⟩ := hu
    rw [hπ, hA, hb] at hu
    exact hacc ht hu _ _ hraise
  · intro r mon hr ha
    show Answers S _ realsX (K.π (pt r)) (K.A (pt r)) (K.b (pt r))
    rw [hπ, hA, hb]
    exact answers_family F ha hnf (hEw _) (hIok r hr).1 (gauss_checkSub hS e hnf _ _) (hrw _) hX

/-- `_init` and `_check`. -/
theorem gauss_ready {S : Sub XF G (GaussAttrs XF)} {eig : Eigvalsh XF} {ty : CovType} (hS : IsGauss S eig ty)
    (hn : ∀ e, (S.nFit e).map Prod.fst = ['s', 't', 'm', 'c']) (hR : PositiveDraws R) (hC : RealCentres R)
    {l : List (Fin nf → ℝ)} (hl : l ≠ []) {w : World XF G (GaussAttrs XF)} {impl : Impl} (hset : FlatChain w.est impl)
    (hnf : ColumnCount w.est nf) {K : GaussForm w.est.nComponents nf M} (hg : GivenGauss K w.est)
    (hp : ∀ c ∈ w.est.params, c ∈ ['s', 't', 'm', 'c']) (hen : Enough w.est l) {cov : ℝ → NdArray XF}
    (hcov : 2 ≤ l.length → ∀ mc, 0 < mc → setCovars eig ty w.est.nComponents
      (distributeCovar (fun k j => fin (templateCov mc l k j)) ty w.est.nComponents) = .ok (cov mc))
    (hcov' : ∀ mc, 0 < mc → ∃ m, K.stored m (cov mc) ∧ K.proper m ∧ K.template (templateCov mc l) m)
    (hmk : ∀ π A mu m, ∃ m', K.π m' = π ∧ K.A m' = A ∧ K.mu m' = mu ∧ (∀ c, K.stored m c → K.stored m' c) ∧
      (K.proper m → K.proper m') ∧ ∀ T, K.template T m → K.template T m') :
    ∃ (rs : RandomState G) (g : G) (m : M) (c : NdArray XF),
      S.init R (.floats (l.map Gaussian.row)) w = (.ok (), ⟨{ w.est with
        nFeatures := some nf, sub := { w.est.sub with means := some (mat (K.mu m)), covars := some c }, randomState := rs
        startprob := some (vec (K.π m)), transmat := some (mat (K.A m)) }, g⟩) ∧
      S.check { w.est with
        nFeatures := some nf, sub := { w.est.sub with means := some (mat (K.mu m)), covars := some c }, randomState := rs
        startprob := some (vec (K.π m)), transmat := some (mat (K.A m)) } = (.ok (), { w.est with
        nFeatures := some nf, sub := { w.est.sub with means := some (mat (K.mu m)), covars := some c }, randomState := rs
        startprob := some (vec (K.π m)), transmat := some (mat (K.A m)) }) ∧
      K.stored m c ∧ StartsGauss K R w.est l m := by
  haveI : NeZero w.est.nComponents := ⟨hset.nComponents⟩
  obtain ⟨rs, g, π, A, mu, c, h1, h2, h3, h4, h5, h6⟩ := gauss_init hS hn hR hC hl hnf hset.nComponents hg.chain hg.means
    (fun h => let ⟨c, _, h', _⟩ := hg.covars h; ⟨c, h'⟩) hp hen hcov
  have hm : ∃ m, K.stored m c ∧ K.proper m ∧ (Fresh w.est 'c' w.est.sub.covars →
      ∃ mc, w.est.sub.minCovar = fin mc ∧ K.template (templateCov mc l) m) := by
    by_cases hfr : Fresh w.est 'c' w.est.sub.covars
    · obtain ⟨mc, k1, k2, rfl⟩ := h6 hfr
      obtain ⟨m, k3, k4, k5⟩ := hcov' mc k1
      exact ⟨m, k3, k4, fun _ => ⟨mc, k2, k5⟩⟩
    · obtain ⟨c', m, k1, k2, k3⟩ := hg.covars hfr
      have := h5 hfr
      rw [k1] at this
      cases this
      exact ⟨m, k2, k3, fun h => absurd h hfr⟩
  obtain ⟨m, k1, k2, k3⟩ := hm
  obtain ⟨m', rfl, rfl, rfl, j1, j2, j3⟩ := hmk π A mu m
  refine ⟨rs, g, m', c, h1, ?_, j1 c k1, ⟨h2, j2 k2, h3, h4, fun h => ⟨c, h5 h, j1 c k1⟩, fun h => ?_⟩⟩
  · have hb : checkBase _ = .ok () := C30_valid ({ w.est with
        nFeatures := some nf, sub := { w.est.sub with means := some (mat (K.mu m')), covars := some c }, randomState := rs
        startprob := some (vec (K.π m')), transmat := some (mat (K.A m')) } : Est XF G (GaussAttrs XF)) _ _ rfl rfl
        h2.π_sum h2.A_sum
    rw [Sub.check_eq, hb]
    simp only
    rw [hS.check]
    have hsh : (mat (K.mu m')).shape[1]? = some nf := rfl
    simp [gaussCheck, hsh]
  · obtain ⟨mc, a, b⟩ := k3 h
    exact ⟨mc, a, j3 _ b⟩

theorem reals_array (hf : nf ≠ 0) {l : List (Fin nf → ℝ)} (hl : l ≠ []) :
    checkArray (realsX l) = .ok (.floats (l.map Gaussian.row)) := by
  refine (checkArray_reals_of _ (by simpa using hl) hf).trans ?_
  exact congrArg (fun r => (Except.ok (XArr.floats r) : Except PyErr (XArr XF))) (ofFn_get_map l Gaussian.row)

theorem gaussRows_floats (rows : List (Fin nf → XF)) : gaussRows (α := XF) nf (.floats rows) = .ok rows := by
  have : (XArr.floats rows : XArr XF).d = nf := rfl
  simp only [gaussRows, this, dite_true, XArr.floatRows]
  congr 1
  exact List.map_id _

theorem gain_obj {a b p p' : ℝ} (h : a + (p - p') ≤ b) : a + p ≤ b + p' := by linarith

/-- `fit` from the parts. -/
theorem gauss_fit {S : Sub XF G (GaussAttrs XF)} {eig : Eigvalsh XF} {ty : CovType} (hS : IsGauss S eig ty)
    (hn : ∀ e, (S.nFit e).map Prod.fst = ['s', 't', 'm', 'c']) (hR : PositiveDraws R) (hC : RealCentres R) (hf : nf ≠ 0)
    {ss : List (ObsSeq (Fin nf → ℝ))} (hne : ss ≠ []) {w : World XF G (GaussAttrs XF)} {impl : Impl}
    (hset : FlatChain w.est impl)
    (hnf : ColumnCount w.est nf) {K : GaussForm w.est.nComponents nf M} (hg : GivenGauss K w.est)
    (hp : ∀ c ∈ w.est.params, c ∈ ['s', 't', 'm', 'c']) (hen : Enough w.est (samples ss))
    (hcov : ∀ T : Matrix (Fin nf) (Fin nf) ℝ, T.PosDef → ∃ c m, setCovars eig ty w.est.nComponents
      (distributeCovar (fun k j => fin (T k j)) ty w.est.nComponents) = .ok c ∧
      K.stored m c ∧ K.proper m ∧ K.template T m)
    (hmk : ∀ π A mu m, ∃ m', K.π m' = π ∧ K.A m' = A ∧ K.mu m' = mu ∧ (∀ c, K.stored m c → K.stored m' c) ∧
      (K.proper m → K.proper m') ∧ ∀ T, K.template T m → K.template T m')
    {ls : Option (List Int)} {obj : M → ℝ} {mono : M → M → Prop}
    (hloop : ∀ (rs : RandomState G) m c, K.stored m c → StartsGauss K R w.est (samples ss) m →
      TrainsFrom (gaussTraining K S w.est.params ss obj mono) m
        { w.est with
          nFeatures := some nf, sub := { w.est.sub with means := some (mat (K.mu m)), covars := some c }, randomState := rs
          startprob := some (vec (K.π m)), transmat := some (mat (K.A m)) } impl
        (S.loop (.floats ((samples ss).map Gaussian.row)) ls { w.est with
          nFeatures := some nf, sub := { w.est.sub with means := some (mat (K.mu m)), covars := some c }, randomState := rs
          startprob := some (vec (K.π m)), transmat := some (mat (K.A m)) })) :
    ∃ m₀ : M, StartsGauss K R w.est (samples ss) m₀ ∧
      TrainsFrom (gaussTraining K S w.est.params ss obj mono) m₀ w.est impl
        ((S.fit R (realsX (samples ss)) ls w).1, (S.fit R (realsX (samples ss)) ls w).2.est) := by
  have hl := samples_ne hne
  have hc : ∀ mc : {mc : ℝ // 0 < mc}, ∃ c, setCovars eig ty w.est.nComponents
      (distributeCovar (fun k j => fin (templateCov mc.1 (samples ss) k j)) ty w.est.nComponents) = .ok c ∧ ∃ m,
      K.stored m c ∧ K.proper m ∧ K.template (templateCov mc.1 (samples ss)) m := by
    intro mc
    obtain ⟨c, m, h1, h2⟩ := hcov _ (templateCov_pd mc.2 hl)
    exact ⟨c, h1, m, h2⟩
  choose cov hcov1 hcov2 using hc
  let cov' : ℝ → NdArray XF := fun mc => if h : 0 < mc then cov ⟨mc, h⟩ else mat (fun (_ _ : Fin 0) => (0 : ℝ))
  obtain ⟨rs, g, m, c, h1, h2, h3, h4⟩ := gauss_ready hS hn hR hC hl hset hnf hg hp hen (cov := cov')
    (fun _ mc h => by simp only [cov', dif_pos h]; exact hcov1 ⟨mc, h⟩)
    (fun mc h => by simp only [cov', dif_pos h]; exact hcov2 ⟨mc, h⟩) hmk
  refine ⟨m, h4, ?_⟩
  rw [Sub.fit_eq (reals_array hf hl) ls h1 h2]
  exact (hloop rs m c h3 h4).settings_of ⟨rfl, rfl, rfl, rfl, rfl, rfl, rfl, rfl, rfl⟩

/-! ## diag -/

theorem Spec.StartsGauss.model {e : Est XF G (GaussAttrs XF)} {K : GaussForm e.nComponents nf M} {l : List (Fin nf → ℝ)} {m : M}
    (h : StartsGauss K R e l m) : ChainModel (K.π m) (K.A m) :=
  ⟨h.chain.π_nonneg, h.chain.A_nonneg, h.chain.π_sum.le, fun i => (h.chain.A_sum i).le⟩

open Gaussian in
theorem diag_loop {eig : Eigvalsh XF} {impl : Impl} {e : Est XF G (GaussAttrs XF)} (hf : nf ≠ 0) (hset : FlatChain e impl)
    {g : GaussPrior e.nComponents nf} (hpr : PriorIs e g) {cp : Fin e.nComponents → Fin nf → ℝ}
    (hcp : ∀ (i : Fin e.nComponents) (k : Fin nf), e.sub.covarsPrior i k 0 = fin (cp i k)) (hg : g.Proper cp)
    (hcm : 'c' ∈ e.params → 'm' ∈ e.params)
    {m : DiagPoint e.nComponents nf} (hst : StoresGauss (diagForm _ nf) e m) (h : ChainModel m.π m.A) (hπ : ∑ i, m.π i = 1)
    {ss : List (ObsSeq (Fin nf → ℝ))} (hne : ss ≠ []) {ls : Option (List Int)} (hl : LengthsFor ss ls) (hL : 0 < m.L ss)
    (hu : 0 < g.mw ∨ EveryStateUsed m.π m.A (diagB m.mu m.v) ss) :
    TrainsFrom (gaussTraining (diagForm _ nf) (gaussDiagSub eig) e.params ss
        (fun m => m.objective (fun _ => 1) (fun _ _ => 1) g cp ss)
        (fun m _ => ∀ i, 1 / 10 ^ 5 ≤ g.cw - 1 + visits m.π m.A (diagB m.mu m.v) ss i)) m e impl
      ((gaussDiagSub eig).loop (.floats ((samples ss).map Gaussian.row)) ls e) := by
  haveI : NeZero e.nComponents := ⟨hset.nComponents⟩
  have hE : ∀ p : GaussAttrs XF, p.meansPrior = e.sub.meansPrior → p.meansWeight = e.sub.meansWeight →
      p.covarsWeight = e.sub.covarsWeight → p.covarsPrior = e.sub.covarsPrior →
      (gaussDiagSub (G := G) eig).emission p e.nComponents nf = emissionDiag (prior g) fun i k => fin (cp i k) := by
    intro p h1 h2 h3 h4
    show emissionDiag _ _ = emissionDiag _ _
    congr 1
    · simp only [GaussAttrs.prior, prior, h1, h2, h3, hpr.meansWeight, hpr.covarsWeight]
      congr 1
      funext i k
      exact hpr.means i k
    · funext i k
      rw [h4]
      exact hcp i k
  refine gauss_loop (gaussDiag_isGauss eig) (K := diagForm _ nf) (diagFamily g cp e.params) (obs := Gaussian.row)
    (hE _ rfl rfl rfl rfl) (fun θ => hE _ rfl rfl rfl rfl) (fun q => ?_) hset (r := rpD m)
    hst.1.nFeatures hst.1.startprob hst.1.transmat ?_ hne (reals_data hf) (gaussRows_floats _) hl
    (diag_closed g hg.mw cp e.params ⟨fun _ => 1, fun _ _ => 1, impl, e.nIter⟩ ss (fun _ _ => le_rfl) fun _ _ _ => le_rfl)
    ⟨DiagPoint.valid h _, DiagPoint.likelihoods h hL, fun hn => hu.resolve_left hn.2⟩ (fun r hr => ⟨hr.1, hr.2.1⟩) ptD
    (fun _ => rfl) (fun _ => rfl) (fun _ => rfl) (fun r => ⟨rfl, _, rfl, rfl⟩) (fun r hr hC => ?_) (fun ht hu' mon mon' hra => ?_)
  · have e1 := asMat_mat q.mu
    have e2 := asMat_mat q.v
    exact (congrArg (fun a => Option.bind a _) e1).trans (congrArg (fun a => Option.bind a _) e2)
  · obtain ⟨c, h1, h2⟩ := hst.2.2
    cases h2
    have h3 := hst.2.1
    simp only [gaussDiagSub, h1, h3, Option.bind_eq_bind, Option.bind_some, asMat_mat]
    rfl
  · exact gain_obj ((diagFamily g cp e.params).rstep_gain ⟨fun _ => 1, fun _ _ => 1, impl, e.nIter⟩ ss hr.1 hr.2.1 (fun _ _ => le_rfl)
      (fun _ _ _ => le_rfl) (diag_gains hg hcm ss r hr.1 (fun hm i => weight_pos hg.mw hr hm i)
        fun _ i => by have := hC i; rw [visits_eq]; exact this)).2.2
  · exact C28_gaussian_diag e eig hst.1.nFeatures (fun _ => le_rfl) g hg.mw cp ht impl hset.nIter hne h hπ hL hu' mon mon' hra


/-! ## spherical -/

theorem asSpherical_of {nc : ℕ} (hf : nf ≠ 0) {s : Fin nc → ℝ} {c : NdArray XF} (hc : StoresSpherical nc nf s c) :
    asSpherical nc nf c = some fun i _ => fin (s i) := by
  haveI : NeZero nf := ⟨hf⟩
  cases hc with
  | scalar => simp [asSpherical, asMat, asRow, vec, mat]
  | column =>
    by_cases h1 : 1 = nf
    · subst h1; simp [asSpherical, asMat, asRow, vec, mat]
    · simp [asSpherical, asMat, asRow, vec, mat, h1]
  | tiled => simp [asSpherical, asMat, asRow, vec, mat]

open Gaussian in
theorem sph_loop {eig : Eigvalsh XF} {impl : Impl} {e : Est XF G (GaussAttrs XF)} (hf : nf ≠ 0) (hset : FlatChain e impl)
    {g : GaussPrior e.nComponents nf} (hpr : PriorIs e g) {cp : Fin e.nComponents → Fin nf → ℝ}
    (hcp : ∀ (i : Fin e.nComponents) (k : Fin nf), e.sub.covarsPrior i k 0 = fin (cp i k)) (hg : g.Proper cp)
    (hcm : 'c' ∈ e.params → 'm' ∈ e.params)
    {m : DiagPoint e.nComponents nf} (hst : StoresGauss (sphericalForm _ nf) e m) (hty : DiagType.spherical.Shape m) (h : ChainModel m.π m.A) (hπ : ∑ i, m.π i = 1)
    {ss : List (ObsSeq (Fin nf → ℝ))} (hne : ss ≠ []) {ls : Option (List Int)} (hl : LengthsFor ss ls) (hL : 0 < m.L ss)
    (hu : 0 < g.mw ∨ EveryStateUsed m.π m.A (diagB m.mu m.v) ss) :
    TrainsFrom (gaussTraining (sphericalForm _ nf) (gaussSphericalSub eig) e.params ss
        (fun m => m.objective (fun _ => 1) (fun _ _ => 1) g cp ss)
        (fun m _ => ∀ i, 1 / 10 ^ 5 ≤ g.cw - 1 + visits m.π m.A (diagB m.mu m.v) ss i)) m e impl
      ((gaussSphericalSub eig).loop (.floats ((samples ss).map Gaussian.row)) ls e) := by
  haveI : NeZero e.nComponents := ⟨hset.nComponents⟩
  haveI : NeZero nf := ⟨hf⟩
  obtain ⟨r, rfl⟩ : ∃ r, m = ptS r := ⟨rpS m, (ptS_rpS hty).symm⟩
  have hE : ∀ p : GaussAttrs XF, p.meansPrior = e.sub.meansPrior → p.meansWeight = e.sub.meansWeight →
      p.covarsWeight = e.sub.covarsWeight → p.covarsPrior = e.sub.covarsPrior →
      (gaussSphericalSub (G := G) eig).emission p e.nComponents nf = emissionSpherical (prior g) fun i k => fin (cp i k) := by
    intro p h1 h2 h3 h4
    show emissionSpherical _ _ = emissionSpherical _ _
    congr 1
    · simp only [GaussAttrs.prior, prior, h1, h2, h3, hpr.meansWeight, hpr.covarsWeight]
      congr 1
      funext i k
      exact hpr.means i k
    · funext i k
      rw [h4]
      exact hcp i k
  refine gauss_loop (gaussSpherical_isGauss eig) (K := sphericalForm _ nf) (sphFamily g cp e.params) (obs := Gaussian.row)
    (hE _ rfl rfl rfl rfl) (fun θ => hE _ rfl rfl rfl rfl) (fun q => ?_) hset (r := r)
    hst.1.nFeatures hst.1.startprob hst.1.transmat ?_ hne (reals_data hf) (gaussRows_floats _) hl
    (sph_closed g hg.mw cp e.params ⟨fun _ => 1, fun _ _ => 1, impl, e.nIter⟩ ss (fun _ _ => le_rfl) fun _ _ _ => le_rfl)
    ⟨DiagPoint.valid h _, DiagPoint.likelihoods h hL, fun hn => hu.resolve_left hn.2⟩ (fun r hr => ⟨hr.1, hr.2.1⟩) ptS
    (fun _ => rfl) (fun _ => rfl) (fun _ => rfl) (fun r => ⟨rfl, _, rfl, r.q.v, fun _ _ => rfl, .tiled⟩) (fun r hr hC => ?_) (fun ht hu' mon mon' hra => ?_)
  · have e1 := asMat_mat q.mu
    have e2 := asSpherical_of hf (.tiled (nc := e.nComponents) (nf := nf) (s := q.v))
    exact (congrArg (fun a => Option.bind a _) e1).trans (congrArg (fun a => Option.bind a _) e2)
  · obtain ⟨c, h1, s, h2, h4⟩ := hst.2.2
    have hs : s = r.q.v := funext fun i => (h2 i 0).symm
    subst hs
    have h3 := hst.2.1
    have e2 := asSpherical_of hf h4
    simp only [gaussSphericalSub, h1, h3, Option.bind_eq_bind, Option.bind_some, asMat_mat, e2]
    rfl
  · exact gain_obj ((sphFamily g cp e.params).rstep_gain ⟨fun _ => 1, fun _ _ => 1, impl, e.nIter⟩ ss hr.1 hr.2.1 (fun _ _ => le_rfl)
      (fun _ _ _ => le_rfl) (sph_gains hg hcm ss r hr.1 (fun hm i => weight_pos hg.mw hr hm i)
        fun _ i => by have := hC i; rw [visits_eq]; exact this)).2.2
  · exact C28_gaussian_spherical e eig hst.1.nFeatures (fun _ => le_rfl) g hg.mw cp ht impl hset.nIter hne hty h hπ hL hu' mon mon' hra


/-! ## full -/

open Gaussian in
theorem full_loop {eig : Eigvalsh XF} {impl : Impl} {e : Est XF G (GaussAttrs XF)} (hf : nf ≠ 0) (hset : FlatChain e impl)
    {g : GaussPrior e.nComponents nf} (hpr : PriorIs e g) (hmw : 0 ≤ g.mw)
    {cp : Fin e.nComponents → Matrix (Fin nf) (Fin nf) ℝ}
    (hcp : ∀ (i : Fin e.nComponents) (k l : Fin nf), e.sub.covarsPrior i k l = fin (cp i k l)) (hpsd : ∀ i, (cp i).PosSemidef)
    (hcm : 'c' ∈ e.params → 'm' ∈ e.params)
    {m : FullPoint e.nComponents nf} (hst : StoresGauss (fullForm _ nf) e m) (hP : ∀ i, (m.S i).PosSemidef) (h : ChainModel m.π m.A) (hπ : ∑ i, m.π i = 1)
    {ss : List (ObsSeq (Fin nf → ℝ))} (hne : ss ≠ []) {ls : Option (List Int)} (hl : LengthsFor ss ls) (hL : 0 < m.L ss)
    (hu : (0 < g.mw ∧ (nf : ℝ) < g.cw) ∨ EveryStateUsed m.π m.A (fullB m.mu m.S) ss) :
    TrainsFrom (gaussTraining (fullForm _ nf) (gaussFullSub eig) e.params ss
        (fun m => m.objective (fun _ => 1) (fun _ _ => 1) g cp ss)
        (fun _ m' => 'c' ∈ e.params → ∀ i, (m'.S i).PosDef)) m e impl
      ((gaussFullSub eig).loop (.floats ((samples ss).map Gaussian.row)) ls e) := by
  haveI : NeZero e.nComponents := ⟨hset.nComponents⟩
  have hE : ∀ p : GaussAttrs XF, p.meansPrior = e.sub.meansPrior → p.meansWeight = e.sub.meansWeight →
      p.covarsWeight = e.sub.covarsWeight → p.covarsPrior = e.sub.covarsPrior →
      (gaussFullSub (G := G) eig).emission p e.nComponents nf = emissionFull (prior g) fun i k l => fin (cp i k l) := by
    intro p h1 h2 h3 h4
    show emissionFull _ _ = emissionFull _ _
    congr 1
    · simp only [GaussAttrs.prior, prior, h1, h2, h3, hpr.meansWeight, hpr.covarsWeight]
      congr 1
      funext i k
      exact hpr.means i k
    · funext i k l
      rw [h4]
      exact hcp i k l
  refine gauss_loop (gaussFull_isGauss eig) (K := fullForm _ nf) (fullFamily g hmw cp hpsd e.params) (obs := Gaussian.row)
    (hE _ rfl rfl rfl rfl) (fun θ => hE _ rfl rfl rfl rfl) (fun q => ?_) hset (r := rpF m hP)
    hst.1.nFeatures hst.1.startprob hst.1.transmat ?_ hne (reals_data hf) (gaussRows_floats _) hl
    (full_closed g hmw cp hpsd e.params (fun hc => Or.inl (hcm hc)) ⟨fun _ => 1, fun _ _ => 1, impl, e.nIter⟩ ss (fun _ _ => le_rfl) fun _ _ _ => le_rfl)
    ⟨⟨h.π_nonneg, h.A_nonneg, h.π_sum, h.A_sum⟩, FullPoint.likelihoods h hP hL, fun hn => hu.resolve_left hn.2⟩ (fun r hr => ⟨hr.1, hr.2.1⟩) ptF
    (fun _ => rfl) (fun _ => rfl) (fun _ => rfl) (fun r => ⟨rfl, _, rfl, rfl⟩) (fun r hr hC => ?_) (fun ht hu' mon mon' hra => ?_)
  · have e1 := asMat_mat q.mu
    have e2 := asCube_cube q.S
    exact (congrArg (fun a => Option.bind a _) e1).trans (congrArg (fun a => Option.bind a _) e2)
  · obtain ⟨c, h1, h2⟩ := hst.2.2
    cases h2
    have h3 := hst.2.1
    have e2 : asCube e.nComponents nf nf (cube m.S) = some fun i k l => fin (m.S i k l) := asCube_cube m.S
    simp only [gaussFullSub, h1, h3, Option.bind_eq_bind, Option.bind_some, asMat_mat, e2]
    rfl
  · exact gain_obj ((fullFamily g hmw cp hpsd e.params).rstep_gain ⟨fun _ => 1, fun _ _ => 1, impl, e.nIter⟩ ss hr.1 hr.2.1 (fun _ _ => le_rfl)
      (fun _ _ _ => le_rfl) (full_gains hcm ss r hr.1 (fun hm i => weight_pos hmw (keeps_need hr) hm i)
        (fun hc i => cov_weight_pos hr (hcm hc) i) hC)).2.2
  · exact C28_gaussian_full e eig hst.1.nFeatures (fun _ => le_rfl) g hmw cp hpsd (fun hc => Or.inl (hcm hc)) ht impl hset.nIter hne hP h hπ hL hu' mon mon' hra


/-! ## tied -/

open Gaussian in
theorem tied_loop {eig : Eigvalsh XF} {impl : Impl} {e : Est XF G (GaussAttrs XF)} (hf : nf ≠ 0) (hset : FlatChain e impl)
    {g : GaussPrior e.nComponents nf} (hpr : PriorIs e g) (hmw : 0 ≤ g.mw)
    {cp : Matrix (Fin nf) (Fin nf) ℝ}
    (hcp : ∀ k l : Fin nf, e.sub.covarsPrior 0 k l = fin (cp k l)) (hpsd : cp.PosSemidef)
    (hcm : 'c' ∈ e.params → 'm' ∈ e.params)
    {m : TiedPoint e.nComponents nf} (hst : StoresGauss (tiedForm _ nf) e m) (hP : m.S.PosSemidef) (h : ChainModel m.π m.A) (hπ : ∑ i, m.π i = 1)
    {ss : List (ObsSeq (Fin nf → ℝ))} (hne : ss ≠ []) {ls : Option (List Int)} (hl : LengthsFor ss ls) (hL : 0 < m.L ss)
    (hu : 0 < g.mw ∨ EveryStateUsed m.π m.A (fullB m.mu fun _ => m.S) ss) :
    TrainsFrom (gaussTraining (tiedForm _ nf) (gaussTiedSub eig) e.params ss
        (fun m => m.objective (fun _ => 1) (fun _ _ => 1) g cp ss)
        (fun _ m' => 'c' ∈ e.params → m'.S.PosDef)) m e impl
      ((gaussTiedSub eig).loop (.floats ((samples ss).map Gaussian.row)) ls e) := by
  haveI : NeZero e.nComponents := ⟨hset.nComponents⟩
  have hE : ∀ p : GaussAttrs XF, p.meansPrior = e.sub.meansPrior → p.meansWeight = e.sub.meansWeight →
      p.covarsWeight = e.sub.covarsWeight → p.covarsPrior = e.sub.covarsPrior →
      (gaussTiedSub (G := G) eig).emission p e.nComponents nf = emissionTied (prior g) fun k l => fin (cp k l) := by
    intro p h1 h2 h3 h4
    show emissionTied _ _ = emissionTied _ _
    congr 1
    · simp only [GaussAttrs.prior, prior, h1, h2, h3, hpr.meansWeight, hpr.covarsWeight]
      congr 1
      funext i k
      exact hpr.means i k
    · funext k l
      rw [h4]
      exact hcp k l
  refine gauss_loop (gaussTied_isGauss eig) (K := tiedForm _ nf) (tiedFamily g hmw cp hpsd e.params) (obs := Gaussian.row)
    (hE _ rfl rfl rfl rfl) (fun θ => hE _ rfl rfl rfl rfl) (fun q => ?_) hset (r := rpT m hP)
    hst.1.nFeatures hst.1.startprob hst.1.transmat ?_ hne (reals_data hf) (gaussRows_floats _) hl
    (tied_closed g hmw cp hpsd e.params (fun hc => Or.inl (hcm hc)) ⟨fun _ => 1, fun _ _ => 1, impl, e.nIter⟩ ss hne (fun _ _ => le_rfl) fun _ _ _ => le_rfl)
    ⟨⟨h.π_nonneg, h.A_nonneg, h.π_sum, h.A_sum⟩, TiedPoint.likelihoods h hP hL, fun hn => hu.resolve_left hn.2⟩ (fun r hr => ⟨hr.1, hr.2.1⟩) ptT
    (fun _ => rfl) (fun _ => rfl) (fun _ => rfl) (fun r => ⟨rfl, _, rfl, rfl⟩) (fun r hr hC => ?_) (fun ht hu' mon mon' hra => ?_)
  · have e1 := asMat_mat q.mu
    have e2 := asMat_mat q.S
    exact (congrArg (fun a => Option.bind a _) e1).trans (congrArg (fun a => Option.bind a _) e2)
  · obtain ⟨c, h1, h2⟩ := hst.2.2
    cases h2
    have h3 := hst.2.1
    have e2 : asMat nf nf (mat m.S) = some fun k l => fin (m.S k l) := asMat_mat m.S
    simp only [gaussTiedSub, h1, h3, Option.bind_eq_bind, Option.bind_some, asMat_mat, e2]
    rfl
  · exact gain_obj ((tiedFamily g hmw cp hpsd e.params).rstep_gain ⟨fun _ => 1, fun _ _ => 1, impl, e.nIter⟩ ss hr.1 hr.2.1 (fun _ _ => le_rfl)
      (fun _ _ _ => le_rfl) (tied_gains hcm ss r hr.1 (fun hm i => weight_pos hmw hr hm i)
        (fun _ => add_pos_of_nonneg_of_pos (cvw_nonneg g) (tied_total_pos hne hr.2.1)) hC)).2.2
  · exact C28_gaussian_tied e eig hst.1.nFeatures (fun _ => le_rfl) g hmw cp hpsd (fun hc => Or.inl (hcm hc)) ht impl hset.nIter hne hP h hπ hL hu' mon mon' hra


open Gaussian

/-! ## `fit` -/

/-- **C73** `GaussianHMM(covariance_type="diag")`. -/
theorem C73_gaussian_diag {eig : Eigvalsh XF} {impl : Impl} {w : World XF G (GaussAttrs XF)}
    {ss : List (ObsSeq (Fin nf → ℝ))} {ls : Option (List Int)} (h : GaussCall (diagForm w.est.nComponents nf) R impl w ss ls)
    {g : GaussPrior w.est.nComponents nf} (hpr : PriorIs w.est g) {cp : Fin w.est.nComponents → Fin nf → ℝ}
    (hcp : ∀ (i : Fin w.est.nComponents) (k : Fin nf), w.est.sub.covarsPrior i k 0 = fin (cp i k)) (hg : g.Proper cp)
    (hu : 0 < g.mw ∨ ∀ m, StartsGauss (diagForm w.est.nComponents nf) R w.est (samples ss) m → EveryStateUsed m.π m.A (diagB m.mu m.v) ss) :
    FitsGauss (diagForm w.est.nComponents nf) (gaussDiagSub eig) R impl w ss ls
      (fun m => m.objective (fun _ => 1) (fun _ _ => 1) g cp ss)
      (fun m _ => ∀ i, 1 / 10 ^ 5 ≤ g.cw - 1 + visits m.π m.A (diagB m.mu m.v) ss i) := by
  refine gauss_fit (gaussDiag_isGauss eig) (fun _ => rfl) h.draws h.centres h.columns h.data h.settings h.features h.given
    h.params h.enough (fun T hT => ⟨_, ⟨fun _ => 0, fun _ _ => 0, fun _ _ => 0, fun _ k => T k k⟩, accept_diag hT, rfl, trivial,
      fun _ _ => rfl⟩) (fun π A mu m => ⟨⟨π, A, mu, m.v⟩, rfl, rfl, rfl, fun _ h => h, fun h => h, fun _ h => h⟩)
    fun rs m c hc hm => ?_
  exact diag_loop (e := { w.est with nFeatures := some nf, sub := { w.est.sub with means := some (mat m.mu), covars := some c }, randomState := rs, startprob := some (vec m.π), transmat := some (mat m.A) })
    h.columns ⟨h.settings.1, h.settings.2, h.settings.3, h.settings.4, h.settings.5⟩ ⟨hpr.1, hpr.2, hpr.3⟩ hcp hg h.meansToo
    ⟨⟨rfl, rfl, rfl, rfl⟩, rfl, c, rfl, hc⟩ hm.model hm.chain.π_sum h.data h.lengths
    (dataLikelihood_pos_of_chain hm.chain.π_nonneg hm.chain.A_nonneg hm.chain.π_sum hm.chain.A_sum (diagB_pos _ _) ss)
    (hu.imp id fun hu => hu m hm)

/-- **C73** `GaussianHMM(covariance_type="spherical")`. -/
theorem C73_gaussian_spherical {eig : Eigvalsh XF} {impl : Impl} {w : World XF G (GaussAttrs XF)}
    {ss : List (ObsSeq (Fin nf → ℝ))} {ls : Option (List Int)} (h : GaussCall (sphericalForm w.est.nComponents nf) R impl w ss ls)
    {g : GaussPrior w.est.nComponents nf} (hpr : PriorIs w.est g) {cp : Fin w.est.nComponents → Fin nf → ℝ}
    (hcp : ∀ (i : Fin w.est.nComponents) (k : Fin nf), w.est.sub.covarsPrior i k 0 = fin (cp i k)) (hg : g.Proper cp)
    (hu : 0 < g.mw ∨ ∀ m, StartsGauss (sphericalForm w.est.nComponents nf) R w.est (samples ss) m → EveryStateUsed m.π m.A (diagB m.mu m.v) ss) :
    FitsGauss (sphericalForm w.est.nComponents nf) (gaussSphericalSub eig) R impl w ss ls
      (fun m => m.objective (fun _ => 1) (fun _ _ => 1) g cp ss)
      (fun m _ => ∀ i, 1 / 10 ^ 5 ≤ g.cw - 1 + visits m.π m.A (diagB m.mu m.v) ss i) := by
  refine gauss_fit (gaussSpherical_isGauss eig) (fun _ => rfl) h.draws h.centres h.columns h.data h.settings h.features h.given
    h.params h.enough (fun T hT => ⟨_, ⟨fun _ => 0, fun _ _ => 0, fun _ _ => 0, fun _ _ => (∑ k, ∑ l, T k l) / (nf * nf)⟩,
      accept_spherical h.columns hT, ⟨fun _ => (∑ k, ∑ l, T k l) / (nf * nf), fun _ _ => rfl, .tiled⟩, trivial,
      fun _ _ => rfl⟩) (fun π A mu m => ⟨⟨π, A, mu, m.v⟩, rfl, rfl, rfl, fun _ h => h, fun h => h, fun _ h => h⟩)
    fun rs m c hc hm => ?_
  exact sph_loop (e := { w.est with nFeatures := some nf, sub := { w.est.sub with means := some (mat m.mu), covars := some c }, randomState := rs, startprob := some (vec m.π), transmat := some (mat m.A) })
    h.columns ⟨h.settings.1, h.settings.2, h.settings.3, h.settings.4, h.settings.5⟩ ⟨hpr.1, hpr.2, hpr.3⟩ hcp hg h.meansToo
    ⟨⟨rfl, rfl, rfl, rfl⟩, rfl, c, rfl, hc⟩
    (fun i k l => by obtain ⟨s, hs, -⟩ := hc; exact (hs i k).trans (hs i l).symm) hm.model hm.chain.π_sum h.data h.lengths
    (dataLikelihood_pos_of_chain hm.chain.π_nonneg hm.chain.A_nonneg hm.chain.π_sum hm.chain.A_sum (diagB_pos _ _) ss)
    (hu.imp id fun hu => hu m hm)

/-- **C73** `GaussianHMM(covariance_type="full")`. -/
theorem C73_gaussian_full {eig : Eigvalsh XF} (he : EigvalshSpec eig) {impl : Impl} {w : World XF G (GaussAttrs XF)}
    {ss : List (ObsSeq (Fin nf → ℝ))} {ls : Option (List Int)} (h : GaussCall (fullForm w.est.nComponents nf) R impl w ss ls)
    {g : GaussPrior w.est.nComponents nf} (hpr : PriorIs w.est g) (hmw : 0 ≤ g.mw)
    {cp : Fin w.est.nComponents → Matrix (Fin nf) (Fin nf) ℝ}
    (hcp : ∀ (i : Fin w.est.nComponents) (k l : Fin nf), w.est.sub.covarsPrior i k l = fin (cp i k l)) (hpsd : ∀ i, (cp i).PosSemidef)
    (hu : (0 < g.mw ∧ (nf : ℝ) < g.cw) ∨ ∀ m, StartsGauss (fullForm w.est.nComponents nf) R w.est (samples ss) m → EveryStateUsed m.π m.A (fullB m.mu m.S) ss) :
    FitsGauss (fullForm w.est.nComponents nf) (gaussFullSub eig) R impl w ss ls
      (fun m => m.objective (fun _ => 1) (fun _ _ => 1) g cp ss)
      (fun _ m' => 'c' ∈ w.est.params → ∀ i, (m'.S i).PosDef) := by
  refine gauss_fit (gaussFull_isGauss eig) (fun _ => rfl) h.draws h.centres h.columns h.data h.settings h.features h.given
    h.params h.enough (fun T hT => ⟨_, ⟨fun _ => 0, fun _ _ => 0, fun _ _ => 0, fun _ => T⟩, accept_full he hT, rfl, fun _ => hT.posSemidef,
      fun _ => rfl⟩) (fun π A mu m => ⟨⟨π, A, mu, m.S⟩, rfl, rfl, rfl, fun _ h => h, fun h => h, fun _ h => h⟩)
    fun rs m c hc hm => ?_
  exact full_loop (e := { w.est with nFeatures := some nf, sub := { w.est.sub with means := some (mat m.mu), covars := some c }, randomState := rs, startprob := some (vec m.π), transmat := some (mat m.A) })
    h.columns ⟨h.settings.1, h.settings.2, h.settings.3, h.settings.4, h.settings.5⟩ ⟨hpr.1, hpr.2, hpr.3⟩ hmw hcp hpsd h.meansToo
    ⟨⟨rfl, rfl, rfl, rfl⟩, rfl, c, rfl, hc⟩ hm.proper hm.model hm.chain.π_sum h.data h.lengths
    (dataLikelihood_pos_of_chain hm.chain.π_nonneg hm.chain.A_nonneg hm.chain.π_sum hm.chain.A_sum (fullB_pos _ hm.proper) ss)
    (hu.imp id fun hu => hu m hm)

/-- **C73** `GaussianHMM(covariance_type="tied")`. -/
theorem C73_gaussian_tied {eig : Eigvalsh XF} (he : EigvalshSpec eig) {impl : Impl} {w : World XF G (GaussAttrs XF)}
    {ss : List (ObsSeq (Fin nf → ℝ))} {ls : Option (List Int)} (h : GaussCall (tiedForm w.est.nComponents nf) R impl w ss ls)
    {g : GaussPrior w.est.nComponents nf} (hpr : PriorIs w.est g) (hmw : 0 ≤ g.mw)
    {cp : Matrix (Fin nf) (Fin nf) ℝ}
    (hcp : ∀ k l : Fin nf, w.est.sub.covarsPrior 0 k l = fin (cp k l)) (hpsd : cp.PosSemidef)
    (hu : 0 < g.mw ∨ ∀ m, StartsGauss (tiedForm w.est.nComponents nf) R w.est (samples ss) m → EveryStateUsed m.π m.A (fullB m.mu fun _ => m.S) ss) :
    FitsGauss (tiedForm w.est.nComponents nf) (gaussTiedSub eig) R impl w ss ls
      (fun m => m.objective (fun _ => 1) (fun _ _ => 1) g cp ss)
      (fun _ m' => 'c' ∈ w.est.params → m'.S.PosDef) := by
  refine gauss_fit (gaussTied_isGauss eig) (fun _ => rfl) h.draws h.centres h.columns h.data h.settings h.features h.given
    h.params h.enough (fun T hT => ⟨_, ⟨fun _ => 0, fun _ _ => 0, fun _ _ => 0, T⟩, accept_tied he hT, rfl, hT.posSemidef, rfl⟩) (fun π A mu m => ⟨⟨π, A, mu, m.S⟩, rfl, rfl, rfl, fun _ h => h, fun h => h, fun _ h => h⟩)
    fun rs m c hc hm => ?_
  exact tied_loop (e := { w.est with nFeatures := some nf, sub := { w.est.sub with means := some (mat m.mu), covars := some c }, randomState := rs, startprob := some (vec m.π), transmat := some (mat m.A) })
    h.columns ⟨h.settings.1, h.settings.2, h.settings.3, h.settings.4, h.settings.5⟩ ⟨hpr.1, hpr.2, hpr.3⟩ hmw hcp hpsd h.meansToo
    ⟨⟨rfl, rfl, rfl, rfl⟩, rfl, c, rfl, hc⟩ hm.proper hm.model hm.chain.π_sum h.data h.lengths
    (dataLikelihood_pos_of_chain hm.chain.π_nonneg hm.chain.A_nonneg hm.chain.π_sum hm.chain.A_sum (fullB_pos _ fun _ => hm.proper) ss)
    (hu.imp id fun hu => hu m hm)

/-! ## Everything from the data -/

theorem samples_length_of_long {D : Type} {ss : List (ObsSeq D)} (h : ∃ s ∈ ss, s.n ≠ 0) : 2 ≤ (samples ss).length := by
  obtain ⟨s, hs, hn⟩ := h
  unfold samples
  rw [List.length_flatten, List.map_map]
  have := List.single_le_sum (l := ss.map (List.length ∘ fun s => List.ofFn s.x)) (by simp) _ (List.mem_map_of_mem hs)
  simp only [Function.comp, List.length_ofFn] at this ⊢
  omega

theorem fresh_call {w : World XF G (GaussAttrs XF)} {K : GaussForm w.est.nComponents nf M} {ss : List (ObsSeq (Fin nf → ℝ))}
    {ls : Option (List Int)} (hR : PositiveDraws R) (hC : RealCentres R) (hf : nf ≠ 0) (h : GaussFresh w ss ls) :
    GaussCall K R .log w ss ls where
  draws := hR
  centres := hC
  columns := hf
  settings := h.settings
  params := by rw [h.params]; exact fun _ h => h
  meansToo := by simp [h.params]
  given := ⟨⟨fun k => absurd (.inl (h.init _ (by simp))) k, fun k => absurd (.inl (h.init _ (by simp))) k⟩,
    fun k => absurd (.inl (h.init _ (by simp))) k, fun k => absurd (.inl (h.init _ (by simp))) k⟩
  features := h.features
  data := by rintro rfl; simpa using h.long
  enough := ⟨fun _ => h.enough, fun _ => ⟨samples_length_of_long h.long, h.minCovar⟩⟩
  lengths := h.lengths

theorem fresh_used {w : World XF G (GaussAttrs XF)} {K : GaussForm w.est.nComponents nf M} {ss : List (ObsSeq (Fin nf → ℝ))}
    {ls : Option (List Int)} (h : GaussFresh w ss ls) {m : M} (hm : StartsGauss K R w.est (samples ss) m)
    (hb : ∀ o i, 0 < K.b m o i) : EveryStateUsed (K.π m) (K.A m) (K.b m) ss ∧ UsedBeforeLast (K.π m) (K.A m) (K.b m) ss := by
  haveI : NeZero w.est.nComponents := ⟨h.settings.nComponents⟩
  have h1 := hm.chain.startprob.draws (.inl (h.init _ (by simp)))
  have h2 := hm.chain.transmat.draws (.inl (h.init _ (by simp)))
  exact ⟨(everyStateUsed_of_pos (by rintro rfl; simpa using h.long) h1 h2 hb).1, usedBeforeLast_pos h1 h2 hb h.long⟩

theorem fresh_trained {S : Sub XF G (GaussAttrs XF)} {w : World XF G (GaussAttrs XF)} {K : GaussForm w.est.nComponents nf M}
    {ss : List (ObsSeq (Fin nf → ℝ))} {ls : Option (List Int)} (h : GaussFresh w ss ls) {obj : M → ℝ} {mono : M → M → Prop}
    (hb : ∀ m, K.proper m → ∀ o i, 0 < K.b m o i) (hfit : FitsGauss K S R .log w ss ls obj mono) :
    GaussTrained K S R w ss ls := by
  obtain ⟨m₀, h1, h2⟩ := hfit
  have hret := h2.returns.resolve_right (by simp)
  obtain ⟨n, m, -, -, -, h3, -, -, -, h4⟩ := h2.run
  exact ⟨hret, m n, h3, h4 hret ⟨by simp [h.params], (fresh_used h h1 (hb _ h1.proper)).2⟩⟩

/-- **C73** `diag`, everything initialised from the data. -/
theorem C73_gaussian_diag_fresh {eig : Eigvalsh XF} (hR : PositiveDraws R) (hC : RealCentres R) (hf : nf ≠ 0)
    {w : World XF G (GaussAttrs XF)} {ss : List (ObsSeq (Fin nf → ℝ))} {ls : Option (List Int)} (h : GaussFresh w ss ls)
    {g : GaussPrior w.est.nComponents nf} (hpr : PriorIs w.est g) {cp : Fin w.est.nComponents → Fin nf → ℝ}
    (hcp : ∀ (i : Fin w.est.nComponents) (k : Fin nf), w.est.sub.covarsPrior i k 0 = fin (cp i k)) (hg : g.Proper cp) :
    GaussTrained (diagForm w.est.nComponents nf) (gaussDiagSub eig) R w ss ls :=
  fresh_trained h (fun _ _ => diagB_pos _ _) (C73_gaussian_diag (fresh_call hR hC hf h) hpr hcp hg
    (.inr fun _ hm => (fresh_used h hm (diagB_pos _ _)).1))

/-- **C73** `spherical`, everything initialised from the data. -/
theorem C73_gaussian_spherical_fresh {eig : Eigvalsh XF} (hR : PositiveDraws R) (hC : RealCentres R) (hf : nf ≠ 0)
    {w : World XF G (GaussAttrs XF)} {ss : List (ObsSeq (Fin nf → ℝ))} {ls : Option (List Int)} (h : GaussFresh w ss ls)
    {g : GaussPrior w.est.nComponents nf} (hpr : PriorIs w.est g) {cp : Fin w.est.nComponents → Fin nf → ℝ}
    (hcp : ∀ (i : Fin w.est.nComponents) (k : Fin nf), w.est.sub.covarsPrior i k 0 = fin (cp i k)) (hg : g.Proper cp) :
    GaussTrained (sphericalForm w.est.nComponents nf) (gaussSphericalSub eig) R w ss ls :=
  fresh_trained h (fun _ _ => diagB_pos _ _) (C73_gaussian_spherical (fresh_call hR hC hf h) hpr hcp hg
    (.inr fun _ hm => (fresh_used h hm (diagB_pos _ _)).1))

/-- **C73** `full`, everything initialised from the data. -/
theorem C73_gaussian_full_fresh {eig : Eigvalsh XF} (he : EigvalshSpec eig) (hR : PositiveDraws R) (hC : RealCentres R)
    (hf : nf ≠ 0) {w : World XF G (GaussAttrs XF)} {ss : List (ObsSeq (Fin nf → ℝ))} {ls : Option (List Int)}
    (h : GaussFresh w ss ls) {g : GaussPrior w.est.nComponents nf} (hpr : PriorIs w.est g) (hmw : 0 ≤ g.mw)
    {cp : Fin w.est.nComponents → Matrix (Fin nf) (Fin nf) ℝ}
    (hcp : ∀ (i : Fin w.est.nComponents) (k l : Fin nf), w.est.sub.covarsPrior i k l = fin (cp i k l))
    (hpsd : ∀ i, (cp i).PosSemidef) :
    GaussTrained (fullForm w.est.nComponents nf) (gaussFullSub eig) R w ss ls :=
  fresh_trained h (fun _ hp => fullB_pos _ hp) (C73_gaussian_full he (fresh_call hR hC hf h) hpr hmw hcp hpsd
    (.inr fun _ hm => (fresh_used h hm (fullB_pos _ hm.proper)).1))

/-- **C73** `tied`, everything initialised from the data. -/
theorem C73_gaussian_tied_fresh {eig : Eigvalsh XF} (he : EigvalshSpec eig) (hR : PositiveDraws R) (hC : RealCentres R)
    (hf : nf ≠ 0) {w : World XF G (GaussAttrs XF)} {ss : List (ObsSeq (Fin nf → ℝ))} {ls : Option (List Int)}
    (h : GaussFresh w ss ls) {g : GaussPrior w.est.nComponents nf} (hpr : PriorIs w.est g) (hmw : 0 ≤ g.mw)
    {cp : Matrix (Fin nf) (Fin nf) ℝ} (hcp : ∀ k l : Fin nf, w.est.sub.covarsPrior 0 k l = fin (cp k l))
    (hpsd : cp.PosSemidef) :
    GaussTrained (tiedForm w.est.nComponents nf) (gaussTiedSub eig) R w ss ls :=
  fresh_trained h (fun _ hp => fullB_pos _ fun _ => hp) (C73_gaussian_tied he (fresh_call hR hC hf h) hpr hmw hcp hpsd
    (.inr fun _ hm => (fresh_used h hm (fullB_pos _ fun _ => hm.proper)).1))

end Verif
