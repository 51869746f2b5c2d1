import Verif.Model.VGaussian
import Verif.Proofs.VGaussian
import Verif.Proofs.Variational
import Verif.Proofs.CategoricalFamily

/-!
# Variational training for `VariationalGaussianHMM`
-/

set_option autoImplicit false

namespace Verif.VGaussian
open FloatLike XF Hmmc Spec Gaussian
open scoped Matrix Classical

variable {nc nf : ℕ} {Dof Sc St : Type}

/-- Prior attributes. -/
noncomputable def priorOf (toDof : (Fin nc → ℝ) → Dof) (toSc : (Fin nc → Matrix (Fin nf) (Fin nf) ℝ) → Sc)
    (p₀ : Fin nc → NW nf) : Prior XF nc nf Dof Sc :=
  ⟨fun i => fin (p₀ i).β, fun i k => fin ((p₀ i).m k), toDof fun i => (p₀ i).ν, toSc fun i => (p₀ i).S⟩

/-- How the attributes of a covariance type hold one normal–Wishart law per state. -/
structure Holds [NeZero nc] (K : Kind XF nc nf Dof Sc St) (ty : CovType) where
  toDof : (Fin nc → ℝ) → Dof
  toSc : (Fin nc → Matrix (Fin nf) (Fin nf) ℝ) → Sc
  stat : List Char → (Fin nc → ((Fin nf → ℝ) → ℝ) → ℝ) → St
  zero_eq : ∀ ps, K.zero = stat ps fun _ _ => 0
  acc_eq : ∀ ps T π A b (s : ObsSeq (Fin nf → ℝ)),
    K.acc ps (stat ps T) (s.rows row) (postRows π A (s.weights b)) =
      stat ps fun i f => T i f + ∑ t, posterior π A (s.weights b) t i * f (s.x t)
  post_eq : ∀ ps T i, 'm' ∈ ps → K.post (stat ps T) i = fin (T i fun _ => 1)
  obs_eq : ∀ ps T i k, 'm' ∈ ps → K.obs (stat ps T) i k = fin (T i fun x => x k)
  dofAt_eq : ∀ p : Fin nc → NW nf, Allowed ty p → ∀ i, K.dofAt (toDof fun i => (p i).ν) i = fin (p i).ν
  fill_eq : ∀ p : Fin nc → NW nf, Allowed ty p → ∀ i, K.fill (toSc fun i => (p i).S) i = fun k l => fin ((p i).S k l)
  winv_eq : ∀ (sci : Sci XF), sci.Exact → ∀ p : Fin nc → NW nf, Allowed ty p → (∀ i, (p i).Proper) →
    K.winv sci (toSc fun i => (p i).S) = .ok fun i k l => fin ((p i).S⁻¹ k l)
  klw_eq : ∀ (sci : Sci XF), sci.Exact → ∀ p p₀ : Fin nc → NW nf, Allowed ty p → (∀ i, (p i).Proper) → Allowed ty p₀ →
    (∀ i, (p₀ i).Proper) → ∃ kw : Fin nc → ℝ,
      (∀ i, K.klw sci (priorOf toDof toSc p₀) (toDof fun i => (p i).ν) (toSc fun i => (p i).S) i =
        .ok (fin (kw i))) ∧ ∑ i, kw i = klPrecisions ty p p₀
  update_eq : ∀ ps, 'm' ∈ ps → 'c' ∈ ps → ∀ T, PosLin T → ∀ p₀ p : Fin nc → NW nf, Allowed ty p₀ → (∀ i, (p₀ i).Proper) →
    K.update (priorOf toDof toSc p₀) (fun i => fin (βNext p₀ T i)) (fun i k => fin (mNext p₀ T i k)) (stat ps T) =
      (toDof fun i => (nwUpdate ty ps p₀ p T i).ν, toSc fun i => (nwUpdate ty ps p₀ p T i).S,
        toSc fun i => (nwUpdate ty ps p₀ p T i).ν⁻¹ • (nwUpdate ty ps p₀ p T i).S)

  density_eq : ∀ p : Fin nc → NW nf, Allowed ty p → (∀ i, (p i).Proper) → ((ty = .diag ∨ ty = .spherical) →
    ∀ i k, tinyVar ≤ (p i).covar k k) → ∀ X : List (Fin nf → ℝ),
    K.density (fun i k => fin ((p i).m k)) (toSc fun i => (p i).covar) (X.map row) =
      .ok (X.map fun x i => FloatLike.log (fin (mvnPdf (p i).m (p i).covar x)))

/-- Real-valued attributes. -/
structure R (ty : CovType) (nc nf : ℕ) [NeZero nc] where
  p : Fin nc → NW nf
  cov : Option (Fin nc → Matrix (Fin nf) (Fin nf) ℝ)
  proper : ∀ i, (p i).Proper
  allowed : Allowed ty p


/-! ## The program computes the closed forms -/

theorem inv_fin {sci : Sci XF} (hsci : sci.Exact) {M : Matrix (Fin nf) (Fin nf) ℝ} (hM : M.PosDef) :
    sci.inv (fun k l => fin (M k l)) = .ok fun k l => fin (M⁻¹ k l) := hsci.inv M (det_pos hM).ne'

/-- `klMvn` at the precisions the program uses. -/
theorem klMvn_precision [NeZero nf] {p p₀ : NW nf} (hp : p.Proper) (h₀ : p₀.Proper) :
    klMvn p.m ((p.β * p.ν) • p.S⁻¹)⁻¹ p₀.m ((p₀.β * p.ν) • p.S⁻¹)⁻¹ = p.klMean p₀ := by
  have hn : (1 : ℝ) ≤ nf := by exact_mod_cast NeZero.one_le
  have hν : 0 < p.ν := by linarith [hp.ν]
  have hc : 0 < p.β * p.ν := mul_pos hp.β hν
  have hc₀ : 0 < p₀.β * p.ν := mul_pos h₀.β hν
  have hd := det_pos hp.S
  have hu : IsUnit p.S.det := isUnit_iff_ne_zero.2 hd.ne'
  have inv : ∀ c : ℝ, 0 < c → (c • p.S⁻¹)⁻¹ = c⁻¹ • p.S := fun c h =>
    Matrix.inv_eq_left_inv (by
      rw [Matrix.smul_mul, Matrix.mul_smul, smul_smul, inv_mul_cancel₀ h.ne', one_smul, Matrix.mul_nonsing_inv _ hu])
  have inv2 : ∀ c : ℝ, 0 < c → (c⁻¹ • p.S)⁻¹ = c • p.S⁻¹ := fun c h =>
    Matrix.inv_eq_left_inv (by
      rw [Matrix.smul_mul, Matrix.mul_smul, smul_smul, mul_inv_cancel₀ h.ne', one_smul, Matrix.nonsing_inv_mul _ hu])
  rw [klMvn, inv _ hc, inv _ hc₀, inv2 _ hc₀, Matrix.det_smul, Matrix.det_smul, Fintype.card_fin,
    Matrix.smul_mul, Matrix.mul_smul, Matrix.nonsing_inv_mul _ hu, Matrix.trace_smul, Matrix.trace_smul,
    Matrix.trace_one, Fintype.card_fin, Matrix.smul_mulVec, dotProduct_smul, NW.klMean]
  have e1 : (p₀.β * p.ν)⁻¹ ^ nf * p.S.det / ((p.β * p.ν)⁻¹ ^ nf * p.S.det) = (p.β / p₀.β) ^ nf := by
    rw [mul_div_mul_right _ _ hd.ne', ← div_pow]
    congr 1
    have := h₀.β.ne'; have := hp.β.ne'
    field_simp
  rw [e1, Real.log_pow]
  have e2 : (p₀.β * p.ν) • (p.β * p.ν)⁻¹ • (nf : ℝ) = nf * (p₀.β / p.β) := by
    have := hp.β.ne'
    simp only [smul_eq_mul]
    field_simp
  rw [e2, smul_eq_mul]
  ring

variable [NeZero nc] {K : Kind XF nc nf Dof Sc St} {ty : CovType} (H : Holds K ty)

/-- Real attributes as estimator attributes. -/
noncomputable def Holds.params (q : R ty nc nf) : Params XF nc nf Dof Sc where
  beta i := fin (q.p i).β
  means i k := fin ((q.p i).m k)
  dof := H.toDof fun i => (q.p i).ν
  scale := H.toSc fun i => (q.p i).S
  covars := q.cov.map H.toSc

variable {sci : Sci XF} (hsci : sci.Exact)
include hsci

theorem loglik_fin (q : R ty nc nf) (X : List (Fin nf → ℝ)) :
    loglik K sci (H.params q) (X.map row) = .ok (X.map fun x i => FloatLike.log (fin (nwB q.p x i))) := by
  unfold loglik
  simp only [Holds.params, H.winv_eq sci hsci q.p q.allowed q.proper, bind, Except.bind, pure, Except.pure, memo_eq,
    List.map_map, Except.ok.injEq]
  refine List.map_congr_left fun x _ => ?_
  funext i
  have hS := (q.proper i).S
  have hd : 0 < ((q.p i).S⁻¹).det := det_pos hS.inv
  have hk : ∀ k : Fin nf, 0 < (1 / 2 : ℝ) * ((q.p i).ν - k) := fun k => by
    have hi : (k : ℝ) + 1 ≤ nf := by exact_mod_cast k.2
    have := (q.proper i).ν
    linarith
  have half : (ofRat (1 / 2) : XF) = fin (1 / 2) := by rw [ofRat_def]; congr 1; norm_num
  have e : (FloatLike.log (fin (nwB q.p x i)) : XF) = fin (Real.log (nwB q.p x i)) := lg_pos (weight_pos _ _)
  rw [e, nwB, NW.weight, Real.log_exp]
  simp only [Function.comp_apply, row, H.dofAt_eq q.p q.allowed, ofNat'_def, half, fin_sub, fin_mul,
    fun k => hsci.digamma _ (hk k), sumF_fin, Kl.logdet_fin hsci hd, lg_def,
    lg_pos (show (0:ℝ) < ((2:ℕ):ℝ) by norm_num), fin_add, zero_def]
  rw [fin_div _ _ (by norm_num), fin_div _ _ (q.proper i).β.ne']
  simp only [fin_sub, fin_add, fin_mul]
  congr 1
  have hdet : Real.log ((q.p i).S⁻¹).det = -Real.log (q.p i).S.det := by
    rw [Matrix.det_nonsing_inv, Ring.inverse_eq_inv', Real.log_inv]
  have hquad : ∑ j, ∑ k, (x j - (q.p i).m j) * (q.p i).S⁻¹ j k * (x k - (q.p i).m k) * (q.p i).ν =
      (q.p i).ν * ((x - (q.p i).m) ⬝ᵥ ((q.p i).S⁻¹ *ᵥ (x - (q.p i).m))) := by
    simp only [dotProduct, Matrix.mulVec, Pi.sub_apply, Finset.mul_sum]
    exact Finset.sum_congr rfl fun j _ => Finset.sum_congr rfl fun k _ => by ring
  have hdg : ∀ k : Fin nf, (1 / 2 : ℝ) * ((q.p i).ν - k) = ((q.p i).ν - k) / 2 := fun k => by ring
  rw [hdet, hquad]
  simp only [hdg]
  push_cast
  ring

theorem bound_fin [NeZero nf] {p₀ : Fin nc → NW nf} (h₀ : ∀ i, (p₀ i).Proper) (hA₀ : Allowed ty p₀)
    (q : R ty nc nf) :
    bound K sci (priorOf H.toDof H.toSc p₀) (H.params q) = .ok (fin (-(klGauss ty q.p p₀))) := by
  have hn : (1 : ℝ) ≤ nf := by exact_mod_cast NeZero.one_le
  obtain ⟨kw, hkw, hsum⟩ := H.klw_eq sci hsci q.p p₀ q.allowed q.proper hA₀ h₀
  have hW : (allOk fun c => sci.inv (K.fill (H.params q).scale c)) =
      .ok fun i k l => fin ((q.p i).S⁻¹ k l) := by
    refine allOk_ok _ _ fun i => ?_
    simp only [Holds.params, H.fill_eq q.p q.allowed]
    exact inv_fin hsci (q.proper i).S
  have hstep : ∀ (acc : ℝ) (i : Fin nc), (do
      let precision : Sq XF nf := memo! (fun k => memo! (fun l =>
        (fun i k l => fin ((q.p i).S⁻¹ k l)) i k l * K.dofAt (H.params q).dof i))
      let term1 ← sci.inv fun k l => (H.params q).beta i * precision k l
      let term2 ← sci.inv fun k l => (priorOf H.toDof H.toSc p₀).beta i * precision k l
      let kln ← Kl.mvn sci ((H.params q).means i) term1 ((priorOf H.toDof H.toSc p₀).means i) term2
      let klw ← K.klw sci (priorOf H.toDof H.toSc p₀) (H.params q).dof (H.params q).scale i
      return fin acc - kln - klw : Except PyErr XF) = .ok (fin (acc - ((q.p i).klMean (p₀ i) + kw i))) := by
    intro acc i
    have hν : 0 < (q.p i).ν := by linarith [(q.proper i).ν]
    have hSi := (q.proper i).S.inv
    have m1 : (((q.p i).β * (q.p i).ν) • (q.p i).S⁻¹).PosDef := hSi.smul (mul_pos (q.proper i).β hν)
    have m2 : (((p₀ i).β * (q.p i).ν) • (q.p i).S⁻¹).PosDef := hSi.smul (mul_pos (h₀ i).β hν)
    have e : ∀ (b : ℝ), (fun k l => fin b * (fin ((q.p i).S⁻¹ k l) * fin (q.p i).ν) : Sq XF nf) =
        fun k l => fin (((b * (q.p i).ν) • (q.p i).S⁻¹) k l) := by
      intro b; funext k l
      simp only [fin_mul, Matrix.smul_apply, smul_eq_mul]
      congr 1; ring
    simp only [Holds.params, priorOf, H.dofAt_eq q.p q.allowed, memo_eq, e, inv_fin hsci m1, inv_fin hsci m2]
    simp only [bind, Except.bind]
    rw [Kl.mvn_fin hsci _ _ m1.inv m2.inv, klMvn_precision (q.proper i) (h₀ i)]
    have := hkw i
    simp only [priorOf] at this
    simp only [this, pure, Except.pure, fin_sub]
    congr 2; ring
  unfold bound
  rw [hW]
  simp only [bind, Except.bind]
  have hfold : ∀ (l : List (Fin nc)) (acc : ℝ), l.foldlM (fun (acc : XF) i => (do
      let precision : Sq XF nf := memo! (fun k => memo! (fun l =>
        (fun i k l => fin ((q.p i).S⁻¹ k l)) i k l * K.dofAt (H.params q).dof i))
      let term1 ← sci.inv fun k l => (H.params q).beta i * precision k l
      let term2 ← sci.inv fun k l => (priorOf H.toDof H.toSc p₀).beta i * precision k l
      let kln ← Kl.mvn sci ((H.params q).means i) term1 ((priorOf H.toDof H.toSc p₀).means i) term2
      let klw ← K.klw sci (priorOf H.toDof H.toSc p₀) (H.params q).dof (H.params q).scale i
      return acc - kln - klw : Except PyErr XF)) (fin acc) =
      .ok (fin (acc - (l.map fun i => (q.p i).klMean (p₀ i) + kw i).sum)) := by
    intro l
    induction l with
    | nil => intro acc; simp [pure, Except.pure]
    | cons i l ih =>
      intro acc
      rw [List.foldlM_cons, hstep acc i]
      simp only [bind, Except.bind] at ih ⊢
      rw [ih]
      simp [sub_sub]
  have := hfold (List.finRange nc) 0
  simp only [bind, Except.bind] at this
  rw [zero_def]
  refine this.trans ?_
  rw [← List.ofFn_eq_map, List.sum_ofFn, zero_sub, Finset.sum_add_distrib, hsum]
  rfl

omit hsci in
theorem mstep_fin {ps : List Char} (hcm : 'c' ∈ ps → 'm' ∈ ps) {T : Fin nc → ((Fin nf → ℝ) → ℝ) → ℝ}
    (hT : PosLin T) {p₀ : Fin nc → NW nf} (h₀ : ∀ i, (p₀ i).Proper) (hA₀ : Allowed ty p₀) (q : R ty nc nf) :
    mstep K (priorOf H.toDof H.toSc p₀) ps (H.params q) (H.stat ps T) =
      H.params ⟨nwUpdate ty ps p₀ q.p T, if 'c' ∈ ps then some fun i => (nwUpdate ty ps p₀ q.p T i).ν⁻¹ •
          (nwUpdate ty ps p₀ q.p T i).S else q.cov,
        nwUpdate_proper ty ps hT h₀ q.proper, nwUpdate_allowed ty ps hA₀ q.allowed⟩ := by
  by_cases hm : 'm' ∈ ps
  · have eβ : (fun c => (priorOf H.toDof H.toSc p₀).beta c + K.post (H.stat ps T) c) =
        fun i => fin (βNext p₀ T i) := by
      funext i
      simp only [priorOf, H.post_eq ps T i hm, fin_add]; rfl
    have em : (fun c k => ((priorOf H.toDof H.toSc p₀).beta c * (priorOf H.toDof H.toSc p₀).means c k +
        K.obs (H.stat ps T) c k) / fin (βNext p₀ T c)) = fun i k => fin (mNext p₀ T i k) := by
      funext i k
      simp only [priorOf, H.obs_eq ps T i k hm, fin_mul, fin_add]
      rw [fin_div _ _ (βNext_pos hT h₀ i).ne']; rfl
    unfold mstep
    simp only [hm, if_true, memo_eq, eβ]
    rw [em]
    by_cases hc : 'c' ∈ ps
    · simp only [hc, if_true, H.update_eq ps hm hc T hT p₀ q.p hA₀ h₀]
      simp only [Holds.params, nwUpdate_eq, hm, if_true, Option.map_some]
    · simp only [hc, if_false]
      simp only [Holds.params, nwUpdate_eq, hm, hc, if_true, if_false]
  · have hc : 'c' ∉ ps := fun h => hm (hcm h)
    unfold mstep
    simp only [hm, hc, if_false]
    simp only [Holds.params, nwUpdate_eq, hm, hc, if_false]

/-- The E-step, for any `params`. -/
noncomputable def coreFamily (pr : Prior XF nc nf Dof Sc) (ps : List Char) :
    Family (emission K sci pr).core (row (nf := nf)) ps (R ty nc nf) where
  embed := H.params
  b q := nwB q.p
  b_nonneg q x i := (weight_pos _ _).le
  lik_eq q X := by
    show Except.map _ (loglik K sci (H.params q) (X.map row)) = _
    rw [loglik_fin H hsci]
    simp only [Except.map]
    rw [expRows_log (nwB q.p) fun x i => (weight_pos _ _).le]
  loglik_eq q X := loglik_fin H hsci q X
  stat _ T := H.stat ps T
  emFold_eq q π A ss := by
    refine emFold_of_acc (H.stat ps) ?_ ?_ ss
    · exact H.zero_eq ps
    · intro T s
      exact congrArg _ (H.acc_eq ps T π A (nwB q.p) s)
  next q _ := q
  Good _ _ := True
  mstep_eq _ _ _ _ := rfl

/-- The emission attributes after an update. -/
noncomputable def nextR [NeZero nf] {p₀ : Fin nc → NW nf} (h₀ : ∀ i, (p₀ i).Proper) (hA₀ : Allowed ty p₀)
    (ps : List Char) (q : R ty nc nf) (T : Fin nc → ((Fin nf → ℝ) → ℝ) → ℝ) : R ty nc nf :=
  if hT : PosLin T then ⟨nwUpdate ty ps p₀ q.p T, if 'c' ∈ ps then some fun i =>
      (nwUpdate ty ps p₀ q.p T i).ν⁻¹ • (nwUpdate ty ps p₀ q.p T i).S else q.cov,
    nwUpdate_proper ty ps hT h₀ q.proper, nwUpdate_allowed ty ps hA₀ q.allowed⟩ else q

/-- The variational Gaussian family. -/
noncomputable def family [NeZero nf] {p₀ : Fin nc → NW nf} (h₀ : ∀ i, (p₀ i).Proper) (hA₀ : Allowed ty p₀)
    (ps : List Char) (hcm : 'c' ∈ ps → 'm' ∈ ps) :
    VFamily (emission K sci (priorOf H.toDof H.toSc p₀)) (row (nf := nf)) ps (R ty nc nf) where
  F := coreFamily H hsci _ ps
  emb := H.params
  begin_eq _ := rfl
  b_pos q x i := weight_pos _ _
  kl q := klGauss ty q.p p₀
  bound_eq q := bound_fin H hsci h₀ hA₀ q
  next := nextR h₀ hA₀ ps
  mstep_eq q T hT := by
    rw [nextR, dif_pos hT]
    exact mstep_fin H hcm hT h₀ hA₀ q
  gain q π A ss hπ hA := by
    have hT : PosLin (obsStat π A (nwB q.p) ss) := obsStat_posLin hπ hA (fun x i => (weight_pos _ _).le) ss
    show klGauss ty (nextR h₀ hA₀ ps q (obsStat π A (nwB q.p) ss)).p p₀ - klGauss ty q.p p₀ ≤
      emissionGain π A (nwB q.p) (nwB (nextR h₀ hA₀ ps q (obsStat π A (nwB q.p) ss)).p) ss
    rw [nextR, dif_pos hT, emissionGain_eq]
    have h := gauss_gain hcm hT h₀ q.proper hA₀ q.allowed
    have e : ∀ i, obsStat π A (nwB q.p) ss i (fun x => Real.log
        (nwB (nwUpdate ty ps p₀ q.p (obsStat π A (nwB q.p) ss)) x i / nwB q.p x i)) =
        obsStat π A (nwB q.p) ss i (fun x => Real.log
          ((nwUpdate ty ps p₀ q.p (obsStat π A (nwB q.p) ss) i).weight x)) -
        obsStat π A (nwB q.p) ss i (fun x => Real.log ((q.p i).weight x)) := by
      intro i
      rw [← hT.sub]
      congr 1; funext x
      exact Real.log_div (weight_pos _ _).ne' (weight_pos _ _).ne'
    refine le_of_le_of_eq ?_ (Finset.sum_congr rfl fun i _ => (e i).symm)
    simp only [gaussObj, stateObj, Finset.sum_sub_distrib] at h
    simp only [klGauss, Finset.sum_sub_distrib]
    linarith

end Verif.VGaussian
