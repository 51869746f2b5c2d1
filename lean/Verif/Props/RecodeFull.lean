import Verif.Props.Recode

/-!
# C96: rigid motions of the data, covariance types `full` and `tied`
-/

set_option autoImplicit false

namespace Verif
open FloatLike XF Hmmc Spec
open scoped Classical Matrix

variable {nc nf : ℕ}

/-- A rotation or reflection followed by a translation. -/
structure Spec.Motion (nf : ℕ) where
  O : Matrix (Fin nf) (Fin nf) ℝ
  c : Fin nf → ℝ
  orth : O * Oᵀ = 1

namespace Spec.Motion
variable (m : Motion nf)

/-- Where a sample goes. -/
def move (x : Fin nf → ℝ) : Fin nf → ℝ := m.O *ᵥ x + m.c

/-- The covariance matrix of the moved data. -/
def cov (S : Matrix (Fin nf) (Fin nf) ℝ) : Matrix (Fin nf) (Fin nf) ℝ := m.O * S * m.Oᵀ

/-- The moved prior. -/
def prior (g : GaussPrior nc nf) : GaussPrior nc nf := ⟨fun i => m.move (g.mp i), g.mw, g.cw⟩

/-- The moved model. -/
def full (p : FullPoint nc nf) : FullPoint nc nf := ⟨p.π, p.A, fun i => m.move (p.mu i), fun i => m.cov (p.S i)⟩

def tied (p : TiedPoint nc nf) : TiedPoint nc nf := ⟨p.π, p.A, fun i => m.move (p.mu i), m.cov p.S⟩

/-- A moved mean, as an attribute. -/
noncomputable def moveX (x : Fin nf → XF) : Fin nf → XF := fun k => sumF (fun l => fin (m.O k l) * x l) + fin (m.c k)

/-- A moved covariance matrix, as an attribute. -/
noncomputable def covX (S : Fin nf → Fin nf → XF) : Fin nf → Fin nf → XF := fun k l =>
  sumF fun b => (sumF fun a => fin (m.O k a) * S a b) * fin (m.O l b)

/-- The moved attributes. -/
noncomputable def fullParams (p : Gaussian.FullParams XF nc nf) : Gaussian.FullParams XF nc nf :=
  ⟨fun i => m.moveX (p.means i), fun i => m.covX (p.covars i)⟩

noncomputable def tiedParams (p : Gaussian.TiedParams XF nc nf) : Gaussian.TiedParams XF nc nf :=
  ⟨fun i => m.moveX (p.means i), m.covX p.covar⟩

theorem orth' : m.Oᵀ * m.O = 1 := mul_eq_one_comm.1 m.orth

theorem move_sub (x y : Fin nf → ℝ) : m.move x - m.move y = m.O *ᵥ (x - y) := by
  unfold move
  rw [Matrix.mulVec_sub]
  abel

theorem moveX_fin (x : Fin nf → ℝ) : (m.moveX fun k => fin (x k)) = fun k => fin (m.move x k) := by
  funext k
  unfold moveX
  simp only [fin_mul, sumF_fin, fin_add]
  rfl

theorem covX_fin (S : Matrix (Fin nf) (Fin nf) ℝ) : (m.covX fun k l => fin (S k l)) = fun k l => fin (m.cov S k l) := by
  funext k l
  unfold covX
  simp only [fin_mul, sumF_fin]
  rfl

theorem cov_psd {S : Matrix (Fin nf) (Fin nf) ℝ} (h : S.PosSemidef) : (m.cov S).PosSemidef := by
  have := h.mul_mul_conjTranspose_same m.O
  rwa [Matrix.conjTranspose_eq_transpose_of_trivial] at this

theorem cov_posDef_iff (S : Matrix (Fin nf) (Fin nf) ℝ) : (m.cov S).PosDef ↔ S.PosDef := by
  have hu : IsUnit m.O := IsUnit.of_mul_eq_one _ m.orth
  have := Matrix.IsUnit.posDef_star_right_conjugate_iff (x := S) hu
  rwa [Matrix.star_eq_conjTranspose, Matrix.conjTranspose_eq_transpose_of_trivial] at this

theorem cov_add (S T : Matrix (Fin nf) (Fin nf) ℝ) : m.cov (S + T) = m.cov S + m.cov T := by
  unfold cov; rw [mul_add, add_mul]

theorem cov_smul (a : ℝ) (S : Matrix (Fin nf) (Fin nf) ℝ) : m.cov (a • S) = a • m.cov S := by
  unfold cov; rw [Matrix.mul_smul, Matrix.smul_mul]

theorem cov_sum {ι : Type} (s : Finset ι) (f : ι → Matrix (Fin nf) (Fin nf) ℝ) :
    m.cov (∑ i ∈ s, f i) = ∑ i ∈ s, m.cov (f i) := by
  unfold cov; rw [Finset.mul_sum, Finset.sum_mul]

theorem cov_one : m.cov 1 = 1 := by
  unfold cov; rw [mul_one, m.orth]

theorem cov_outer (u : Fin nf → ℝ) : m.cov (Matrix.vecMulVec u u) = Matrix.vecMulVec (m.O *ᵥ u) (m.O *ᵥ u) := by
  unfold cov
  rw [Matrix.mul_vecMulVec, Matrix.vecMulVec_mul, Matrix.vecMul_transpose]

theorem effCov_cov (S : Matrix (Fin nf) (Fin nf) ℝ) : effCov (m.cov S) = m.cov (effCov S) := by
  unfold effCov
  by_cases h : S.PosDef
  · rw [if_pos h, if_pos ((m.cov_posDef_iff S).2 h)]
  · rw [if_neg h, if_neg fun h' => h ((m.cov_posDef_iff S).1 h'), m.cov_add, m.cov_smul, m.cov_one]

theorem cov_det (S : Matrix (Fin nf) (Fin nf) ℝ) : (m.cov S).det = S.det := by
  have := congrArg Matrix.det m.orth
  rw [Matrix.det_mul, Matrix.det_one] at this
  unfold cov
  rw [Matrix.det_mul, Matrix.det_mul, mul_right_comm, this, one_mul]

theorem cov_inv (S : Matrix (Fin nf) (Fin nf) ℝ) : (m.cov S)⁻¹ = m.cov S⁻¹ := by
  unfold cov
  rw [Matrix.mul_inv_rev, Matrix.mul_inv_rev, Matrix.inv_eq_left_inv m.orth, Matrix.inv_eq_left_inv m.orth',
    mul_assoc]

theorem dot_move (u v : Fin nf → ℝ) : (m.O *ᵥ u) ⬝ᵥ (m.O *ᵥ v) = u ⬝ᵥ v := by
  rw [Matrix.dotProduct_mulVec, ← Matrix.vecMul_transpose, Matrix.vecMul_vecMul, m.orth', Matrix.vecMul_one]

theorem mahalanobis_move (μ x : Fin nf → ℝ) (S : Matrix (Fin nf) (Fin nf) ℝ) :
    mahalanobis (m.move μ) (m.cov S) (m.move x) = mahalanobis μ S x := by
  unfold mahalanobis
  rw [m.move_sub, m.cov_inv]
  unfold cov
  rw [Matrix.mulVec_mulVec, mul_assoc, m.orth', mul_one, ← Matrix.mulVec_mulVec, m.dot_move]

theorem fullB_move (mu : Fin nc → Fin nf → ℝ) (S : Fin nc → Matrix (Fin nf) (Fin nf) ℝ) (x : Fin nf → ℝ) (i : Fin nc) :
    fullB (fun i => m.move (mu i)) (fun i => m.cov (S i)) (m.move x) i = fullB mu S x i := by
  unfold fullB mvnPdf
  rw [m.effCov_cov, m.mahalanobis_move, m.cov_det]

end Spec.Motion

namespace Gaussian
variable (m : Motion nf) {T : Fin nc → ((Fin nf → ℝ) → ℝ) → ℝ}

/-- Expected counts of the moved data. -/
abbrev rigidT (m : Motion nf) (T : Fin nc → ((Fin nf → ℝ) → ℝ) → ℝ) : Fin nc → ((Fin nf → ℝ) → ℝ) → ℝ :=
  fun i f => T i fun x => f (m.move x)

theorem rigidT_coord (hT : PosLin T) (i : Fin nc) (k : Fin nf) :
    (rigidT m T i fun x => x k) = (m.O *ᵥ fun l => T i fun x => x l) k + m.c k * T i fun _ => 1 := by
  show T i (fun x => (∑ l, m.O k l * x l) + m.c k) = (∑ l, m.O k l * T i fun x => x l) + _
  rw [hT.add, hT.const, hT.sum, mul_comm (m.c k)]
  congr 1
  exact Finset.sum_congr rfl fun l _ => hT.smul i _ _

theorem rigidT_scat (hT : PosLin T) (i : Fin nc) (ν : Fin nf → ℝ) :
    scat (rigidT m T) i (m.move ν) = m.cov (scat T i ν) := by
  ext k l
  have e : ∀ x k, m.move x k - m.move ν k = ∑ a, m.O k a * (x a - ν a) := fun x k => by
    have := congrFun (m.move_sub x ν) k
    exact this
  show T i (fun x => (m.move x k - m.move ν k) * (m.move x l - m.move ν l)) =
    ∑ b, (∑ a, m.O k a * T i fun x => (x a - ν a) * (x b - ν b)) * m.O l b
  have e2 : (fun x => (m.move x k - m.move ν k) * (m.move x l - m.move ν l)) =
      fun x => ∑ b, m.O l b * ∑ a, m.O k a * ((x a - ν a) * (x b - ν b)) := by
    funext x
    rw [e, e, mul_comm, Finset.sum_mul]
    refine Finset.sum_congr rfl fun b _ => ?_
    rw [mul_assoc, Finset.mul_sum]
    congr 1
    exact Finset.sum_congr rfl fun a _ => by ring
  rw [e2, hT.sum]
  refine Finset.sum_congr rfl fun b _ => ?_
  rw [hT.smul, hT.sum, mul_comm]
  congr 1
  exact Finset.sum_congr rfl fun a _ => hT.smul i _ _

theorem muNext_rigid (g : GaussPrior nc nf) (ps : List Char) (mu : Fin nc → Fin nf → ℝ)
    (hT : PosLin T) (hg : 'm' ∈ ps → ∀ i, g.mw + T i (fun _ => 1) ≠ 0) :
    muNext (m.prior g) ps (fun i => m.move (mu i)) (rigidT m T) = fun i => m.move (muNext g ps mu T i) := by
  funext i
  by_cases hm : 'm' ∈ ps
  · have h0 := hg hm i
    have e : muNext g ps mu T i = (g.mw + T i fun _ => 1)⁻¹ • (g.mw • g.mp i + fun l => T i fun x => x l) := by
      funext k
      simp only [muNext, hm, if_true, Pi.smul_apply, Pi.add_apply, smul_eq_mul]
      rw [div_eq_inv_mul]
    rw [e]
    funext k
    simp only [muNext, hm, if_true]
    rw [rigidT_coord m hT]
    unfold Motion.prior Motion.move
    simp only [Matrix.mulVec_smul, Matrix.mulVec_add, Pi.add_apply, Pi.smul_apply, smul_eq_mul]
    show (_ : ℝ) / (g.mw + T i fun _ => 1) = _
    field_simp
    ring
  · funext k
    simp only [muNext, hm, if_false]
    unfold Motion.move
    have : muNext g ps mu T i = mu i := by funext k; simp only [muNext, hm, if_false]
    rw [this]

theorem cn_rigid (g : GaussPrior nc nf) (ps : List Char) (hm : 'm' ∈ ps) (mu : Fin nc → Fin nf → ℝ)
    (hT : PosLin T) (i : Fin nc) :
    cn (m.prior g) ps (fun i => m.move (mu i)) (rigidT m T) i = m.cov (cn g ps mu T i) := by
  unfold cn
  rw [m.cov_add, m.cov_smul, m.cov_outer]
  simp only [centre, hm, if_true]
  rw [rigidT_scat m hT]
  show g.mw • Matrix.vecMulVec (m.move (mu i) - m.move (g.mp i)) (m.move (mu i) - m.move (g.mp i)) + _ = _
  rw [m.move_sub]

theorem fullNext_rigid (g : GaussPrior nc nf) (cp : Fin nc → Matrix (Fin nf) (Fin nf) ℝ) (ps : List Char) (hm : 'm' ∈ ps)
    (mu : Fin nc → Fin nf → ℝ) (hT : PosLin T) (i : Fin nc) :
    fullNext (m.prior g) (fun i => m.cov (cp i)) ps (fun i => m.move (mu i)) (rigidT m T) i =
      m.cov (fullNext g cp ps mu T i) := by
  unfold fullNext
  rw [cn_rigid m g ps hm mu hT, m.cov_smul, m.cov_add]
  rfl

theorem tiedNext_rigid (g : GaussPrior nc nf) (cp : Matrix (Fin nf) (Fin nf) ℝ) (ps : List Char) (hm : 'm' ∈ ps)
    (mu : Fin nc → Fin nf → ℝ) (hT : PosLin T) :
    tiedNext (m.prior g) (m.cov cp) ps (fun i => m.move (mu i)) (rigidT m T) = m.cov (tiedNext g cp ps mu T) := by
  unfold tiedNext
  simp only [cn_rigid m g ps hm mu hT, m.cov_smul, m.cov_add, m.cov_sum]
  rfl

variable [NeZero nc]

/-- The moved family parameters. -/
def RFull.move (q : RFull nc nf) : RFull nc nf :=
  ⟨fun i => m.move (q.mu i), fun i => m.cov (q.S i), fun i => m.cov_psd (q.psd i)⟩

def RTied.move (q : RTied nc nf) : RTied nc nf :=
  ⟨fun i => m.move (q.mu i), m.cov q.S, m.cov_psd q.psd⟩

theorem full_recode (g : GaussPrior nc nf) (hmw : 0 ≤ g.mw) (cp : Fin nc → Matrix (Fin nf) (Fin nf) ℝ)
    (hcp : ∀ i, (cp i).PosSemidef) (ps : List Char) (hcm : 'c' ∈ ps → 'm' ∈ ps) :
    (fullFamily g hmw cp hcp ps).Recode
      (fullFamily (m.prior g) hmw (fun i => m.cov (cp i)) (fun i => m.cov_psd (hcp i)) ps) m.move
      (RFull.move m) m.fullParams where
  embed_act q := by
    show (⟨_, _⟩ : FullParams XF nc nf) = ⟨_, _⟩
    simp only [m.moveX_fin, m.covX_fin, fullFamily]
    rfl
  b_act q o i := m.fullB_move q.mu q.S o i
  next_act q T hT hg := by
    have e := muNext_rigid m g ps q.mu hT hg.1
    by_cases hc : 'c' ∈ ps
    · have h1 : 'c' ∈ ps ∧ ∀ i, (fullNext g cp ps (muNext g ps q.mu T) T i).PosSemidef :=
        ⟨hc, fullNext_psd hmw hcp ps hT _⟩
      have e2 := fullNext_rigid m g cp ps (hcm hc) (muNext g ps q.mu T) hT
      rw [← e] at e2
      have h2 : 'c' ∈ ps ∧ ∀ i, (fullNext (m.prior g) (fun i => m.cov (cp i)) ps
          (muNext (m.prior g) ps (fun i => m.move (q.mu i)) (rigidT m T)) (rigidT m T) i).PosSemidef :=
        ⟨hc, fun i => by rw [e2]; exact m.cov_psd (h1.2 i)⟩
      have n1 : (fullFamily g hmw cp hcp ps).next q T = ⟨_, _, h1.2⟩ := dif_pos h1
      have n2 : (fullFamily (m.prior g) hmw (fun i => m.cov (cp i)) (fun i => m.cov_psd (hcp i)) ps).next
          (RFull.move m q) (rigidT m T) = ⟨_, _, h2.2⟩ := dif_pos h2
      refine n2.trans (Eq.trans ?_ (congrArg (RFull.move m) n1).symm)
      unfold RFull.move
      rw [RFull.mk.injEq]
      exact ⟨e, funext e2⟩
    · have n1 : (fullFamily g hmw cp hcp ps).next q T = ⟨_, _, q.psd⟩ := dif_neg fun h => hc h.1
      have n2 : (fullFamily (m.prior g) hmw (fun i => m.cov (cp i)) (fun i => m.cov_psd (hcp i)) ps).next
          (RFull.move m q) (rigidT m T) = ⟨_, _, (RFull.move m q).psd⟩ := dif_neg fun h => hc h.1
      refine n2.trans (Eq.trans ?_ (congrArg (RFull.move m) n1).symm)
      unfold RFull.move
      rw [RFull.mk.injEq]
      exact ⟨e, rfl⟩
  good_act q T _ h := h

theorem tied_recode (g : GaussPrior nc nf) (hmw : 0 ≤ g.mw) (cp : Matrix (Fin nf) (Fin nf) ℝ)
    (hcp : cp.PosSemidef) (ps : List Char) (hcm : 'c' ∈ ps → 'm' ∈ ps) :
    (tiedFamily g hmw cp hcp ps).Recode (tiedFamily (m.prior g) hmw (m.cov cp) (m.cov_psd hcp) ps) m.move
      (RTied.move m) m.tiedParams where
  embed_act q := by
    show (⟨_, _⟩ : TiedParams XF nc nf) = ⟨_, _⟩
    simp only [m.moveX_fin, m.covX_fin, tiedFamily]
    rfl
  b_act q o i := m.fullB_move q.mu (fun _ => q.S) o i
  next_act q T hT hg := by
    have e := muNext_rigid m g ps q.mu hT hg.1
    by_cases hc : 'c' ∈ ps
    · have h1 : 'c' ∈ ps ∧ (tiedNext g cp ps (muNext g ps q.mu T) T).PosSemidef := ⟨hc, tiedNext_psd hmw hcp ps hT _⟩
      have e2 := tiedNext_rigid m g cp ps (hcm hc) (muNext g ps q.mu T) hT
      rw [← e] at e2
      have h2 : 'c' ∈ ps ∧ (tiedNext (m.prior g) (m.cov cp) ps
          (muNext (m.prior g) ps (fun i => m.move (q.mu i)) (rigidT m T)) (rigidT m T)).PosSemidef :=
        ⟨hc, by rw [e2]; exact m.cov_psd h1.2⟩
      have n1 : (tiedFamily g hmw cp hcp ps).next q T = ⟨_, _, h1.2⟩ := dif_pos h1
      have n2 : (tiedFamily (m.prior g) hmw (m.cov cp) (m.cov_psd hcp) ps).next
          (RTied.move m q) (rigidT m T) = ⟨_, _, h2.2⟩ := dif_pos h2
      refine n2.trans (Eq.trans ?_ (congrArg (RTied.move m) n1).symm)
      unfold RTied.move
      rw [RTied.mk.injEq]
      exact ⟨e, e2⟩
    · have n1 : (tiedFamily g hmw cp hcp ps).next q T = ⟨_, _, q.psd⟩ := dif_neg fun h => hc h.1
      have n2 : (tiedFamily (m.prior g) hmw (m.cov cp) (m.cov_psd hcp) ps).next
          (RTied.move m q) (rigidT m T) = ⟨_, _, (RTied.move m q).psd⟩ := dif_neg fun h => hc h.1
      refine n2.trans (Eq.trans ?_ (congrArg (RTied.move m) n1).symm)
      unfold RTied.move
      rw [RTied.mk.injEq]
      exact ⟨e, rfl⟩
  good_act q T _ h := h

end Gaussian

open Gaussian
variable [NeZero nc]

/-- **C96** (GaussianHMM, `full`) Rotating, reflecting and translating the data, and with them the means, covariances
and priors, changes nothing else. -/
theorem C96_gaussian_full (m : Motion nf) (sp : Fin nc → ℝ) (tp : Fin nc → Fin nc → ℝ)
    (hsp : ∀ i, 1 ≤ sp i) (htp : ∀ i j, 1 ≤ tp i j) (g : GaussPrior nc nf) (hmw : 0 ≤ g.mw)
    (cp : Fin nc → Matrix (Fin nf) (Fin nf) ℝ) (hcp : ∀ i, (cp i).PosSemidef)
    (params : List Char) (hcm : 'c' ∈ params → 'm' ∈ params) (impl : Impl)
    (nIter : ℕ) (ss : List (ObsSeq (Fin nf → ℝ))) (hne : ss ≠ [])
    (p : FullPoint nc nf) (hS : ∀ i, (p.S i).PosSemidef) (h : ChainModel p.π p.A) (hL : 0 < p.L ss)
    (hu : (0 < g.mw ∧ (nf : ℝ) < g.cw) ∨ EveryStateUsed p.π p.A (fullB p.mu p.S) ss) (mon : Monitor XF) :
    RecodedFit m.fullParams
      (fullFit sp tp (m.prior g) (fun i => m.cov (cp i)) params impl nIter (recode m.move ss) (m.full p).theta mon)
      (fullFit sp tp g cp params impl nIter ss p.theta mon) :=
  (full_recode m g hmw cp hcp params hcm).fit_eq (c := ⟨sp, tp, impl, nIter⟩)
    (full_closed g hmw cp hcp params (fun hc => .inl (hcm hc)) _ ss (fun _ => hsp) fun _ => htp) hne
    (fun _ => hsp) (r := rpF p hS)
    ⟨⟨h.π_nonneg, h.A_nonneg, h.π_sum, h.A_sum⟩, FullPoint.likelihoods h hS hL,
      fun hn => hu.resolve_left hn.2⟩ mon

/-- **C96** (GaussianHMM, `tied`) -/
theorem C96_gaussian_tied (m : Motion nf) (sp : Fin nc → ℝ) (tp : Fin nc → Fin nc → ℝ)
    (hsp : ∀ i, 1 ≤ sp i) (htp : ∀ i j, 1 ≤ tp i j) (g : GaussPrior nc nf) (hmw : 0 ≤ g.mw)
    (cp : Matrix (Fin nf) (Fin nf) ℝ) (hcp : cp.PosSemidef)
    (params : List Char) (hcm : 'c' ∈ params → 'm' ∈ params) (impl : Impl)
    (nIter : ℕ) (ss : List (ObsSeq (Fin nf → ℝ))) (hne : ss ≠ [])
    (p : TiedPoint nc nf) (hS : p.S.PosSemidef) (h : ChainModel p.π p.A) (hL : 0 < p.L ss)
    (hu : 0 < g.mw ∨ EveryStateUsed p.π p.A (fullB p.mu fun _ => p.S) ss) (mon : Monitor XF) :
    RecodedFit m.tiedParams
      (tiedFit sp tp (m.prior g) (m.cov cp) params impl nIter (recode m.move ss) (m.tied p).theta mon)
      (tiedFit sp tp g cp params impl nIter ss p.theta mon) :=
  (tied_recode m g hmw cp hcp params hcm).fit_eq (c := ⟨sp, tp, impl, nIter⟩)
    (tied_closed g hmw cp hcp params (fun hc => .inl (hcm hc)) _ ss hne (fun _ => hsp) fun _ => htp) hne
    (fun _ => hsp) (r := rpT p hS)
    ⟨⟨h.π_nonneg, h.A_nonneg, h.π_sum, h.A_sum⟩, TiedPoint.likelihoods h hS hL,
      fun hn => hu.resolve_left hn.2⟩ mon

end Verif
