import Verif.Proofs.Copies
import Verif.Proofs.Reach
import Verif.Props.Relabel

/-!
# C97: a data set repeated
-/

set_option autoImplicit false

namespace Verif
open FloatLike XF Hmmc Spec
open scoped Classical Matrix

variable {nc nf : ℕ} [NeZero nc] {π : Fin nc → ℝ} {A : Fin nc → Fin nc → ℝ} {k : ℕ}

/-- Entries of a prior that counts `k` times as much. -/
noncomputable def Spec.strongerM {m n : ℕ} (k : ℕ) (a : ℝ) (p : Fin m → Fin n → ℝ) : Fin m → Fin n → ℝ :=
  fun i j => stronger k a (p i j)

/-! ## Categorical -/

theorem Categorical.Rows.ext' {q q' : Categorical.Rows nc nf} (h : q.e = q'.e) : q = q' := by
  cases q; cases q'; simp only at h; subst h; rfl

theorem Categorical.family_copies (hk : 0 < k) (ep : Fin nc → Fin nf → ℝ) (ps : List Char) :
    Family.Copies k (Categorical.family ep ps).Good (Categorical.family ep ps)
      (Categorical.family (strongerM k 1 ep) ps) where
  embed := rfl
  b := rfl
  next q T hT _ := by
    simp only [Categorical.family]
    by_cases he : 'e' ∈ ps
    · simp only [he, if_true]
      refine Categorical.Rows.ext' (funext fun i => ?_)
      exact mapUpdate_copies hk (ep i) _ _
    · simp only [he, if_false]
  good q T _ _ := trivial

/-- **C97** (CategoricalHMM) -/
theorem C97_categorical {e : Fin nc → Fin nf → ℝ} (hk : 0 < k) (sp : Fin nc → ℝ)
    (tp : Fin nc → Fin nc → ℝ) (ep : Fin nc → Fin nf → ℝ) (hsp : ∀ i, 1 ≤ sp i) (htp : ∀ i j, 1 ≤ tp i j)
    (hep : ∀ i k, 1 ≤ ep i k) (params : List Char) (impl : Impl) (nIter : ℕ) (ss : List (ObsSeq (Fin nf)))
    (hne : ss ≠ []) (h : CatModel π A e) (hL : impl = .log → 0 < catL ss π A e) (mon mon' : Monitor XF)
    (hm : Coarser k mon' mon) :
    CopiedFit k
      (catFit (fun i => stronger k 1 (sp i)) (strongerM k 1 tp) (strongerM k 1 ep) params impl nIter (copies k ss)
        (Categorical.params π A e) mon')
      (catFit sp tp ep params impl nIter ss (Categorical.params π A e) mon) := by
  refine (Categorical.family_copies hk ep params).fit_eq hk (c := ⟨sp, tp, impl, nIter⟩)
    ((Categorical.family ep params).closed_of_ac _ ss (fun _ => hsp) (fun _ => htp) (fun _ _ => trivial)
      (Categorical.ac ep params (fun _ => hep) ss)) (fun _ _ _ => trivial) hne (fun _ => hsp)
    (r := ⟨π, A, ⟨e, h.e_nonneg, h.e_sum⟩⟩) ⟨h.valid, fun hi s hs => ?_⟩ hm
  refine lt_of_le_of_ne (likelihood_nonneg h.π_nonneg h.A_nonneg fun t i => h.e_nonneg _ _)
    fun h0 => (hL hi).ne' ?_
  exact List.prod_eq_zero (List.mem_map.2 ⟨s, hs, h0.symm⟩)

/-! ## Poisson and multinomial -/

theorem Poisson.family_copies (hk : 0 < k) (al be : Fin nc → Fin nf → ℝ) (hal : ∀ i k, 0 ≤ al i k) (hbe : ∀ i k, 0 ≤ be i k)
    (hal' : ∀ i j, 0 ≤ strongerM k 0 al i j) (hbe' : ∀ i j, 0 ≤ strongerM k 0 be i j) (ps : List Char) :
    Family.Copies k (Poisson.family al be hal hbe ps).Good (Poisson.family al be hal hbe ps)
      (Poisson.family (strongerM k 0 al) (strongerM k 0 be) hal' hbe' ps) where
  embed := rfl
  b := rfl
  next q T hT _ := by
    have hk' : (k : ℝ) ≠ 0 := Nat.cast_ne_zero.2 hk.ne'
    simp only [Poisson.family]
    by_cases he : 'l' ∈ ps
    · simp only [he, if_true, Poisson.Rates.mk.injEq]
      funext i j
      congr 1
      unfold Poisson.upd strongerM stronger
      simp only [zero_add, sub_zero]
      rw [← Finset.mul_sum, mul_div_mul_left _ _ hk', mul_assoc, ← mul_add, ← mul_add, mul_div_mul_left _ _ hk']
    · simp only [he, if_false]
  good q T _ hg hl i := mul_ne_zero (Nat.cast_ne_zero.2 hk.ne') (hg hl i)

theorem strongerM_zero_nonneg {m n : ℕ} {p : Fin m → Fin n → ℝ} (h : ∀ i j, 0 ≤ p i j) (i : Fin m) (j : Fin n) :
    0 ≤ strongerM k 0 p i j := by
  unfold strongerM stronger
  rw [zero_add, sub_zero]
  exact mul_nonneg (Nat.cast_nonneg k) (h i j)

/-- **C97** (PoissonHMM) -/
theorem C97_poisson {l : Fin nc → Fin nf → ℝ} (hk : 0 < k) (sp : Fin nc → ℝ)
    (tp : Fin nc → Fin nc → ℝ) (al be : Fin nc → Fin nf → ℝ) (hsp : ∀ i, 1 ≤ sp i) (htp : ∀ i j, 1 ≤ tp i j)
    (hal : ∀ i k, 0 ≤ al i k) (hbe : ∀ i k, 0 ≤ be i k) (params : List Char) (impl : Impl) (nIter : ℕ)
    (ss : List (ObsSeq (Fin nf → ℕ))) (hne : ss ≠ []) (h : PoissonModel π A l)
    (hL : 0 < dataLikelihood π A (poissonB l) ss) (hu : EveryStateUsed π A (poissonB l) ss) (mon mon' : Monitor XF)
    (hm : Coarser k mon' mon) :
    CopiedFit k
      (poissonFit (fun i => stronger k 1 (sp i)) (strongerM k 1 tp) (strongerM k 0 al) (strongerM k 0 be) params impl
        nIter (copies k ss) (Poisson.params π A l) mon')
      (poissonFit sp tp al be params impl nIter ss (Poisson.params π A l) mon) :=
  have hcl := Poisson.closed al be hal hbe params ⟨sp, tp, impl, nIter⟩ ss (fun _ => hsp) fun _ => htp
  (Poisson.family_copies hk al be hal hbe (strongerM_zero_nonneg hal) (strongerM_zero_nonneg hbe) params).fit_eq hk
    (c := ⟨sp, tp, impl, nIter⟩) hcl hcl.good hne (fun _ => hsp) (r := h.rp) ⟨h.valid, h.ok hL, hu⟩ hm

theorem Multinomial.family_copies (hk : 0 < k) (ps : List Char) :
    Family.Copies k (Multinomial.family (nc := nc) (nf := nf) ps).Good (Multinomial.family (nc := nc) (nf := nf) ps)
      (Multinomial.family ps) where
  embed := rfl
  b := rfl
  next q T hT _ := by
    have hk' : (k : ℝ) ≠ 0 := Nat.cast_ne_zero.2 hk.ne'
    have e : Multinomial.upd (fun i f => k * T i f) = Multinomial.upd T := by
      funext i j
      unfold Multinomial.upd
      rw [← Finset.mul_sum, mul_div_mul_left _ _ hk']
    simp only [Multinomial.family, e]
  good q T _ hg he i := by
    rw [← Finset.mul_sum]
    exact mul_ne_zero (Nat.cast_ne_zero.2 hk.ne') (hg he i)

/-- **C97** (MultinomialHMM) -/
theorem C97_multinomial {e : Fin nc → Fin nf → ℝ} (hk : 0 < k) (sp : Fin nc → ℝ)
    (tp : Fin nc → Fin nc → ℝ) (hsp : ∀ i, 1 ≤ sp i) (htp : ∀ i j, 1 ≤ tp i j) (params : List Char) (impl : Impl)
    (nIter : ℕ) (ss : List (ObsSeq (Fin nf → ℕ))) (hne : ss ≠ []) (h : MultinomialModel π A e)
    (hL : 0 < dataLikelihood π A (multinomialB e) ss) (hu : EveryStateEmits π A e ss) (mon mon' : Monitor XF)
    (hm : Coarser k mon' mon) :
    CopiedFit k
      (multinomialFit (fun i => stronger k 1 (sp i)) (strongerM k 1 tp) params impl nIter (copies k ss)
        (Multinomial.params π A e) mon')
      (multinomialFit sp tp params impl nIter ss (Multinomial.params π A e) mon) :=
  have hcl := Multinomial.closed (ps := params) ⟨sp, tp, impl, nIter⟩ ss (fun _ => hsp) fun _ => htp
  (Multinomial.family_copies hk params).fit_eq hk (c := ⟨sp, tp, impl, nIter⟩)
    hcl hcl.good hne (fun _ => hsp) (r := h.rp) ⟨h.valid, h.ok hL, hu⟩ hm

/-! ## Gaussian -/

/-- `means_weight` and the excess of `covars_weight` over the value `a` at which it stops counting, multiplied. -/
noncomputable def Spec.GaussPrior.copies (k : ℕ) (a : ℝ) (g : GaussPrior nc nf) : GaussPrior nc nf :=
  ⟨g.mp, stronger k 0 g.mw, stronger k a g.cw⟩

namespace Gaussian
variable (g : GaussPrior nc nf) (ps : List Char) {T : Fin nc → ((Fin nf → ℝ) → ℝ) → ℝ}

omit [NeZero nc] in
theorem gate_mul (c : Char) (a x : ℝ) : gate ps c (a * x) = a * gate ps c x := by
  unfold gate; split <;> simp

omit [NeZero nc] in
theorem muNext_copies (hk : 0 < k) (a : ℝ) (mu : Fin nc → Fin nf → ℝ) :
    muNext (g.copies k a) ps mu (fun i f => k * T i f) = muNext g ps mu T := by
  have hk' : (k : ℝ) ≠ 0 := Nat.cast_ne_zero.2 hk.ne'
  funext i j
  unfold muNext GaussPrior.copies stronger
  split
  · simp only [zero_add, sub_zero]
    rw [mul_assoc, ← mul_add, ← mul_add, mul_div_mul_left _ _ hk']
  · rfl

/-- The divisor of the new variances is above its floor. -/
def AboveFloor (T : Fin nc → ((Fin nf → ℝ) → ℝ) → ℝ) : Prop :=
  'c' ∈ ps → ∀ i, 1 / 10 ^ 5 ≤ max (g.cw - 1) 0 + gate ps 'm' (T i fun _ => 1)

omit [NeZero nc] in
theorem varNext_copies (hk : 0 < k) (hfl : ∀ i, 1 / 10 ^ 5 ≤ max (g.cw - 1) 0 + gate ps 'm' (T i fun _ => 1))
    (cp : Fin nc → Fin nf → ℝ) (mu : Fin nc → Fin nf → ℝ) :
    varNext (g.copies k 1) (strongerM k 0 cp) ps mu (fun i f => k * T i f) = varNext g cp ps mu T := by
  have hk' : (0 : ℝ) < k := Nat.cast_pos.2 hk
  have hk1 : (1 : ℝ) ≤ k := Nat.one_le_cast.2 hk
  funext i j
  unfold varNext
  simp only [gate_mul]
  have e1 : max ((g.copies k 1).cw - 1) 0 = k * max (g.cw - 1) 0 := by
    unfold GaussPrior.copies stronger
    rw [mul_max_of_nonneg _ _ hk'.le, mul_zero]
    congr 1; ring
  have h1 := hfl i
  have h0 : (0 : ℝ) < 1 / 10 ^ 5 := by positivity
  rw [e1, ← mul_add, max_eq_left h1, max_eq_left (h1.trans (by nlinarith))]
  rw [← mul_div_mul_left (c := (k : ℝ)) _ (max (g.cw - 1) 0 + _) hk'.ne']
  congr 1
  unfold GaussPrior.copies strongerM stronger
  ring

theorem diag_copies (hk : 0 < k) (cp : Fin nc → Fin nf → ℝ) :
    Family.Copies k (fun q T => (diagFamily g cp ps).Good q T ∧ AboveFloor g ps T) (diagFamily g cp ps)
      (diagFamily (g.copies k 1) (strongerM k 0 cp) ps) where
  embed := rfl
  b := rfl
  next q T hT hg := by
    simp only [diagFamily, muNext_copies g ps hk]
    by_cases hc : 'c' ∈ ps
    · simp only [hc, if_true, varNext_copies g ps hk (hg.2 hc) cp]
    · simp only [hc, if_false]
  good q T _ hg hm i := by
    show stronger k 0 g.mw + k * T i (fun _ => 1) ≠ 0
    unfold stronger
    rw [zero_add, sub_zero, ← mul_add]
    exact mul_ne_zero (Nat.cast_ne_zero.2 hk.ne') (hg.1 hm i)

theorem sph_copies [NeZero nf] (hk : 0 < k) (cp : Fin nc → Fin nf → ℝ) :
    Family.Copies k (fun q T => (sphFamily g cp ps).Good q T ∧ AboveFloor g ps T) (sphFamily g cp ps)
      (sphFamily (g.copies k 1) (strongerM k 0 cp) ps) where
  embed := rfl
  b := rfl
  next q T hT hg := by
    simp only [sphFamily, muNext_copies g ps hk]
    by_cases hc : 'c' ∈ ps
    · simp only [hc, if_true, varNext_copies g ps hk (hg.2 hc) cp]
    · simp only [hc, if_false]
  good q T _ hg hm i := by
    show stronger k 0 g.mw + k * T i (fun _ => 1) ≠ 0
    unfold stronger
    rw [zero_add, sub_zero, ← mul_add]
    exact mul_ne_zero (Nat.cast_ne_zero.2 hk.ne') (hg.1 hm i)

omit [NeZero nc] in
theorem cvw_copies (hk : 0 < k) : (g.copies k nf).cvw = k * g.cvw := by
  unfold GaussPrior.copies stronger GaussPrior.cvw
  rw [mul_max_of_nonneg _ _ (Nat.cast_nonneg k), mul_zero]
  congr 1; ring

omit [NeZero nc] in
theorem cn_copies (a : ℝ) (mu : Fin nc → Fin nf → ℝ) (i : Fin nc) :
    cn (g.copies k a) ps mu (fun i f => k * T i f) i = (k : ℝ) • cn g ps mu T i := by
  have e : scat (fun i f => k * T i f) i (centre ps mu i) = (k : ℝ) • scat T i (centre ps mu i) := by
    ext a b; rfl
  unfold cn
  rw [e, smul_add, smul_smul]
  unfold GaussPrior.copies stronger
  simp only [zero_add, sub_zero]

omit [NeZero nc] in
theorem fullNext_copies (hk : 0 < k) (cp : Fin nc → Matrix (Fin nf) (Fin nf) ℝ) (mu : Fin nc → Fin nf → ℝ) :
    fullNext (g.copies k nf) (fun i => (k : ℝ) • cp i) ps mu (fun i f => k * T i f) = fullNext g cp ps mu T := by
  have hk' : (k : ℝ) ≠ 0 := Nat.cast_ne_zero.2 hk.ne'
  funext i
  unfold fullNext
  rw [cn_copies, cvw_copies g hk, gate_mul, ← mul_add, ← smul_add, smul_smul, mul_inv_rev, mul_assoc, inv_mul_cancel₀ hk',
    mul_one]

theorem tiedNext_copies (hk : 0 < k) (cp : Matrix (Fin nf) (Fin nf) ℝ) (mu : Fin nc → Fin nf → ℝ) :
    tiedNext (g.copies k nf) ((k : ℝ) • cp) ps mu (fun i f => k * T i f) = tiedNext g cp ps mu T := by
  have hk' : (k : ℝ) ≠ 0 := Nat.cast_ne_zero.2 hk.ne'
  unfold tiedNext
  simp only [cn_copies, cvw_copies g hk, gate_mul]
  rw [← Finset.mul_sum, ← Finset.smul_sum, ← mul_add, ← smul_add, smul_smul, mul_inv_rev, mul_assoc,
    inv_mul_cancel₀ hk', mul_one]

theorem full_copies (hk : 0 < k) (hmw : 0 ≤ g.mw) (hmw' : 0 ≤ (g.copies k nf).mw)
    (cp : Fin nc → Matrix (Fin nf) (Fin nf) ℝ) (hcp : ∀ i, (cp i).PosSemidef)
    (hcp' : ∀ i, ((k : ℝ) • cp i).PosSemidef) :
    Family.Copies k (fullFamily g hmw cp hcp ps).Good (fullFamily g hmw cp hcp ps)
      (fullFamily (g.copies k nf) hmw' (fun i => (k : ℝ) • cp i) hcp' ps) where
  embed := rfl
  b := rfl
  next q T hT _ := by
    simp only [fullFamily, muNext_copies g ps hk, fullNext_copies g ps hk]
  good q T _ hg := by
    have hk' : (k : ℝ) ≠ 0 := Nat.cast_ne_zero.2 hk.ne'
    refine ⟨fun hm i => ?_, fun hc i => ?_⟩
    · show stronger k 0 g.mw + k * T i (fun _ => 1) ≠ 0
      unfold stronger
      rw [zero_add, sub_zero, ← mul_add]
      exact mul_ne_zero hk' (hg.1 hm i)
    · show (g.copies k nf).cvw + gate ps 'm' (k * T i fun _ => 1) ≠ 0
      rw [cvw_copies g hk, gate_mul, ← mul_add]
      exact mul_ne_zero hk' (hg.2 hc i)

theorem tied_copies (hk : 0 < k) (hmw : 0 ≤ g.mw) (hmw' : 0 ≤ (g.copies k nf).mw)
    (cp : Matrix (Fin nf) (Fin nf) ℝ) (hcp : cp.PosSemidef) (hcp' : ((k : ℝ) • cp).PosSemidef) :
    Family.Copies k (tiedFamily g hmw cp hcp ps).Good (tiedFamily g hmw cp hcp ps)
      (tiedFamily (g.copies k nf) hmw' ((k : ℝ) • cp) hcp' ps) where
  embed := rfl
  b := rfl
  next q T hT _ := by
    simp only [tiedFamily, muNext_copies g ps hk, tiedNext_copies g ps hk]
  good q T _ hg := by
    have hk' : (k : ℝ) ≠ 0 := Nat.cast_ne_zero.2 hk.ne'
    refine ⟨fun hm i => ?_, fun hc => ?_⟩
    · show stronger k 0 g.mw + k * T i (fun _ => 1) ≠ 0
      unfold stronger
      rw [zero_add, sub_zero, ← mul_add]
      exact mul_ne_zero hk' (hg.1 hm i)
    · show (g.copies k nf).cvw + ∑ i, gate ps 'm' (k * T i fun _ => 1) ≠ 0
      simp only [cvw_copies g hk, gate_mul]
      rw [← Finset.mul_sum, ← mul_add]
      exact mul_ne_zero hk' (hg.2 hc)

end Gaussian

open Gaussian

/-- The divisor of the variance update, `covars_weight - 1` plus the expected number of visits, stays above the floor
`1e-5` throughout training: either already the prior is that strong, or means are trained too and no model reached from
`p` leaves a state with fewer expected visits. -/
def Spec.FloorUnused [NeZero nf] (ty : DiagType) (sp : Fin nc → ℝ) (tp : Fin nc → Fin nc → ℝ) (g : GaussPrior nc nf)
    (cp : Fin nc → Fin nf → ℝ) (params : List Char) (impl : Impl) (ss : List (ObsSeq (Fin nf → ℝ)))
    (p : DiagPoint nc nf) : Prop :=
  1 + 1 / 10 ^ 5 ≤ g.cw ∨ 'm' ∈ params ∧ ∀ (n : ℕ) (mon : Monitor XF) (p' : DiagPoint nc nf),
    (gaussFit ty sp tp g cp params impl n ss p.theta mon).state = p'.theta → ChainModel p'.π p'.A → 0 < p'.L ss →
    ∀ i, 1 / 10 ^ 5 ≤ visits p'.π p'.A (diagB p'.mu p'.v) ss i

omit [NeZero nc] in
theorem aboveFloor_strong {g : GaussPrior nc nf} (h : 1 + 1 / 10 ^ 5 ≤ g.cw) {ps : List Char}
    {T : Fin nc → ((Fin nf → ℝ) → ℝ) → ℝ} (hT : PosLin T) : AboveFloor g ps T := fun _ i => by
  have h1 := le_max_left (g.cw - 1) 0
  have hN : 0 ≤ gate ps 'm' (T i fun _ => 1) := gate_nonneg (hT.nonneg i _ fun _ => zero_le_one)
  linarith

omit [NeZero nc] in
theorem aboveFloor_visits {g : GaussPrior nc nf} {ps : List Char} (hm : 'm' ∈ ps)
    {T : Fin nc → ((Fin nf → ℝ) → ℝ) → ℝ} (h : ∀ i, 1 / 10 ^ 5 ≤ T i fun _ => 1) : AboveFloor g ps T := fun _ i => by
  have h1 := le_max_right (g.cw - 1) 0
  have h2 := h i
  unfold gate
  rw [if_pos hm]
  linarith

/-- **C97** (GaussianHMM, `diag` and `spherical`) -/
theorem C97_gaussian [NeZero nf] (ty : DiagType) (hk : 0 < k) (sp : Fin nc → ℝ) (tp : Fin nc → Fin nc → ℝ)
    (hsp : ∀ i, 1 ≤ sp i) (htp : ∀ i j, 1 ≤ tp i j) (g : GaussPrior nc nf) (hmw : 0 ≤ g.mw)
    (cp : Fin nc → Fin nf → ℝ) (params : List Char) (impl : Impl) (nIter : ℕ)
    (ss : List (ObsSeq (Fin nf → ℝ))) (hne : ss ≠ []) (p : DiagPoint nc nf) (hty : ty.Shape p)
    (hfl : 'c' ∈ params → FloorUnused ty sp tp g cp params impl ss p)
    (h : ChainModel p.π p.A) (hL : 0 < p.L ss) (hu : 0 < g.mw ∨ EveryStateUsed p.π p.A (diagB p.mu p.v) ss)
    (mon mon' : Monitor XF) (hm : Coarser k mon' mon) :
    CopiedFit k
      (gaussFit ty (fun i => stronger k 1 (sp i)) (strongerM k 1 tp) (g.copies k 1) (strongerM k 0 cp) params impl nIter
        (copies k ss) p.theta mon')
      (gaussFit ty sp tp g cp params impl nIter ss p.theta mon) := by
  cases ty with
  | diag =>
    have hcl := diag_closed g hmw cp params ⟨sp, tp, impl, nIter⟩ ss (fun _ => hsp) fun _ => htp
    have hk0 : (diagFamily g cp params).Keeps (need g params) ss (rpD p) :=
      ⟨DiagPoint.valid h _, DiagPoint.likelihoods h hL, fun hn => hu.resolve_left hn.2⟩
    refine (diag_copies g params hk cp).fit_eq hk (c := ⟨sp, tp, impl, nIter⟩) (hcl.reach (rpD p))
      (fun r hr hok => ⟨hcl.good r hr.1 hok, fun hc => ?_⟩) hne (fun _ => hsp) (r := rpD p) ⟨hk0, 0, .start⟩ hm
    have hv := hr.1.1
    refine (?_ : AboveFloor g params _) hc
    rcases hfl hc with hw | ⟨hm, hw⟩
    · exact aboveFloor_strong hw (obsStat_posLin hv.π_nonneg hv.A_nonneg ((diagFamily g cp params).b_nonneg _) ss)
    · obtain ⟨n, hn⟩ := hr.2
      refine aboveFloor_visits hm fun i => ?_
      rw [visits_eq]
      exact hw n _ (ptD r) (hn.fit hcl hne (fun _ => hsp) hk0).2 ⟨hv.π_nonneg, hv.A_nonneg, hv.π_sum, hv.A_sum⟩
        (log_dataLikelihood ss hr.1.2.1).1 i
  | spherical =>
    have hpt : ptS (rpS p) = p := ptS_rpS hty
    rw [← hpt] at hu hL hfl ⊢
    have hcl := sph_closed g hmw cp params ⟨sp, tp, impl, nIter⟩ ss (fun _ => hsp) fun _ => htp
    have hk0 : (sphFamily g cp params).Keeps (need g params) ss (rpS p) :=
      ⟨DiagPoint.valid h _, DiagPoint.likelihoods (p := ptS (rpS p)) h hL, fun hn => hu.resolve_left hn.2⟩
    refine (sph_copies g params hk cp).fit_eq hk (c := ⟨sp, tp, impl, nIter⟩) (hcl.reach (rpS p))
      (fun r hr hok => ⟨hcl.good r hr.1 hok, fun hc => ?_⟩) hne (fun _ => hsp) (r := rpS p) ⟨hk0, 0, .start⟩ hm
    have hv := hr.1.1
    refine (?_ : AboveFloor g params _) hc
    rcases hfl hc with hw | ⟨hm, hw⟩
    · exact aboveFloor_strong hw (obsStat_posLin hv.π_nonneg hv.A_nonneg ((sphFamily g cp params).b_nonneg _) ss)
    · obtain ⟨n, hn⟩ := hr.2
      refine aboveFloor_visits hm fun i => ?_
      rw [visits_eq]
      exact hw n _ (ptS r) (hn.fit hcl hne (fun _ => hsp) hk0).2 ⟨hv.π_nonneg, hv.A_nonneg, hv.π_sum, hv.A_sum⟩
        (log_dataLikelihood ss hr.1.2.1).1 i

omit [NeZero nc] in
theorem copies_mw {g : GaussPrior nc nf} (hmw : 0 ≤ g.mw) (a : ℝ) : 0 ≤ (g.copies k a).mw := by
  show 0 ≤ stronger k 0 g.mw
  unfold stronger
  rw [zero_add, sub_zero]
  exact mul_nonneg (Nat.cast_nonneg k) hmw

/-- **C97** (GaussianHMM, `full`) -/
theorem C97_gaussian_full (hk : 0 < k) (sp : Fin nc → ℝ) (tp : Fin nc → Fin nc → ℝ)
    (hsp : ∀ i, 1 ≤ sp i) (htp : ∀ i j, 1 ≤ tp i j) (g : GaussPrior nc nf) (hmw : 0 ≤ g.mw)
    (cp : Fin nc → Matrix (Fin nf) (Fin nf) ℝ) (hcp : ∀ i, (cp i).PosSemidef)
    (params : List Char) (hcm : 'c' ∈ params → 'm' ∈ params) (impl : Impl)
    (nIter : ℕ) (ss : List (ObsSeq (Fin nf → ℝ))) (hne : ss ≠ [])
    (p : FullPoint nc nf) (hS : ∀ i, (p.S i).PosSemidef) (h : ChainModel p.π p.A) (hL : 0 < p.L ss)
    (hu : (0 < g.mw ∧ (nf : ℝ) < g.cw) ∨ EveryStateUsed p.π p.A (fullB p.mu p.S) ss) (mon mon' : Monitor XF)
    (hm : Coarser k mon' mon) :
    CopiedFit k
      (fullFit (fun i => stronger k 1 (sp i)) (strongerM k 1 tp) (g.copies k nf) (fun i => (k : ℝ) • cp i) params impl nIter
        (copies k ss) p.theta mon')
      (fullFit sp tp g cp params impl nIter ss p.theta mon) :=
  have hcl := full_closed g hmw cp hcp params (fun hc => .inl (hcm hc)) ⟨sp, tp, impl, nIter⟩ ss (fun _ => hsp) fun _ => htp
  (full_copies g params hk hmw (copies_mw hmw _) cp hcp fun i => (hcp i).smul (Nat.cast_nonneg k)).fit_eq hk
    (c := ⟨sp, tp, impl, nIter⟩) hcl hcl.good hne (fun _ => hsp) (r := rpF p hS)
    ⟨⟨h.π_nonneg, h.A_nonneg, h.π_sum, h.A_sum⟩, FullPoint.likelihoods h hS hL,
      fun hn => hu.resolve_left hn.2⟩ hm

/-- **C97** (GaussianHMM, `tied`) -/
theorem C97_gaussian_tied (hk : 0 < k) (sp : Fin nc → ℝ) (tp : Fin nc → Fin nc → ℝ)
    (hsp : ∀ i, 1 ≤ sp i) (htp : ∀ i j, 1 ≤ tp i j) (g : GaussPrior nc nf) (hmw : 0 ≤ g.mw)
    (cp : Matrix (Fin nf) (Fin nf) ℝ) (hcp : cp.PosSemidef)
    (params : List Char) (hcm : 'c' ∈ params → 'm' ∈ params) (impl : Impl)
    (nIter : ℕ) (ss : List (ObsSeq (Fin nf → ℝ))) (hne : ss ≠ [])
    (p : TiedPoint nc nf) (hS : p.S.PosSemidef) (h : ChainModel p.π p.A) (hL : 0 < p.L ss)
    (hu : 0 < g.mw ∨ EveryStateUsed p.π p.A (fullB p.mu fun _ => p.S) ss) (mon mon' : Monitor XF)
    (hm : Coarser k mon' mon) :
    CopiedFit k
      (tiedFit (fun i => stronger k 1 (sp i)) (strongerM k 1 tp) (g.copies k nf) ((k : ℝ) • cp) params impl nIter
        (copies k ss) p.theta mon')
      (tiedFit sp tp g cp params impl nIter ss p.theta mon) :=
  have hcl := tied_closed g hmw cp hcp params (fun hc => .inl (hcm hc)) ⟨sp, tp, impl, nIter⟩ ss hne (fun _ => hsp) fun _ => htp
  (tied_copies g params hk hmw (copies_mw hmw _) cp hcp (hcp.smul (Nat.cast_nonneg k))).fit_eq hk
    (c := ⟨sp, tp, impl, nIter⟩) hcl hcl.good hne (fun _ => hsp) (r := rpT p hS)
    ⟨⟨h.π_nonneg, h.A_nonneg, h.π_sum, h.A_sum⟩, TiedPoint.likelihoods h hS hL,
      fun hn => hu.resolve_left hn.2⟩ hm

end Verif
