import Verif.Proofs.GmmKinds

/-!
# EM for `GMMHMM` does not decrease the likelihood

The covariance update uses the scatter about the *old* means.  It is not the maximiser of the
expected log-likelihood, but it still improves it.
-/

namespace Verif
open FloatLike XF Hmmc Spec Gaussian
open scoped Matrix Classical

namespace Gmm
variable {nc nm nf : ℕ} {C V : Type}

/-- A log-ratio of mixtures is at least the responsibility-weighted log-ratios of the
components. -/
theorem mixture_gain {w w' d d' : Fin nm → ℝ} (hw : ∀ k, 0 ≤ w k) (he : ∃ k, 0 < w k)
    (hd : ∀ k, 0 < d k) (hw' : ∀ k, 0 ≤ w' k) (hac : ∀ k, 0 < w k → 0 < w' k) (hd' : ∀ k, 0 < d' k) :
    ∑ k, responsibility w d k * (Real.log (w' k / w k) + Real.log (d' k / d k)) ≤
      Real.log (mixture w' d' / mixture w d) := by
  have hm := mixture_pos hw he hd
  have he' : ∃ k, 0 < w' k := he.imp fun k => hac k
  have hm' := mixture_pos hw' he' hd'
  have h := sum_log_ratio_le (w := fun k => w k * d k) (w' := fun k => w' k * d' k)
    (fun k => mul_nonneg (hw k) (hd k).le) (fun k => mul_nonneg (hw' k) (hd' k).le)
    (fun k hk => mul_pos (hac k (pos_of_mul_pos_left hk (hd k).le)) (hd' k)) hm
  rw [Real.log_div hm'.ne' hm.ne']
  have e : ∑ k, responsibility w d k * (Real.log (w' k / w k) + Real.log (d' k / d k)) =
      (∑ k, w k * d k * Real.log (w' k * d' k / (w k * d k))) / mixture w d := by
    rw [Finset.sum_div]
    refine Finset.sum_congr rfl fun k _ => ?_
    rcases (hw k).eq_or_lt with h0 | hk
    · simp [responsibility, ← h0]
    · have := hac k hk
      rw [mul_div_mul_comm, Real.log_mul (div_pos this hk).ne' (div_pos (hd' k) (hd k)).ne',
        responsibility]
      ring
  rw [e, div_le_iff₀ hm, mul_comm]
  exact h

/-- Gibbs' inequality for the new weights. -/
theorem weights_gain {N : Fin nm → ℝ} {w : Fin nm → ℝ} (hN : ∀ k, 0 < N k) (hw : ∀ k, 0 < w k)
    (hs : ∑ k, w k ≤ 1) (hne : 0 < ∑ k, N k) :
    0 ≤ ∑ k, N k * Real.log (N k / (∑ j, N j) / w k) := by
  have h := sum_log_ratio_le (w := N) (w' := w) (fun k => (hN k).le) (fun k => (hw k).le)
    (fun k _ => hw k) hne
  have hw0 : 0 < ∑ k, w k := by
    obtain ⟨k, _, _⟩ := Finset.exists_ne_zero_of_sum_ne_zero hne.ne'
    exact Finset.sum_pos (fun k _ => hw k) ⟨k, Finset.mem_univ k⟩
  have h1 : Real.log (∑ k, w k) ≤ 0 := Real.log_nonpos hw0.le hs
  have e : ∑ k, N k * Real.log (N k / (∑ j, N j) / w k) =
      -(∑ k, N k * Real.log (w k / N k)) - (∑ k, N k) * Real.log (∑ k, N k) := by
    rw [Finset.sum_mul, ← Finset.sum_neg_distrib, ← Finset.sum_sub_distrib]
    refine Finset.sum_congr rfl fun k _ => ?_
    rw [div_div, Real.log_div (hN k).ne' (mul_pos hne (hw k)).ne', Real.log_mul hne.ne' (hw k).ne',
      Real.log_div (hw k).ne' (hN k).ne']
    ring
  rw [e]
  have := mul_nonneg hne.le (neg_nonneg.2 h1)
  linarith

section
variable {K : Kind XF nc nm nf C} (R : RKind K V)

theorem split_posLin (q : RGmm nc nm nf V) {T : Fin nc → ((Fin nf → ℝ) → ℝ) → ℝ} (hT : PosLin T)
    (i : Fin nc) : PosLin (R.split q T i) where
  nonneg k f hf := hT.nonneg i _ fun x => mul_nonneg (R.resp_nonneg q x i k) (hf x)
  add k f g := by
    show T i _ = _
    simp only [mul_add, hT.add]; rfl
  smul k c f := by
    show T i _ = _
    have : (fun x => R.resp q x i k * (c * f x)) = fun x => c * (R.resp q x i k * f x) := by
      funext x; ring
    rw [this, hT.smul]; rfl

theorem sum_split (q : RGmm nc nm nf V) {T : Fin nc → ((Fin nf → ℝ) → ℝ) → ℝ} (hT : PosLin T)
    (i : Fin nc) (f : (Fin nf → ℝ) → ℝ) : ∑ k, R.split q T i k f = T i f := by
  unfold RKind.split
  rw [← hT.sum]
  congr 1
  funext x
  rw [← Finset.sum_mul, R.sum_resp, one_mul]

variable [NeZero nm]

/-- Flat hyper-parameters. -/
theorem wNext_flat (ps : List Char) (q : RGmm nc nm nf V) (T : Fin nc → ((Fin nf → ℝ) → ℝ) → ℝ)
    (i : Fin nc) (k : Fin nm) :
    R.wNext GmmPrior.flat ps q T i k =
      if 'w' ∈ ps then (R.split q T i k fun _ => 1) / T i fun _ => 1 else q.w i k := by
  simp [RKind.wNext, wDen, GmmPrior.flat]

/-- The hyper-parameters of the corresponding single-Gaussian update. -/
def g0 : GaussPrior nm nf := ⟨fun _ _ => 0, 0, 1⟩

/-- Weights positive, sums at most one, every component with positive expected count. -/
structure Live (q : RGmm nc nm nf V) (T : Fin nc → ((Fin nf → ℝ) → ℝ) → ℝ) : Prop where
  w_pos : ∀ i k, 0 < q.w i k
  w_sum : ∀ i, ∑ k, q.w i k ≤ 1
  count : ∀ i k, 0 < R.split q T i k fun _ => 1

variable {R}

theorem Live.total {q : RGmm nc nm nf V} {T : Fin nc → ((Fin nf → ℝ) → ℝ) → ℝ} (h : Live R q T)
    (hT : PosLin T) (i : Fin nc) : 0 < T i fun _ => 1 := by
  rw [← sum_split R q hT]
  exact Finset.sum_pos (fun k _ => h.count i k) ⟨0, Finset.mem_univ _⟩

theorem Live.wNext_pos {q : RGmm nc nm nf V} {T : Fin nc → ((Fin nf → ℝ) → ℝ) → ℝ} (h : Live R q T)
    (hT : PosLin T) (ps : List Char) (i : Fin nc) (k : Fin nm) :
    0 < R.wNext GmmPrior.flat ps q T i k := by
  rw [wNext_flat]
  split
  · exact div_pos (h.count i k) (h.total hT i)
  · exact h.w_pos i k

theorem Live.wNext_sum {q : RGmm nc nm nf V} {T : Fin nc → ((Fin nf → ℝ) → ℝ) → ℝ} (h : Live R q T)
    (hT : PosLin T) (ps : List Char) (i : Fin nc) :
    ∑ k, R.wNext GmmPrior.flat ps q T i k ≤ 1 := by
  simp only [wNext_flat]
  by_cases hw : 'w' ∈ ps
  · simp only [hw, if_true]
    rw [← Finset.sum_div, sum_split R q hT, div_self (h.total hT i).ne']
  · simp only [hw, if_false]; exact h.w_sum i

theorem Live.mDen_eq {q : RGmm nc nm nf V} {T : Fin nc → ((Fin nf → ℝ) → ℝ) → ℝ} (h : Live R q T)
    (hT : PosLin T) (ps : List Char) (i : Fin nc) (k : Fin nm) :
    R.mDen GmmPrior.flat ps q T i k = R.split q T i k fun _ => 1 := by
  unfold RKind.mDen
  rw [if_neg fun h0 => (h.wNext_pos hT ps i k).ne' h0.1]
  simp [GmmPrior.flat]

theorem Live.muNext_eq {q : RGmm nc nm nf V} {T : Fin nc → ((Fin nf → ℝ) → ℝ) → ℝ} (h : Live R q T)
    (hT : PosLin T) (ps : List Char) (i : Fin nc) :
    R.muNext GmmPrior.flat ps q T i = Gaussian.muNext g0 ps (q.mu i) (R.split q T i) := by
  funext k l
  simp only [RKind.muNext, Gaussian.muNext, h.mDen_eq hT, g0]
  simp [GmmPrior.flat]

variable [NeZero nc]

omit [NeZero nm] in
theorem next_w {g : GmmPrior nc nm nf} {ps : List Char} [NeZero nm] {q : RGmm nc nm nf V}
    {T : Fin nc → ((Fin nf → ℝ) → ℝ) → ℝ}
    (h : (∀ i k, 0 ≤ R.wNext g ps q T i k) ∧ ∀ i, ∃ k, 0 < R.wNext g ps q T i k) :
    ((family R g ps).next q T).w = R.wNext g ps q T := by
  show (dite _ _ _ : RGmm nc nm nf V).w = _
  rw [dif_pos h]

theorem next_mu {g : GmmPrior nc nm nf} {ps : List Char} {q : RGmm nc nm nf V}
    {T : Fin nc → ((Fin nf → ℝ) → ℝ) → ℝ} :
    ((family R g ps).next q T).mu = R.muNext g ps q T := by
  show (dite _ _ _ : RGmm nc nm nf V).mu = _
  split <;> rfl

theorem next_v {g : GmmPrior nc nm nf} {ps : List Char} {q : RGmm nc nm nf V}
    {T : Fin nc → ((Fin nf → ℝ) → ℝ) → ℝ} :
    ((family R g ps).next q T).v = R.vNext g ps q T := by
  show (dite _ _ _ : RGmm nc nm nf V).v = _
  split <;> rfl

theorem Live.next_w {ps : List Char} {q : RGmm nc nm nf V}
    {T : Fin nc → ((Fin nf → ℝ) → ℝ) → ℝ} (h : Live R q T) (hT : PosLin T) :
    ((family R GmmPrior.flat ps).next q T).w = R.wNext GmmPrior.flat ps q T :=
  Gmm.next_w ⟨fun i k => (h.wNext_pos hT ps i k).le, fun i => ⟨0, h.wNext_pos hT ps i 0⟩⟩

theorem gmm_b_pos {g : GmmPrior nc nm nf} {ps : List Char} (q : RGmm nc nm nf V) (o : Fin nf → ℝ)
    (i : Fin nc) : 0 < (family R g ps).b q o i := R.b_pos q o i

theorem gmm_ac {g : GmmPrior nc nm nf} {ps : List Char} (ss : List (ObsSeq (Fin nf → ℝ)))
    (r : RParams nc (RGmm nc nm nf V)) : (family R g ps).Ac ss r :=
  fun _ _ _ _ _ => gmm_b_pos _ _ _

/-- What the covariance type has to provide. -/
def Improves (R : RKind K V) (ps : List Char) (q : RGmm nc nm nf V)
    (T : Fin nc → ((Fin nf → ℝ) → ℝ) → ℝ) : Prop :=
  ∀ i, 0 ≤ ∑ k, R.split q T i k fun x =>
    Real.log (R.dens (R.vNext GmmPrior.flat ps q T) (R.muNext GmmPrior.flat ps q T) x i k /
      R.dens q.v q.mu x i k)

theorem state_gain {ps : List Char} {q : RGmm nc nm nf V} {T : Fin nc → ((Fin nf → ℝ) → ℝ) → ℝ}
    (h : Live R q T) (hT : PosLin T) (hi : Improves R ps q T) (i : Fin nc) :
    0 ≤ T i fun o => Real.log (R.b ((family R GmmPrior.flat ps).next q T) o i / R.b q o i) := by
  set q' := (family R GmmPrior.flat ps).next q T with hq'
  have hw' : q'.w = R.wNext GmmPrior.flat ps q T := h.next_w hT
  have hpt : ∀ x, ∑ k, R.resp q x i k * (Real.log (q'.w i k / q.w i k) +
      Real.log (R.dens q'.v q'.mu x i k / R.dens q.v q.mu x i k)) ≤
      Real.log (R.b q' x i / R.b q x i) := fun x =>
    mixture_gain (q.w_nonneg i) (q.w_ex i) (R.dens_pos _ _ _ _) (q'.w_nonneg i)
      (fun k _ => by rw [hw']; exact h.wNext_pos hT ps i k) (R.dens_pos _ _ _ _)
  refine le_trans ?_ (hT.mono i hpt)
  rw [hT.sum]
  have e : ∀ k, T i (fun x => R.resp q x i k * (Real.log (q'.w i k / q.w i k) +
      Real.log (R.dens q'.v q'.mu x i k / R.dens q.v q.mu x i k))) =
      (R.split q T i k fun _ => 1) * Real.log (q'.w i k / q.w i k) +
      R.split q T i k fun x => Real.log (R.dens q'.v q'.mu x i k / R.dens q.v q.mu x i k) := by
    intro k
    have hs := split_posLin R q hT i
    rw [← (hs.const k (Real.log (q'.w i k / q.w i k))), ← hs.add]
    rfl
  simp only [e, Finset.sum_add_distrib]
  refine add_nonneg ?_ ?_
  · simp only [hw', wNext_flat]
    by_cases hw : 'w' ∈ ps
    · simp only [hw, if_true]
      have := weights_gain (h.count i) (h.w_pos i) (h.w_sum i) (by
        rw [sum_split R q hT]; exact h.total hT i)
      rw [sum_split R q hT] at this
      exact this
    · simp only [hw, if_false]
      refine le_of_eq (Finset.sum_eq_zero fun k _ => ?_).symm
      rw [div_self (h.w_pos i k).ne', Real.log_one, mul_zero]
  · have := hi i
    have ev : q'.v = R.vNext GmmPrior.flat ps q T := next_v
    have em : q'.mu = R.muNext GmmPrior.flat ps q T := next_mu
    rw [ev, em]
    exact this

theorem gmm_gains {ps : List Char} (ss : List (ObsSeq (Fin nf → ℝ)))
    (r : RParams nc (RGmm nc nm nf V)) (hv : r.Valid)
    (h : Live R r.q (obsStat r.π r.A (R.b r.q) ss))
    (hi : Improves R ps r.q (obsStat r.π r.A (R.b r.q) ss)) :
    (family R GmmPrior.flat ps).Gains ss r 0 := by
  refine ⟨gmm_ac ss r, ?_⟩
  have hT : PosLin (obsStat r.π r.A (R.b r.q) ss) :=
    obsStat_posLin hv.π_nonneg hv.A_nonneg (fun o i => (R.b_pos r.q o i).le) ss
  rw [emissionGain_eq]
  exact Finset.sum_nonneg fun i _ => state_gain h hT hi i

end

/-! ## Component updates -/

section
variable {T : Fin nm → ((Fin nf → ℝ) → ℝ) → ℝ}

/-- Squared distances do not increase when the mean is re-estimated. -/
theorem sq_muNext_le (hT : PosLin T) (hN : ∀ k, 0 < T k fun _ => 1) (ps : List Char)
    (mu : Fin nm → Fin nf → ℝ) (k : Fin nm) (l : Fin nf) :
    T k (fun x => (x l - Gaussian.muNext g0 ps mu T k l) ^ 2) ≤ T k fun x => (x l - mu k l) ^ 2 := by
  by_cases hm : 'm' ∈ ps
  · have := Sfun_muNext_le (g := g0) (cp := fun _ _ => 0) hm hT (i := k)
      (by simpa [g0] using hN k) mu l (mu k l)
    simpa [Sfun, g0] using this
  · simp [Gaussian.muNext, hm]

/-- Component updates with diagonal covariance. -/
theorem diag_improves (hT : PosLin T) (hN : ∀ k, 0 < T k fun _ => 1) (ps : List Char)
    (mu v v' : Fin nm → Fin nf → ℝ)
    (hv : v' = v ∨ v' = fun k l => (T k fun x => (x l - mu k l) ^ 2) / T k fun _ => 1) (k : Fin nm) :
    0 ≤ T k fun x => Real.log (diagB (Gaussian.muNext g0 ps mu T) v' x k / diagB mu v x k) := by
  rw [T_log_ratio hT]
  refine Finset.sum_nonneg fun l _ => ?_
  have h1 := div_le_div_of_nonneg_right (sq_muNext_le hT hN ps mu k l) (effVar_pos (v' k l)).le
  have h2 : (T k fun _ => 1) * Real.log (effVar (v' k l)) +
      (T k fun x => (x l - mu k l) ^ 2) / effVar (v' k l) ≤
      (T k fun _ => 1) * Real.log (effVar (v k l)) +
      (T k fun x => (x l - mu k l) ^ 2) / effVar (v k l) := by
    rcases hv with rfl | rfl
    · exact le_rfl
    · exact var_opt (hN k) (hT.nonneg k _ fun x => sq_nonneg _) tinyVar_pos (le_max_right _ _)
  linarith

/-- Component updates with spherical covariance. -/
theorem spherical_improves [NeZero nf] (hT : PosLin T) (hN : ∀ k, 0 < T k fun _ => 1) (ps : List Char)
    (mu : Fin nm → Fin nf → ℝ) (v v' : Fin nm → ℝ)
    (hv : v' = v ∨ v' = fun k => T k (dist2 (mu k)) / (nf * T k fun _ => 1)) (k : Fin nm) :
    0 ≤ T k fun x => Real.log (diagB (Gaussian.muNext g0 ps mu T) (fun k _ => v' k) x k /
      diagB mu (fun k _ => v k) x k) := by
  rw [T_log_ratio hT]
  have hnf : (0 : ℝ) < nf := by exact_mod_cast Nat.pos_of_ne_zero (NeZero.ne nf)
  have hd : T k (dist2 (mu k)) = ∑ l, T k fun x => (x l - mu k l) ^ 2 := by
    rw [← hT.sum]; rfl
  have h1 : ∑ l, (T k fun x => (x l - Gaussian.muNext g0 ps mu T k l) ^ 2) / effVar (v' k) ≤
      ∑ l, (T k fun x => (x l - mu k l) ^ 2) / effVar (v' k) :=
    Finset.sum_le_sum fun l _ =>
      div_le_div_of_nonneg_right (sq_muNext_le hT hN ps mu k l) (effVar_pos _).le
  have h2 : (nf * T k fun _ => 1) * Real.log (effVar (v' k)) + T k (dist2 (mu k)) / effVar (v' k) ≤
      (nf * T k fun _ => 1) * Real.log (effVar (v k)) + T k (dist2 (mu k)) / effVar (v k) := by
    rcases hv with rfl | rfl
    · exact le_rfl
    · exact var_opt (mul_pos hnf (hN k))
        (hT.nonneg k _ fun x => Finset.sum_nonneg fun l _ => sq_nonneg _) tinyVar_pos (le_max_right _ _)
  rw [hd, Finset.sum_div, Finset.sum_div] at h2
  simp only [Finset.sum_sub_distrib, ← Finset.mul_sum, Finset.sum_add_distrib, Finset.sum_const,
    Finset.card_univ, Fintype.card_fin, nsmul_eq_mul]
  linarith

theorem SM_g0 (k : Fin nm) (μ : Fin nf → ℝ) : SM g0 T k μ = scat T k μ := by
  simp [SM, g0]

theorem trace_scat_le (hT : PosLin T) (hN : ∀ k, 0 < T k fun _ => 1) (ps : List Char)
    (mu : Fin nm → Fin nf → ℝ) (k : Fin nm) {P : Matrix (Fin nf) (Fin nf) ℝ} (hP : P.PosSemidef) :
    (P * scat T k (Gaussian.muNext g0 ps mu T k)).trace ≤ (P * scat T k (mu k)).trace := by
  by_cases hm : 'm' ∈ ps
  · have := trace_SM_le (g := g0) hm hT (by simpa [g0] using hN k) mu (mu k) hP
    rwa [SM_g0, SM_g0] at this
  · have : Gaussian.muNext g0 ps mu T k = mu k := by funext l; simp [Gaussian.muNext, hm]
    rw [this]

/-- Component updates with full covariance. -/
theorem full_improves (hT : PosLin T) (hN : ∀ k, 0 < T k fun _ => 1) (ps : List Char)
    (mu : Fin nm → Fin nf → ℝ) (S S' : Fin nm → Matrix (Fin nf) (Fin nf) ℝ)
    (hS : ∀ k, (S k).PosSemidef) (k : Fin nm)
    (hv : S' = S ∨ S' k = (T k fun _ => 1)⁻¹ • scat T k (mu k) ∧ (S' k).PosDef) :
    0 ≤ T k fun x => Real.log (fullB (Gaussian.muNext g0 ps mu T) S' x k / fullB mu S x k) := by
  have hV := posDef_effCov (hS k)
  have hV' : (effCov (S' k)).PosDef := by
    rcases hv with rfl | ⟨_, h⟩
    · exact hV
    · exact posDef_effCov h.posSemidef
  have hr := T_log_ratio_mvn hT k hV hV' (mu k) (Gaussian.muNext g0 ps mu T k)
  refine le_of_le_of_eq ?_ hr.symm
  have h1 := trace_scat_le hT hN ps mu k (inv_psd hV')
  have h2 : (T k fun _ => 1) * Real.log (effCov (S' k)).det + ((effCov (S' k))⁻¹ * scat T k (mu k)).trace ≤
      (T k fun _ => 1) * Real.log (effCov (S k)).det + ((effCov (S k))⁻¹ * scat T k (mu k)).trace := by
    rcases hv with rfl | ⟨e, h⟩
    · exact le_rfl
    · have heff : effCov (S' k) = S' k := if_pos h
      rw [heff, e]
      exact cov_opt (hN k) hV (by rw [← e]; exact h)
  linarith

/-- Component updates with one covariance per state. -/
theorem tied_improves [NeZero nm] (hT : PosLin T) (hN : ∀ k, 0 < T k fun _ => 1) (ps : List Char)
    (mu : Fin nm → Fin nf → ℝ) (S S' : Matrix (Fin nf) (Fin nf) ℝ) (hS : S.PosSemidef)
    (hv : S' = S ∨ S' = (∑ k, T k fun _ => 1)⁻¹ • ∑ k, scat T k (mu k) ∧ S'.PosDef) :
    0 ≤ ∑ k, T k fun x => Real.log (fullB (Gaussian.muNext g0 ps mu T) (fun _ => S') x k /
      fullB mu (fun _ => S) x k) := by
  have hV := posDef_effCov hS
  have hV' : (effCov S').PosDef := by
    rcases hv with rfl | ⟨_, h⟩
    · exact hV
    · exact posDef_effCov h.posSemidef
  have hr := fun k => T_log_ratio_mvn hT k hV hV' (mu k) (Gaussian.muNext g0 ps mu T k)
  refine le_of_le_of_eq ?_ (Finset.sum_congr rfl fun k _ => (hr k).symm)
  have h1 : ∑ k, ((effCov S')⁻¹ * scat T k (Gaussian.muNext g0 ps mu T k)).trace ≤
      ∑ k, ((effCov S')⁻¹ * scat T k (mu k)).trace :=
    Finset.sum_le_sum fun k _ => trace_scat_le hT hN ps mu k (inv_psd hV')
  have h2 : (∑ k, T k fun _ => 1) * Real.log (effCov S').det +
        ((effCov S')⁻¹ * ∑ k, scat T k (mu k)).trace ≤
      (∑ k, T k fun _ => 1) * Real.log (effCov S).det + ((effCov S)⁻¹ * ∑ k, scat T k (mu k)).trace := by
    rcases hv with rfl | ⟨e, h⟩
    · exact le_rfl
    · have heff : effCov S' = S' := if_pos h
      rw [heff, e]
      exact cov_opt (Finset.sum_pos (fun k _ => hN k) ⟨0, Finset.mem_univ _⟩) hV (by rw [← e]; exact h)
  simp only [Matrix.mul_sum, Matrix.trace_sum] at h2
  rw [Finset.sum_sub_distrib, ← Finset.mul_sum, ← Finset.mul_sum, Finset.sum_add_distrib,
    Finset.sum_add_distrib, ← Finset.sum_mul, ← Finset.sum_mul]
  linarith

end
end Gmm
end Verif
