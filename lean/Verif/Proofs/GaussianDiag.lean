import Verif.Model.Gaussian
import Verif.Proofs.EmissionUtil
import Verif.Proofs.CategoricalFamily
import Verif.Spec.Gaussian

/-!
# EM for `GaussianHMM` with diagonal and spherical covariances
-/

namespace Verif
open FloatLike XF Hmmc Spec
open scoped Classical

variable {nc nf : ℕ}

theorem stdMax_fin (a b : ℝ) : stdMax (fin a) (fin b) = fin (max a b) := by
  simp only [stdMax, fin_lt]
  by_cases h : a < b
  · simp [h, max_eq_right h.le]
  · simp [h, max_eq_left (not_lt.1 h)]

theorem tinyVar_pos : 0 < tinyVar := by unfold tinyVar; positivity

theorem effVar_pos (v : ℝ) : 0 < effVar v := lt_of_lt_of_le tinyVar_pos (le_max_right _ _)

theorem effVar_eq {v : ℝ} (h : tinyVar ≤ v) : effVar v = v := max_eq_left h

theorem normalPdf_pos {v : ℝ} (hv : 0 < v) (μ x : ℝ) : 0 < normalPdf μ v x := by
  unfold normalPdf
  have := Real.pi_pos
  positivity

/-- The variable part of the log-density. -/
noncomputable def normalG (μ v x : ℝ) : ℝ := -(1 / 2) * (Real.log v + (x - μ) ^ 2 / v)

theorem log_normalPdf {v : ℝ} (hv : 0 < v) (μ x : ℝ) :
    Real.log (normalPdf μ v x) = -(1 / 2) * Real.log (2 * Real.pi) + normalG μ v x := by
  have hpi := Real.pi_pos
  unfold normalPdf normalG
  rw [Real.log_div (Real.exp_pos _).ne' (Real.sqrt_pos.2 (by positivity)).ne', Real.log_exp,
    Real.log_sqrt (by positivity), Real.log_mul (by positivity) hv.ne']
  field_simp
  ring

namespace Gaussian

theorem tiny_eq : (tiny : XF) = fin tinyVar := by
  simp only [tiny, ofRat_def, tinyVar, Rat.cast_div, Rat.cast_one, Rat.cast_pow, Rat.cast_ofNat]

theorem half_eq : (ofRat (-1 / 2) : XF) = fin (-(1 / 2)) := by
  rw [ofRat_def]; congr 1; norm_num

theorem sq_fin (x : ℝ) : sq (fin x) = fin (x ^ 2) := by rw [sq, fin_mul, pow_two]

theorem logTwoPi_fin (n : ℕ) : (logTwoPi n : XF) = fin (n * Real.log (2 * Real.pi)) := by
  have := Real.pi_pos
  unfold logTwoPi
  rw [ofNat'_def, ofNat'_def, pi_def, fin_mul, lg_def, lg_pos (by push_cast; positivity), fin_mul]
  push_cast; rfl

/-- The diagonal log-density is the logarithm of the product of normal densities. -/
theorem logDensityDiag_fin (μ v x : Fin nf → ℝ) :
    logDensityDiag (fun k => fin (μ k)) (fun k => fin (v k)) (fun k => fin (x k)) =
      lg (∏ k, normalPdf (μ k) (effVar (v k)) (x k)) := by
  unfold logDensityDiag
  simp only [memo_eq, tiny_eq, npMaximum_fin, logTwoPi_fin, half_eq, fin_sub, sq_fin]
  have e1 : ∀ k, FloatLike.log (fin (max (v k) tinyVar)) = fin (Real.log (effVar (v k))) := fun k => by
    rw [lg_def]; exact lg_pos (effVar_pos _)
  have e2 : ∀ k, (fin ((x k - μ k) ^ 2) / fin (max (v k) tinyVar) : XF) =
      fin ((x k - μ k) ^ 2 / effVar (v k)) := fun k => fin_div _ _ (effVar_pos (v k)).ne'
  simp only [e1, e2, sumF_fin, fin_add, fin_mul]
  rw [lg_pos (Finset.prod_pos fun k _ => normalPdf_pos (effVar_pos _) _ _),
    Real.log_prod fun k _ => (normalPdf_pos (effVar_pos _) _ _).ne']
  congr 1
  simp only [log_normalPdf (effVar_pos _), normalG, Finset.sum_add_distrib, ← Finset.mul_sum,
    Finset.sum_const, Finset.card_univ, Fintype.card_fin, nsmul_eq_mul]
  ring

/-- A sample as a row of `X`. -/
noncomputable def row (x : Fin nf → ℝ) : Obs XF nf := fun k => fin (x k)

/-- The prior as constructor arguments. -/
noncomputable def prior (g : GaussPrior nc nf) : Prior XF nc nf :=
  ⟨fun i k => fin (g.mp i k), fin g.mw, fin g.cw⟩

/-- New means. -/
noncomputable def muNext (g : GaussPrior nc nf) (ps : List Char) (mu : Fin nc → Fin nf → ℝ)
    (T : Fin nc → ((Fin nf → ℝ) → ℝ) → ℝ) (i : Fin nc) (k : Fin nf) : ℝ :=
  if 'm' ∈ ps then (g.mw * g.mp i k + T i fun x => x k) / (g.mw + T i fun _ => 1) else mu i k

/-- New variances, `diag`, in terms of the new means. -/
noncomputable def varNext (g : GaussPrior nc nf) (cp : Fin nc → Fin nf → ℝ) (ps : List Char)
    (mu : Fin nc → Fin nf → ℝ) (T : Fin nc → ((Fin nf → ℝ) → ℝ) → ℝ) (i : Fin nc) (k : Fin nf) : ℝ :=
  (cp i k + (g.mw * (mu i k - g.mp i k) ^ 2 + (T i fun x => x k ^ 2) -
      2 * mu i k * gate ps 'm' (T i fun x => x k) + mu i k ^ 2 * gate ps 'm' (T i fun _ => 1))) /
    max (max (g.cw - 1) 0 + gate ps 'm' (T i fun _ => 1)) (1 / 10 ^ 5)

/-- Statistics. -/
noncomputable def statDiag (ps : List Char) (T : Fin nc → ((Fin nf → ℝ) → ℝ) → ℝ) :
    DiagStats XF nc nf :=
  ⟨fun i => fin (gate ps 'm' (T i fun _ => 1)), fun i k => fin (gate ps 'm' (T i fun x => x k)),
    fun i k => fin (gate ps 'c' (T i fun x => x k ^ 2))⟩

theorem accDiag_stat [NeZero nc] (ps : List Char) (T : Fin nc → ((Fin nf → ℝ) → ℝ) → ℝ)
    (π : Fin nc → ℝ) (A : Fin nc → Fin nc → ℝ) (b : (Fin nf → ℝ) → Fin nc → ℝ)
    (s : ObsSeq (Fin nf → ℝ)) :
    accDiag ps (statDiag ps T) (s.rows row) (postRows π A (s.weights b)) =
      statDiag ps fun i f => T i f + ∑ t, posterior π A (s.weights b) t i * f (s.x t) := by
  simp only [accDiag, statDiag, gate, memo_eq, postRows, ObsSeq.rows]
  congr 1
  · by_cases hm : 'm' ∈ ps
    · simp only [hm, if_true]
      funext i
      rw [sumPost_ofFn]; simp
    · simp [hm]
  · by_cases hm : 'm' ∈ ps
    · simp only [hm, if_true]
      funext i k
      rw [dotPost_ofFn _ _ (fun x : Obs XF nf => x k) (fun t => s.x t k) (fun t => rfl)]; simp
    · simp [hm]
  · by_cases hc : 'c' ∈ ps
    · simp only [hc, if_true]
      funext i k
      rw [dotPost_ofFn _ _ _ (fun t => s.x t k ^ 2) (fun t => by simp only [row, sq_fin])]; simp
    · simp [hc]

theorem mstepMeans_fin (g : GaussPrior nc nf) (N : Fin nc → ℝ) (O : Fin nc → Fin nf → ℝ)
    (h : ∀ i, g.mw + N i ≠ 0) :
    mstepMeans (prior g) (fun i => fin (N i)) (fun i k => fin (O i k)) =
      fun i k => fin ((g.mw * g.mp i k + O i k) / (g.mw + N i)) := by
  simp only [mstepMeans, prior, memo_eq, fin_mul, fin_add]
  funext i k
  rw [fin_div _ _ (h i)]

theorem mstepCovarsDiag_fin (g : GaussPrior nc nf) (cp mu : Fin nc → Fin nf → ℝ) (N : Fin nc → ℝ)
    (O O2 : Fin nc → Fin nf → ℝ) :
    mstepCovarsDiag (prior g) (fun i k => fin (cp i k)) (fun i k => fin (mu i k))
      ⟨fun i => fin (N i), fun i k => fin (O i k), fun i k => fin (O2 i k)⟩ =
    fun i k => fin ((cp i k + (g.mw * (mu i k - g.mp i k) ^ 2 + O2 i k - 2 * mu i k * O i k +
      mu i k ^ 2 * N i)) / max (max (g.cw - 1) 0 + N i) (1 / 10 ^ 5)) := by
  have e5 : (ofRat (1 / 10 ^ 5) : XF) = fin (1 / 10 ^ 5) := by rw [ofRat_def]; congr 1; norm_num
  simp only [mstepCovarsDiag, prior, memo_eq, fin_mul, fin_add, fin_sub, sq_fin, ofNat'_def,
    one_def, zero_def, stdMax_fin, npMaximum_fin, e5]
  funext i k
  rw [fin_div _ _ (lt_max_of_lt_right (by norm_num)).ne']
  push_cast; rfl

/-- Means and variances. -/
structure RDiag (nc nf : ℕ) where
  mu : Fin nc → Fin nf → ℝ
  v : Fin nc → Fin nf → ℝ

theorem diagB_pos (mu v : Fin nc → Fin nf → ℝ) (o : Fin nf → ℝ) (i : Fin nc) : 0 < diagB mu v o i :=
  Finset.prod_pos fun _ _ => normalPdf_pos (effVar_pos _) _ _

theorem loglikDiag_fin (mu v : Fin nc → Fin nf → ℝ) (X : List (Fin nf → ℝ)) :
    loglikDiag (⟨fun i k => fin (mu i k), fun i k => fin (v i k)⟩ : DiagParams XF nc nf)
      (X.map row) = X.map fun o i => FloatLike.log (fin (diagB mu v o i)) := by
  simp only [loglikDiag, List.map_map, memo_eq]
  refine List.map_congr_left fun x _ => ?_
  funext i
  exact logDensityDiag_fin _ _ _

theorem expRows_log {D : Type} (b : D → Fin nc → ℝ) (hb : ∀ o i, 0 ≤ b o i) (X : List D) :
    expRows (X.map fun o i => FloatLike.log (fin (b o i))) = X.map fun o i => fin (b o i) := by
  simp only [expRows, List.map_map, memo_eq]
  refine List.map_congr_left fun x _ => ?_
  funext i
  exact lg_exp (hb x i)

variable [NeZero nc]

/-- `GaussianHMM(covariance_type="diag")`. -/
noncomputable def diagFamily (g : GaussPrior nc nf) (cp : Fin nc → Fin nf → ℝ) (ps : List Char) :
    Family (emissionDiag (prior g) fun i k => fin (cp i k)) (row (nf := nf)) ps (RDiag nc nf) where
  embed q := ⟨fun i k => fin (q.mu i k), fun i k => fin (q.v i k)⟩
  b q := diagB q.mu q.v
  b_nonneg q x i := (diagB_pos _ _ _ _).le
  lik_eq q X := by
    simp only [emissionDiag, loglikDiag_fin]
    rw [expRows_log _ fun o i => (diagB_pos _ _ _ _).le]
  loglik_eq q X := by simp only [emissionDiag, loglikDiag_fin]
  stat q T := statDiag ps T
  emFold_eq q π A ss := by
    refine emFold_of_acc (statDiag ps) ?_ ?_ ss
    · simp [emissionDiag, DiagStats.zero, statDiag, gate]
    · intro T s
      simp only [emissionDiag, accDiag_stat]
  next q T :=
    let mu := muNext g ps q.mu T
    ⟨mu, if 'c' ∈ ps then varNext g cp ps mu T else q.v⟩
  Good q T := 'm' ∈ ps → ∀ i, g.mw + T i (fun _ => 1) ≠ 0
  mstep_eq q T hT hg := by
    have hm : (if 'm' ∈ ps then mstepMeans (prior g) (statDiag ps T).post (statDiag ps T).obs else
        fun i k => fin (q.mu i k)) = fun i k => fin (muNext g ps q.mu T i k) := by
      by_cases hm : 'm' ∈ ps
      · simp only [hm, if_true, statDiag, gate, muNext]
        exact mstepMeans_fin g _ _ (hg hm)
      · simp only [hm, if_false, muNext]
    simp only [emissionDiag, mstepDiag, hm]
    by_cases hc : 'c' ∈ ps
    · simp only [hc, if_true, statDiag, mstepCovarsDiag_fin]
      congr 1
      funext i k
      simp [varNext, gate, hc]
    · simp only [hc, if_false]

/-- Means and one variance per state. -/
structure RSph (nc nf : ℕ) where
  mu : Fin nc → Fin nf → ℝ
  v : Fin nc → ℝ

/-- `GaussianHMM(covariance_type="spherical")`. -/
noncomputable def sphFamily [NeZero nf] (g : GaussPrior nc nf) (cp : Fin nc → Fin nf → ℝ)
    (ps : List Char) :
    Family (emissionSpherical (prior g) fun i k => fin (cp i k)) (row (nf := nf)) ps (RSph nc nf) where
  embed q := ⟨fun i k => fin (q.mu i k), fun i _ => fin (q.v i)⟩
  b q := diagB q.mu fun i _ => q.v i
  b_nonneg q x i := (diagB_pos _ _ _ _).le
  lik_eq q X := by
    have := loglikDiag_fin q.mu (fun i _ => q.v i) X
    simp only [emissionSpherical, this]
    rw [expRows_log _ fun o i => (diagB_pos _ _ _ _).le]
  loglik_eq q X := by
    have := loglikDiag_fin q.mu (fun i _ => q.v i) X
    simp only [emissionSpherical, this]
  stat q T := statDiag ps T
  emFold_eq q π A ss := by
    refine emFold_of_acc (statDiag ps) ?_ ?_ ss
    · simp [emissionSpherical, DiagStats.zero, statDiag, gate]
    · intro T s
      simp only [emissionSpherical, accDiag_stat]
  next q T :=
    let mu := muNext g ps q.mu T
    ⟨mu, if 'c' ∈ ps then fun i => (∑ k, varNext g cp ps mu T i k) / nf else q.v⟩
  Good q T := 'm' ∈ ps → ∀ i, g.mw + T i (fun _ => 1) ≠ 0
  mstep_eq q T hT hg := by
    have hm : (if 'm' ∈ ps then mstepMeans (prior g) (statDiag ps T).post (statDiag ps T).obs else
        fun i k => fin (q.mu i k)) = fun i k => fin (muNext g ps q.mu T i k) := by
      by_cases hm : 'm' ∈ ps
      · simp only [hm, if_true, statDiag, gate, muNext]
        exact mstepMeans_fin g _ _ (hg hm)
      · simp only [hm, if_false, muNext]
    simp only [emissionSpherical, mstepSpherical, hm]
    by_cases hc : 'c' ∈ ps
    · simp only [hc, if_true, statDiag, mstepCovarsDiag_fin, tileMean, memo_eq, sumF_fin, ofNat'_def]
      congr 1
      funext i _
      rw [fin_div _ _ (Nat.cast_ne_zero.2 (NeZero.ne nf))]
      congr 2
      refine Finset.sum_congr rfl fun k _ => ?_
      simp [varNext, gate, hc]
    · simp only [hc, if_false]

/-! ## The update maximises -/

omit [NeZero nc] in
/-- Minimum of `n log v + S / v` over `v ≥ t`. -/
theorem var_opt {n S t v : ℝ} (hn : 0 < n) (hS : 0 ≤ S) (ht : 0 < t) (hv : t ≤ v) :
    n * Real.log (max (S / n) t) + S / max (S / n) t ≤ n * Real.log v + S / v := by
  have hv0 : 0 < v := ht.trans_le hv
  set w := max (S / n) t with hw
  have hw0 : 0 < w := lt_of_lt_of_le ht (le_max_right _ _)
  -- log (w / v) ≤ w / v - 1
  have h1 := Real.log_le_sub_one_of_pos (div_pos hw0 hv0)
  rw [Real.log_div hw0.ne' hv0.ne'] at h1
  have h2 : n * (Real.log w - Real.log v) ≤ n * (w / v - 1) := mul_le_mul_of_nonneg_left h1 hn.le
  have h3 : n * (w / v - 1) ≤ S / v - S / w := by
    have e : S / v - S / w = (S / w) * (w / v - 1) := by field_simp
    rw [e]
    rcases le_total (S / n) t with h | h
    · have hwt : w = t := max_eq_right h
      have h4 : w / v - 1 ≤ 0 := by
        have : w / v ≤ 1 := (div_le_one hv0).2 (hwt ▸ hv)
        linarith
      have h5 : S / w ≤ n := by
        rw [div_le_iff₀ hw0, hwt]
        have := (div_le_iff₀ hn).1 h
        linarith
      exact mul_le_mul_of_nonpos_right h5 h4
    · have hwS : w = S / n := max_eq_left h
      have : S / w = n := by
        rw [hwS] at hw0 ⊢
        have hSpos : S ≠ 0 := fun h0 => by rw [h0, zero_div] at hw0; exact lt_irrefl _ hw0
        field_simp
      rw [this]
  linarith

omit [NeZero nc] in
/-- The penalised quadratic is minimal at the weighted mean. -/
theorem mean_opt {mw mp N T1 T2 c μ : ℝ} (h : 0 < mw + N) :
    c + mw * ((mw * mp + T1) / (mw + N) - mp) ^ 2 +
        (T2 - 2 * ((mw * mp + T1) / (mw + N)) * T1 + ((mw * mp + T1) / (mw + N)) ^ 2 * N) ≤
      c + mw * (μ - mp) ^ 2 + (T2 - 2 * μ * T1 + μ ^ 2 * N) := by
  have e : (c + mw * (μ - mp) ^ 2 + (T2 - 2 * μ * T1 + μ ^ 2 * N)) -
      (c + mw * ((mw * mp + T1) / (mw + N) - mp) ^ 2 +
        (T2 - 2 * ((mw * mp + T1) / (mw + N)) * T1 + ((mw * mp + T1) / (mw + N)) ^ 2 * N)) =
      (mw + N) * (μ - (mw * mp + T1) / (mw + N)) ^ 2 := by
    field_simp
    ring
  have := mul_nonneg h.le (sq_nonneg (μ - (mw * mp + T1) / (mw + N)))
  linarith

omit [NeZero nc] in
theorem T_sq {T : Fin nc → ((Fin nf → ℝ) → ℝ) → ℝ} (hT : PosLin T) (i : Fin nc) (k : Fin nf) (μ : ℝ) :
    T i (fun x => (x k - μ) ^ 2) =
      T i (fun x => x k ^ 2) - 2 * μ * T i (fun x => x k) + μ ^ 2 * T i (fun _ => 1) := by
  have e : (fun x : Fin nf → ℝ => (x k - μ) ^ 2) =
      fun x => (x k ^ 2 - (2 * μ) * x k) + μ ^ 2 * 1 := by funext x; ring
  rw [e, hT.add, hT.sub, hT.smul, hT.smul]

omit [NeZero nc] in
theorem T_normalG {T : Fin nc → ((Fin nf → ℝ) → ℝ) → ℝ} (hT : PosLin T) (i : Fin nc) (k : Fin nf)
    (μ v : ℝ) : T i (fun x => normalG μ v (x k)) =
      -(1 / 2) * (T i (fun _ => 1) * Real.log v + T i (fun x => (x k - μ) ^ 2) / v) := by
  have e : (fun x : Fin nf → ℝ => normalG μ v (x k)) =
      fun x => -(1 / 2) * (Real.log v + (1 / v) * (x k - μ) ^ 2) := by
    funext x; unfold normalG; ring
  rw [e, hT.smul, hT.add, hT.smul, hT.const]
  ring

omit [NeZero nc] in
theorem log_ratio (mu v mu' v' : Fin nc → Fin nf → ℝ) (o : Fin nf → ℝ) (i : Fin nc) :
    Real.log (diagB mu' v' o i / diagB mu v o i) =
      ∑ k, (normalG (mu' i k) (effVar (v' i k)) (o k) - normalG (mu i k) (effVar (v i k)) (o k)) := by
  rw [Real.log_div (diagB_pos _ _ _ _).ne' (diagB_pos _ _ _ _).ne']
  unfold diagB
  rw [Real.log_prod fun k _ => (normalPdf_pos (effVar_pos _) _ _).ne',
    Real.log_prod fun k _ => (normalPdf_pos (effVar_pos _) _ _).ne', ← Finset.sum_sub_distrib]
  refine Finset.sum_congr rfl fun k _ => ?_
  rw [log_normalPdf (effVar_pos _), log_normalPdf (effVar_pos _)]
  ring

omit [NeZero nc] in
theorem T_log_ratio {T : Fin nc → ((Fin nf → ℝ) → ℝ) → ℝ} (hT : PosLin T)
    (mu v mu' v' : Fin nc → Fin nf → ℝ) (i : Fin nc) :
    T i (fun o => Real.log (diagB mu' v' o i / diagB mu v o i)) =
      ∑ k, (-(1 / 2) * (T i (fun _ => 1) * Real.log (effVar (v' i k)) +
          T i (fun x => (x k - mu' i k) ^ 2) / effVar (v' i k)) -
        -(1 / 2) * (T i (fun _ => 1) * Real.log (effVar (v i k)) +
          T i (fun x => (x k - mu i k) ^ 2) / effVar (v i k))) := by
  simp only [log_ratio]
  rw [hT.sum]
  refine Finset.sum_congr rfl fun k _ => ?_
  rw [hT.sub, T_normalG hT, T_normalG hT]

omit [NeZero nc] in
/-- Sum of squares including the prior, as a function of the mean. -/
noncomputable def Sfun (g : GaussPrior nc nf) (cp : Fin nc → Fin nf → ℝ)
    (T : Fin nc → ((Fin nf → ℝ) → ℝ) → ℝ) (i : Fin nc) (k : Fin nf) (μ : ℝ) : ℝ :=
  cp i k + g.mw * (μ - g.mp i k) ^ 2 + T i fun x => (x k - μ) ^ 2

omit [NeZero nc] in
theorem Sfun_nonneg {g : GaussPrior nc nf} {cp : Fin nc → Fin nf → ℝ} (hp : g.Proper cp)
    {T : Fin nc → ((Fin nf → ℝ) → ℝ) → ℝ} (hT : PosLin T) (i : Fin nc) (k : Fin nf) (μ : ℝ) :
    0 ≤ Sfun g cp T i k μ :=
  add_nonneg (add_nonneg (hp.cp i k) (mul_nonneg hp.mw (sq_nonneg _)))
    (hT.nonneg i _ fun x => sq_nonneg _)

omit [NeZero nc] in
theorem Sfun_muNext_le {g : GaussPrior nc nf} {cp : Fin nc → Fin nf → ℝ} {ps : List Char}
    (hm : 'm' ∈ ps) {T : Fin nc → ((Fin nf → ℝ) → ℝ) → ℝ} (hT : PosLin T) {i : Fin nc}
    (hN : 0 < g.mw + T i fun _ => 1) (mu : Fin nc → Fin nf → ℝ) (k : Fin nf) (μ : ℝ) :
    Sfun g cp T i k (muNext g ps mu T i k) ≤ Sfun g cp T i k μ := by
  unfold Sfun
  rw [T_sq hT, T_sq hT]
  simp only [muNext, hm, if_true]
  exact mean_opt hN

omit [NeZero nc] in
theorem varNext_eq {g : GaussPrior nc nf} {cp : Fin nc → Fin nf → ℝ} (hp : g.Proper cp)
    {ps : List Char} (hm : 'm' ∈ ps) {T : Fin nc → ((Fin nf → ℝ) → ℝ) → ℝ} (hT : PosLin T)
    {i : Fin nc} (hN : 1 / 10 ^ 5 ≤ g.cw - 1 + T i fun _ => 1) (mu : Fin nc → Fin nf → ℝ)
    (k : Fin nf) :
    varNext g cp ps mu T i k = Sfun g cp T i k (mu i k) / (g.cw - 1 + T i fun _ => 1) := by
  have hcw := hp.cw
  simp only [varNext, gate, hm, if_true, Sfun, T_sq hT]
  rw [max_eq_left (by linarith : (0 : ℝ) ≤ g.cw - 1), max_eq_left hN]
  congr 1
  ring

omit [NeZero nc] in
/-- The objective per state and coordinate. -/
noncomputable def Jfun (g : GaussPrior nc nf) (cp : Fin nc → Fin nf → ℝ)
    (T : Fin nc → ((Fin nf → ℝ) → ℝ) → ℝ) (i : Fin nc) (k : Fin nf) (μ v : ℝ) : ℝ :=
  (g.cw - 1 + T i fun _ => 1) * Real.log v + Sfun g cp T i k μ / v

omit [NeZero nc] in
/-- Likelihood gain and prior gain in terms of `Jfun`. -/
theorem gain_J {g : GaussPrior nc nf} {cp : Fin nc → Fin nf → ℝ}
    {T : Fin nc → ((Fin nf → ℝ) → ℝ) → ℝ} (hT : PosLin T) (mu v mu' v' : Fin nc → Fin nf → ℝ)
    (h : ∀ i, ∑ k, Jfun g cp T i k (mu' i k) (effVar (v' i k)) ≤
      ∑ k, Jfun g cp T i k (mu i k) (effVar (v i k))) :
    diagLogPrior g cp mu v - diagLogPrior g cp mu' v' ≤
      ∑ i, T i (fun o => Real.log (diagB mu' v' o i / diagB mu v o i)) := by
  unfold diagLogPrior
  rw [← Finset.sum_sub_distrib]
  refine Finset.sum_le_sum fun i _ => ?_
  rw [T_log_ratio hT, ← Finset.sum_sub_distrib, ← sub_nonneg, ← Finset.sum_sub_distrib]
  have h2 := h i
  rw [← sub_nonneg, ← Finset.sum_sub_distrib] at h2
  have e : (∑ k, (Jfun g cp T i k (mu i k) (effVar (v i k)) -
      Jfun g cp T i k (mu' i k) (effVar (v' i k)))) * (1 / 2) = _ := Finset.sum_mul _ _ _
  have h3 : 0 ≤ (∑ k, (Jfun g cp T i k (mu i k) (effVar (v i k)) -
      Jfun g cp T i k (mu' i k) (effVar (v' i k)))) * (1 / 2) := by positivity
  rw [e] at h3
  refine h3.trans_eq (Finset.sum_congr rfl fun k _ => ?_)
  unfold Jfun Sfun
  ring

theorem diag_b_pos {g : GaussPrior nc nf} {cp : Fin nc → Fin nf → ℝ} {ps : List Char}
    (q : RDiag nc nf) (o : Fin nf → ℝ) (i : Fin nc) : 0 < (diagFamily g cp ps).b q o i :=
  diagB_pos q.mu q.v o i

theorem diag_ac {g : GaussPrior nc nf} {cp : Fin nc → Fin nf → ℝ} {ps : List Char}
    (ss : List (ObsSeq (Fin nf → ℝ))) (r : RParams nc (RDiag nc nf)) :
    (diagFamily g cp ps).Ac ss r := fun _ _ _ _ _ => diag_b_pos _ _ _

/-- One update of means and variances does not decrease the penalised likelihood. -/
theorem diag_gains {g : GaussPrior nc nf} {cp : Fin nc → Fin nf → ℝ} (hp : g.Proper cp)
    {ps : List Char} (hcm : 'c' ∈ ps → 'm' ∈ ps) (ss : List (ObsSeq (Fin nf → ℝ)))
    (r : RParams nc (RDiag nc nf)) (h : r.Valid)
    (hN : 'm' ∈ ps → ∀ i, 0 < g.mw + obsStat r.π r.A (diagB r.q.mu r.q.v) ss i fun _ => 1)
    (hN2 : 'c' ∈ ps → ∀ i,
      1 / 10 ^ 5 ≤ g.cw - 1 + obsStat r.π r.A (diagB r.q.mu r.q.v) ss i fun _ => 1) :
    (diagFamily g cp ps).Gains ss r (diagLogPrior g cp r.q.mu r.q.v -
      diagLogPrior g cp
        ((diagFamily g cp ps).next r.q (obsStat r.π r.A (diagB r.q.mu r.q.v) ss)).mu
        ((diagFamily g cp ps).next r.q (obsStat r.π r.A (diagB r.q.mu r.q.v) ss)).v) := by
  refine ⟨diag_ac ss r, ?_⟩
  set T := obsStat r.π r.A (diagB r.q.mu r.q.v) ss with hTd
  have hT : PosLin T := obsStat_posLin h.π_nonneg h.A_nonneg (fun o i => (diagB_pos _ _ _ _).le) ss
  rw [emissionGain_eq]
  refine gain_J hT r.q.mu r.q.v _ _ fun i => Finset.sum_le_sum fun k _ => ?_
  have hcw := hp.cw
  have hN0 : 0 ≤ T i fun _ => 1 := hT.nonneg i _ fun _ => zero_le_one
  have hmu : Sfun g cp T i k (muNext g ps r.q.mu T i k) ≤ Sfun g cp T i k (r.q.mu i k) := by
    by_cases hm : 'm' ∈ ps
    · exact Sfun_muNext_le hm hT (hN hm i) _ _ _
    · simp [muNext, hm]
  by_cases hc : 'c' ∈ ps
  · have e : ((diagFamily g cp ps).next r.q T).v i k =
        Sfun g cp T i k (muNext g ps r.q.mu T i k) / (g.cw - 1 + T i fun _ => 1) := by
      simp only [diagFamily, hc, if_true]
      exact varNext_eq hp (hcm hc) hT (hN2 hc i) _ _
    have hpos : 0 < g.cw - 1 + T i fun _ => 1 := lt_of_lt_of_le (by norm_num) (hN2 hc i)
    have h1 := var_opt hpos (Sfun_nonneg hp hT i k (muNext g ps r.q.mu T i k)) tinyVar_pos
      (le_max_right (r.q.v i k) tinyVar)
    rw [e]
    refine le_trans h1 (add_le_add le_rfl ?_)
    exact div_le_div_of_nonneg_right hmu (effVar_pos _).le
  · have e : ((diagFamily g cp ps).next r.q T).v i k = r.q.v i k := by
      simp only [diagFamily, hc, if_false]
    rw [e]
    exact add_le_add le_rfl (div_le_div_of_nonneg_right hmu (effVar_pos _).le)

theorem sph_b_pos [NeZero nf] {g : GaussPrior nc nf} {cp : Fin nc → Fin nf → ℝ} {ps : List Char}
    (q : RSph nc nf) (o : Fin nf → ℝ) (i : Fin nc) : 0 < (sphFamily g cp ps).b q o i :=
  diagB_pos q.mu (fun i _ => q.v i) o i

theorem sph_ac [NeZero nf] {g : GaussPrior nc nf} {cp : Fin nc → Fin nf → ℝ} {ps : List Char}
    (ss : List (ObsSeq (Fin nf → ℝ))) (r : RParams nc (RSph nc nf)) :
    (sphFamily g cp ps).Ac ss r := fun _ _ _ _ _ => sph_b_pos _ _ _

/-- The same for spherical covariances. -/
theorem sph_gains [NeZero nf] {g : GaussPrior nc nf} {cp : Fin nc → Fin nf → ℝ} (hp : g.Proper cp)
    {ps : List Char} (hcm : 'c' ∈ ps → 'm' ∈ ps) (ss : List (ObsSeq (Fin nf → ℝ)))
    (r : RParams nc (RSph nc nf)) (h : r.Valid)
    (hN : 'm' ∈ ps → ∀ i, 0 < g.mw +
      obsStat r.π r.A (diagB r.q.mu fun i _ => r.q.v i) ss i fun _ => 1)
    (hN2 : 'c' ∈ ps → ∀ i, 1 / 10 ^ 5 ≤ g.cw - 1 +
      obsStat r.π r.A (diagB r.q.mu fun i _ => r.q.v i) ss i fun _ => 1) :
    (sphFamily g cp ps).Gains ss r (diagLogPrior g cp r.q.mu (fun i _ => r.q.v i) -
      diagLogPrior g cp
        ((sphFamily g cp ps).next r.q (obsStat r.π r.A (diagB r.q.mu fun i _ => r.q.v i) ss)).mu
        fun i _ => ((sphFamily g cp ps).next r.q
          (obsStat r.π r.A (diagB r.q.mu fun i _ => r.q.v i) ss)).v i) := by
  refine ⟨sph_ac ss r, ?_⟩
  set T := obsStat r.π r.A (diagB r.q.mu fun i _ => r.q.v i) ss with hTd
  have hT : PosLin T := obsStat_posLin h.π_nonneg h.A_nonneg (fun o i => (diagB_pos _ _ _ _).le) ss
  rw [emissionGain_eq]
  refine gain_J hT r.q.mu (fun i _ => r.q.v i) _ _ fun i => ?_
  have hcw := hp.cw
  have hN0 : 0 ≤ T i fun _ => 1 := hT.nonneg i _ fun _ => zero_le_one
  have hmu : ∀ k, Sfun g cp T i k (muNext g ps r.q.mu T i k) ≤ Sfun g cp T i k (r.q.mu i k) := by
    intro k
    by_cases hm : 'm' ∈ ps
    · exact Sfun_muNext_le hm hT (hN hm i) _ _ _
    · simp [muNext, hm]
  have hnf : (0 : ℝ) < nf := Nat.cast_pos.2 (NeZero.pos nf)
  by_cases hc : 'c' ∈ ps
  · have hpos : 0 < g.cw - 1 + T i fun _ => 1 := lt_of_lt_of_le (by norm_num) (hN2 hc i)
    set n := g.cw - 1 + T i fun _ => 1 with hn
    set S := ∑ k, Sfun g cp T i k (muNext g ps r.q.mu T i k) with hS
    have e : ((sphFamily g cp ps).next r.q T).v i = S / (nf * n) := by
      simp only [sphFamily, hc, if_true]
      rw [Finset.sum_congr rfl fun k _ => varNext_eq hp (hcm hc) hT (hN2 hc i)
        (muNext g ps r.q.mu T) k, ← Finset.sum_div, div_div, mul_comm]
    have h1 := var_opt (n := nf * n) (S := S) (mul_pos hnf hpos)
      (Finset.sum_nonneg fun k _ => Sfun_nonneg hp hT i k (muNext g ps r.q.mu T i k)) tinyVar_pos
      (le_max_right (r.q.v i) tinyVar)
    have hJ : ∀ (μ : Fin nf → ℝ) (v : ℝ), ∑ k, Jfun g cp T i k (μ k) v =
        nf * n * Real.log v + (∑ k, Sfun g cp T i k (μ k)) / v := by
      intro μ v
      simp only [Jfun, Finset.sum_add_distrib, Finset.sum_const, Finset.card_univ, Fintype.card_fin,
        nsmul_eq_mul, ← Finset.sum_div, ← hn]
      ring
    rw [hJ (fun k => r.q.mu i k), hJ, e]
    refine le_trans h1 (add_le_add le_rfl ?_)
    exact div_le_div_of_nonneg_right (Finset.sum_le_sum fun k _ => hmu k) (effVar_pos _).le
  · have e : ((sphFamily g cp ps).next r.q T).v i = r.q.v i := by
      simp only [sphFamily, hc, if_false]
    rw [e]
    exact Finset.sum_le_sum fun k _ => add_le_add le_rfl
      (div_le_div_of_nonneg_right (hmu k) (effVar_pos _).le)

end Gaussian
end Verif
