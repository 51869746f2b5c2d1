import Verif.Props.RoundoffLogEM

/-!
# C82 in double precision
-/

set_option autoImplicit false

namespace Verif
open FloatLike Hmmc Spec

variable {nc nf N nIter : ℕ} [NeZero nc] {params : List Char}
  {sp : Fin nc → ℝ} {tp : Fin nc → Fin nc → ℝ} {ep : Fin nc → Fin nf → ℝ} {ss : List (ObsSeq (Fin nf))}

/-- Relative error of pseudo-counts and their totals in double precision: sequences of at most `N + 1`
samples, `M` samples in all, `c` states and symbols. -/
noncomputable def doubleRel (N M c : ℕ) : ℝ := 7 * (N + 1) ^ 2 * 2⁻¹ ^ 36 + (M + 1 + c) * 2⁻¹ ^ 51

theorem one_add_pow_le {u : ℝ} (hu : 0 ≤ u) (k : ℕ) (h : k * u ≤ 1) : (1 + u) ^ k ≤ 1 + 2 * (k * u) := by
  have hk : 0 ≤ k * u := by positivity
  have h1 : (1 + u) ^ k ≤ Real.exp (k * u) := by
    rw [Real.exp_nat_mul]
    exact pow_le_pow_left₀ (by linarith) (by linarith [Real.add_one_le_exp u]) k
  have h2 := (abs_le.1 (Real.abs_exp_sub_one_sub_id_le (x := k * u) (by rwa [abs_of_nonneg hk]))).2
  nlinarith

variable {M c : ℕ}

theorem double_pow_le (hk : M + 1 + c ≤ 2 ^ 41) :
    ((1 : ℝ) + 2⁻¹ ^ 53) ^ (M + 1 + c) ≤ 1 + 2 * ((M + 1 + c) * 2⁻¹ ^ 53) ∧ ((M : ℝ) + 1 + c) * 2⁻¹ ^ 53 ≤ 2⁻¹ ^ 12 := by
  have hk' : ((M : ℝ) + 1 + c) ≤ 2 ^ 41 := by exact_mod_cast hk
  have h2 : ((M : ℝ) + 1 + c) * 2⁻¹ ^ 53 ≤ 2⁻¹ ^ 12 :=
    (mul_le_mul_of_nonneg_right hk' (by positivity)).trans (by norm_num)
  refine ⟨?_, h2⟩
  have := one_add_pow_le (u := 2⁻¹ ^ 53) (by positivity) (M + 1 + c) (by
    push_cast; exact h2.trans (by norm_num))
  push_cast at this
  exact this

theorem double_seqRel_le (hnc : nc ≤ 1024) (N : ℕ) :
    seqRel (stepError (2⁻¹ ^ 53) (2⁻¹ ^ 1075) (doubleSpan N) nc
      (unitError (2⁻¹ ^ 53) (2⁻¹ ^ 1075) (doubleSpan N))) N ≤ 7 * (N + 1) ^ 2 * 2⁻¹ ^ 36 := by
  have h := double_step_le (nc := nc) hnc N
  have hn : (0 : ℝ) ≤ N := Nat.cast_nonneg _
  unfold seqRel
  refine (mul_le_mul_of_nonneg_left h (by positivity)).trans ?_
  have : (0 : ℝ) ≤ 2⁻¹ ^ 36 := by positivity
  nlinarith [mul_nonneg hn this]

theorem double_rowRel_le (hnc : nc ≤ 1024) (hN : N < 2 ^ 15) (hk : M + 1 + c ≤ 2 ^ 41) :
    rowRel (2⁻¹ ^ 53) (stepError (2⁻¹ ^ 53) (2⁻¹ ^ 1075) (doubleSpan N) nc
      (unitError (2⁻¹ ^ 53) (2⁻¹ ^ 1075) (doubleSpan N))) N M c ≤ doubleRel N M c ∧ doubleRel N M c ≤ 1 / 4 := by
  have hs := double_seqRel_le (nc := nc) hnc N
  have hN' : (N : ℝ) + 1 ≤ 2 ^ 15 := by exact_mod_cast hN
  have hN0 : (0 : ℝ) ≤ N := Nat.cast_nonneg _
  have h7 : 7 * ((N : ℝ) + 1) ^ 2 * 2⁻¹ ^ 36 ≤ 7 / 64 := by
    have : ((N : ℝ) + 1) ^ 2 ≤ (2 ^ 15) ^ 2 := pow_le_pow_left₀ (by linarith) hN' 2
    refine (mul_le_mul_of_nonneg_right (mul_le_mul_of_nonneg_left this (by norm_num)) (by positivity)).trans ?_
    norm_num
  obtain ⟨hp, hq⟩ := double_pow_le hk
  have e51 : ((M : ℝ) + 1 + c) * 2⁻¹ ^ 51 = 4 * ((M + 1 + c) * 2⁻¹ ^ 53) := by
    rw [show (2⁻¹ : ℝ) ^ 51 = 4 * 2⁻¹ ^ 53 by norm_num]; ring
  have h12 : (2⁻¹ : ℝ) ^ 12 = 1 / 4096 := by norm_num
  have hq0 : 0 ≤ ((M : ℝ) + 1 + c) * 2⁻¹ ^ 53 := by positivity
  have hx0 : 0 ≤ 7 * ((N : ℝ) + 1) ^ 2 * 2⁻¹ ^ 36 := by positivity
  unfold rowRel stageRel doubleRel
  rw [e51]
  rw [h12] at hq
  generalize 7 * ((N : ℝ) + 1) ^ 2 * 2⁻¹ ^ 36 = x at *
  generalize ((M : ℝ) + 1 + c) * 2⁻¹ ^ 53 = q at *
  generalize seqRel _ N = y at *
  have hP : (0 : ℝ) ≤ (1 + 2⁻¹ ^ 53) ^ (M + 1 + c) := by positivity
  generalize ((1 : ℝ) + 2⁻¹ ^ 53) ^ (M + 1 + c) = P at *
  constructor
  · have : (1 + y) * P ≤ (1 + x) * P := mul_le_mul_of_nonneg_right (by linarith) hP
    have h2 : (1 + x) * P ≤ (1 + x) * (1 + 2 * q) := mul_le_mul_of_nonneg_left hp (by linarith)
    nlinarith
  · linarith

theorem double_rowAbs_le (hc : c ≤ 2 ^ 21) (hk : M + 1 + c ≤ 2 ^ 41) :
    rowAbs (2⁻¹ ^ 53) (2⁻¹ ^ 1075) M c ≤ 2⁻¹ ^ 1000 := by
  obtain ⟨hp, hq⟩ := double_pow_le hk
  have hP : (1 + (2⁻¹ : ℝ) ^ 53) ^ (M + 1 + c) ≤ 2 := by
    have : (2⁻¹ : ℝ) ^ 12 ≤ 1 / 2 := by norm_num
    linarith
  have hc' : (c : ℝ) ≤ 2 ^ 21 := by exact_mod_cast hc
  have hM : 2 * (M : ℝ) + 3 ≤ 2 ^ 43 := by
    have h1 : M + 1 + c ≤ 2199023255552 := hk
    have h2 : 2 * M + 3 ≤ 8796093022208 := by omega
    norm_num
    exact_mod_cast h2
  have hcM : (c : ℝ) * (2 * M + 3) ≤ 2 ^ 21 * 2 ^ 43 :=
    mul_le_mul hc' hM (by positivity) (by positivity)
  have e : (2⁻¹ : ℝ) ^ 1075 = 2⁻¹ ^ 75 * 2⁻¹ ^ 1000 := by rw [← pow_add]
  unfold rowAbs
  rw [e]
  have h0 : (0 : ℝ) ≤ 2⁻¹ ^ 1000 := by positivity
  have h1 : (0 : ℝ) ≤ (c : ℝ) * (2 * M + 3) := by positivity
  have hP0 : (0 : ℝ) ≤ (1 + 2⁻¹ ^ 53) ^ (M + 1 + c) := by positivity
  generalize (2⁻¹ : ℝ) ^ 1000 = E at *
  generalize ((1 : ℝ) + 2⁻¹ ^ 53) ^ (M + 1 + c) = P at *
  generalize (c : ℝ) * (2 * M + 3) = C at *
  calc P * (C * (2⁻¹ ^ 75 * E)) = (P * C) * 2⁻¹ ^ 75 * E := by ring
    _ ≤ (2 * (2 ^ 21 * 2 ^ 43)) * 2⁻¹ ^ 75 * E := by
        refine mul_le_mul_of_nonneg_right (mul_le_mul_of_nonneg_right ?_ (by positivity)) h0
        exact mul_le_mul hP hcM h1 (by norm_num)
    _ ≤ 1 * E := mul_le_mul_of_nonneg_right (by norm_num) h0
    _ = E := one_mul E

/-- Bound on the partial sums of the score. -/
noncomputable def doubleSums (M : ℕ) : ℝ := 8640 * M

theorem sum_samples_le (ss : List (ObsSeq (Fin nf))) (x : ℝ) (hx : 0 ≤ x) :
    (ss.map fun s => ((s.n : ℝ) + 2) * x).sum ≤ 2 * totalSamples ss * x ∧ (ss.length : ℝ) ≤ totalSamples ss := by
  unfold totalSamples
  induction ss with
  | nil => simp
  | cons s ss ih =>
    simp only [List.map_cons, List.sum_cons, List.length_cons, Nat.cast_add, Nat.cast_one]
    have hs : (0 : ℝ) ≤ s.n := Nat.cast_nonneg _
    refine ⟨?_, by linarith [ih.2]⟩
    have := ih.1
    nlinarith [mul_nonneg hs hx]

theorem double_step_small (hnc : nc ≤ 1024) (hN : N < 2 ^ 15) :
    stepError (2⁻¹ ^ 53) (2⁻¹ ^ 1075) (doubleSpan N) nc (unitError (2⁻¹ ^ 53) (2⁻¹ ^ 1075) (doubleSpan N)) ≤
      2⁻¹ ^ 21 := by
  refine (double_step_le hnc N).trans ?_
  have hN' : (N : ℝ) + 1 ≤ 2 ^ 15 := by exact_mod_cast hN
  exact (mul_le_mul_of_nonneg_right hN' (by positivity)).trans (by norm_num)

theorem double_step_nonneg (N : ℕ) : 0 ≤
    stepError (2⁻¹ ^ 53) (2⁻¹ ^ 1075) (doubleSpan N) nc (unitError (2⁻¹ ^ 53) (2⁻¹ ^ 1075) (doubleSpan N)) := by
  unfold stepError lseError sumExpError unitError doubleSpan
  positivity

theorem double_fit_budget (hnc : nc ≤ 1024) (hnf : nf ≤ 2 ^ 20) (hN : ∀ s ∈ ss, s.n ≤ N) (hN' : N < 2 ^ 15)
    (hM : totalSamples ss ≤ 2 ^ 40) (hsp : ∀ i, 1 ≤ sp i ∧ sp i - 1 ≤ 2 ^ 40)
    (htp : ∀ i j, 1 ≤ tp i j ∧ tp i j - 1 ≤ 2 ^ 40) (hep : ∀ i k, 1 ≤ ep i k ∧ ep i k - 1 ≤ 2 ^ 40) :
    LogFitBudget double (2⁻¹ ^ 53) (2⁻¹ ^ 1075) (2 ^ 1022) (doubleSpan N) N 1074 (nc + nf) (2 ^ 40)
      (doubleSums (totalSamples ss)) sp tp ep ss := by
  have hb := double_budget (nc := nc) hnc (hN'.trans (by norm_num))
  have hc : nc + nf ≤ 2 ^ 21 := by
    have h1 : nf ≤ 1048576 := hnf
    have h2 : nc + nf ≤ 2097152 := by omega
    exact h2
  have hk : totalSamples ss + 1 + (nc + nf) ≤ 2 ^ 41 := by
    have h1 : totalSamples ss ≤ 1099511627776 := hM
    have h2 : nc + nf ≤ 2097152 := hc
    have h3 : totalSamples ss + 1 + (nc + nf) ≤ 2199023255552 := by omega
    exact h3
  obtain ⟨hrel, hrel'⟩ := double_rowRel_le (nc := nc) hnc hN' hk
  have habs := double_rowAbs_le hc hk
  have hN0 : (0 : ℝ) ≤ N := Nat.cast_nonneg _
  have hN1 : (N : ℝ) + 1 ≤ 2 ^ 15 := by exact_mod_cast hN'
  have hM0 : (0 : ℝ) ≤ totalSamples ss := Nat.cast_nonneg _
  have hM1 : (totalSamples ss : ℝ) ≤ 1099511627776 := by
    have h1 : totalSamples ss ≤ 1099511627776 := hM
    exact_mod_cast h1
  have h1000 : (2⁻¹ : ℝ) ^ 1000 ≤ 2⁻¹ ^ 2 := pow_le_pow_of_le_one (by norm_num) (by norm_num) (by norm_num)
  have hbig : (2 : ℝ) ^ 80 ≤ 2 ^ 1022 := pow_le_pow_right₀ one_le_two (by norm_num)
  have hκ := double_step_small (nc := nc) hnc hN'
  have hκ0 := double_step_nonneg (nc := nc) N
  refine ⟨⟨hb, double_grid.zero, ?_, ?_, ?_, by positivity, ?_, ?_⟩, ?_, double_grid, fun p hp => ?_, by omega, by omega, ?_,
    hsp, htp, hep, hN, ?_, ?_, ?_⟩
  · unfold doubleSpan
    rcases Nat.eq_zero_or_pos N with rfl | h0
    · simp
    · have := Real.log_le_sub_one_of_pos (x := (N : ℝ)) (by exact_mod_cast h0)
      linarith
  · refine (mul_le_mul_of_nonneg_left (double_step_le hnc N) (by positivity)).trans ?_
    have h36 : (2⁻¹ : ℝ) ^ 36 = 1 / 68719476736 := by norm_num
    rw [h36]
    norm_num at hN1
    nlinarith
  · have := NeZero.pos nc
    omega
  · refine le_trans ?_ hbig
    norm_num at hN1 ⊢
    linarith
  · have hcM : (((nc + nf : ℕ) : ℝ)) * (totalSamples ss + 2 ^ 40) ≤ 2 ^ 21 * 2 ^ 41 := by
      refine mul_le_mul (by exact_mod_cast hc) ?_ (by positivity) (by positivity)
      rw [show (2 : ℝ) ^ 40 = 1099511627776 by norm_num, show (2 : ℝ) ^ 41 = 2199023255552 by norm_num]
      linarith only [hM1]
    refine le_trans ?_ hbig
    have h0 : (0 : ℝ) ≤ ((nc + nf : ℕ) : ℝ) * (totalSamples ss + 2 ^ 40) := by positivity
    refine le_trans (add_le_add (mul_le_mul (add_le_add le_rfl (hrel.trans hrel')) hcM h0 (by norm_num))
      (habs.trans h1000)) ?_
    norm_num
  · have h2 : (2⁻¹ : ℝ) ^ 2 = 1 / 4 := by norm_num
    have h3 := add_le_add (hrel.trans hrel') (habs.trans (h1000.trans h2.le))
    linarith only [h3]
  · exact DoubleProb.logBound (gridProb_double hp)
  · unfold doubleSpan; linarith only [hN0]
  · unfold doubleSums; positivity
  · refine le_trans ?_ hbig
    unfold doubleSums
    rw [show (2 : ℝ) ^ 80 = 1208925819614629174706176 by norm_num]
    linarith only [hM1]
  · have hlog := log_card_le hnc
    have h21 : (2⁻¹ : ℝ) ^ 21 ≤ 1 := by norm_num
    have hlog0 : 0 ≤ Real.log nc := Real.log_natCast_nonneg nc
    have hx0 : 0 ≤ stepSpan 1074 nc + stepError (2⁻¹ ^ 53) (2⁻¹ ^ 1075) (doubleSpan N) nc
        (unitError (2⁻¹ ^ 53) (2⁻¹ ^ 1075) (doubleSpan N)) := by unfold stepSpan; linarith
    have hx : stepSpan 1074 nc + stepError (2⁻¹ ^ 53) (2⁻¹ ^ 1075) (doubleSpan N) nc
        (unitError (2⁻¹ ^ 53) (2⁻¹ ^ 1075) (doubleSpan N)) ≤ 2159 := by unfold stepSpan; linarith
    obtain ⟨h1, h2⟩ := sum_samples_le ss _ hx0
    have hη := double_η_le
    have hu : (2⁻¹ : ℝ) ^ 53 * (doubleSums (totalSamples ss)) + 2⁻¹ ^ 1075 ≤ 4 := by
      unfold doubleSums
      have h53 : (2⁻¹ : ℝ) ^ 53 = 1 / 9007199254740992 := by norm_num
      have h3 : (2⁻¹ : ℝ) ^ 1075 ≤ 1 := pow_le_one₀ (by norm_num) (by norm_num)
      generalize (2⁻¹ : ℝ) ^ 1075 = E at h3 ⊢
      rw [h53]
      nlinarith only [hM1, h3]
    have hu0 : 0 ≤ (2⁻¹ : ℝ) ^ 53 * (doubleSums (totalSamples ss)) + 2⁻¹ ^ 1075 := by
      have h8 : (0 : ℝ) ≤ doubleSums (totalSamples ss) := by unfold doubleSums; positivity
      exact add_nonneg (mul_nonneg (pow_nonneg (by norm_num) _) h8) (pow_nonneg (by norm_num) _)
    refine le_trans (add_le_add h1 (mul_le_mul h2 hu hu0 hM0)) ?_
    unfold doubleSums
    nlinarith

variable {ρ : Rounding} {u η δ a eL δ' a' eL' : ℝ} {θ θ₁ : CatParams nc nf} {lp : RX ρ}

omit [NeZero nc] in
theorem Spec.ShareNear.mono {k : ℕ} {x : Fin k → XF} {w : Fin k → ℝ} (hw : ∀ i, 0 ≤ w i) (h : ShareNear u η δ a x w)
    (hδ : δ ≤ δ') (ha : a ≤ a') : ShareNear u η δ' a' x w := by
  refine ⟨h.1, fun h0 h1 i => ?_⟩
  obtain ⟨r, r1, r2, r3⟩ := h.2 h0 (by nlinarith) i
  refine ⟨r, r1, r2.trans ?_, r3⟩
  have h2 : 0 ≤ w i / ∑ j, w j := div_nonneg (hw i) h0.le
  have h3 : a / ∑ j, w j ≤ a' / ∑ j, w j := div_le_div_of_nonneg_right ha h0.le
  have h4 : (4 * δ + 3 * u) * (w i / ∑ j, w j) ≤ (4 * δ' + 3 * u) * (w i / ∑ j, w j) :=
    mul_le_mul_of_nonneg_right (by linarith) h2
  linarith

theorem Spec.IterationNear.mono (h : IterationNear ρ u η δ a eL params sp tp ep ss θ θ₁ lp)
    (hπ : ∀ i, 0 ≤ (catEM params sp tp ep ss θ).π i) (hδ : δ ≤ δ') (ha : a ≤ a') (he : eL ≤ eL') :
    IterationNear ρ u η δ' a' eL' params sp tp ep ss θ θ₁ lp := by
  refine ⟨h.possible, ?_, ?_⟩
  · obtain ⟨r, h1, h2⟩ := h.logprob
    exact ⟨r, h1, h2.trans he⟩
  · have hs := h.step
    refine ⟨fun h0 i => ?_, fun h0 i => (hs.trans h0 i).mono (mapCounts_nn _ _ _) hδ ha,
      fun h0 i => (hs.emission h0 i).mono (mapCounts_nn _ _ _) hδ ha, hs.start_fixed, hs.trans_fixed, hs.emission_fixed⟩
    obtain ⟨r, r1, r2, r3⟩ := hs.start h0 i
    refine ⟨r, r1, r2.trans ?_, r3⟩
    have h4 : (4 * δ + 3 * u) * (catEM params sp tp ep ss θ).π i ≤ (4 * δ' + 3 * u) * (catEM params sp tp ep ss θ).π i :=
      mul_le_mul_of_nonneg_right (by linarith) (hπ i)
    linarith

/-- Error of the reported log-likelihood in double precision. -/
noncomputable def doubleScoreError (N M : ℕ) : ℝ := 2 * M * (N + 1) * 2⁻¹ ^ 36 + M ^ 2 * 2⁻¹ ^ 39

theorem double_score_le (hnc : nc ≤ 1024) (hne : ss ≠ []) :
    logScoreError (2⁻¹ ^ 53) (2⁻¹ ^ 1075) (stepError (2⁻¹ ^ 53) (2⁻¹ ^ 1075) (doubleSpan N) nc
      (unitError (2⁻¹ ^ 53) (2⁻¹ ^ 1075) (doubleSpan N))) (doubleSums (totalSamples ss)) ss ≤
      doubleScoreError N (totalSamples ss) := by
  have hκ := double_step_le (nc := nc) hnc N
  have hκ0 := double_step_nonneg (nc := nc) N
  obtain ⟨h1, h2⟩ := sum_samples_le ss _ hκ0
  have hlen : (1 : ℝ) ≤ ss.length := by exact_mod_cast List.length_pos_iff.2 hne
  have hη := double_η_le
  have h39 : (2⁻¹ : ℝ) ^ 39 = 16384 * 2⁻¹ ^ 53 := by norm_num
  have hU : (0 : ℝ) ≤ 2⁻¹ ^ 53 := by positivity
  have hE : (0 : ℝ) ≤ 2⁻¹ ^ 1075 := by positivity
  unfold logScoreError doubleScoreError doubleSums
  rw [h39]
  have hM1 : (1 : ℝ) ≤ totalSamples ss := hlen.trans h2
  have h4 : 2 * (totalSamples ss : ℝ) * stepError (2⁻¹ ^ 53) (2⁻¹ ^ 1075) (doubleSpan N) nc
      (unitError (2⁻¹ ^ 53) (2⁻¹ ^ 1075) (doubleSpan N)) ≤ 2 * totalSamples ss * ((N + 1) * 2⁻¹ ^ 36) :=
    mul_le_mul_of_nonneg_left hκ (by linarith)
  have h5 : (ss.length : ℝ) * (2⁻¹ ^ 53 * (8640 * totalSamples ss) + 2⁻¹ ^ 1075) ≤
      totalSamples ss ^ 2 * (16384 * 2⁻¹ ^ 53) := by
    have h6 : (2⁻¹ : ℝ) ^ 53 * (8640 * totalSamples ss) + 2⁻¹ ^ 1075 ≤ totalSamples ss * (16384 * 2⁻¹ ^ 53) := by
      generalize (2⁻¹ : ℝ) ^ 1075 = E at *
      generalize (2⁻¹ : ℝ) ^ 53 = U at *
      nlinarith
    refine (mul_le_mul h2 h6 (by positivity) (by linarith)).trans (le_of_eq ?_)
    ring
  refine add_le_add (h1.trans (h4.trans (le_of_eq ?_))) h5
  ring

/-- **C82** `fit` of a `CategoricalHMM` with `implementation="log"` in double precision, from any
probabilities that doubles hold: up to 1024 states, `2 ^ 20` symbols, `2 ^ 15` samples in a sequence,
`2 ^ 40` in all, prior parameters between one and `2 ^ 40`, any number of iterations. As long as no
iteration reports `-inf`, each goes from probabilities that doubles hold to such probabilities, reports the
log-likelihood up to `doubleScoreError`, and the pseudo-counts behind the new parameters carry a relative
error of at most `doubleRel`. -/
theorem C82_fit_double (hne : ss ≠ []) (hnc : nc ≤ 1024) (hnf : nf ≤ 2 ^ 20) (hN : ∀ s ∈ ss, s.n ≤ N)
    (hN' : N < 2 ^ 15) (hM : totalSamples ss ≤ 2 ^ 40) (hsp : ∀ i, 1 ≤ sp i ∧ sp i - 1 ≤ 2 ^ 40)
    (htp : ∀ i j, 1 ≤ tp i j ∧ tp i j - 1 ≤ 2 ^ 40) (hep : ∀ i k, 1 ≤ ep i k ∧ ep i k - 1 ≤ 2 ^ 40)
    {θ0 : CatParams nc nf} (hθ : GridParams double θ0) (mon : Monitor (RX double)) :
    let out := fitFrom (logEmission double ep) (logConfig double sp tp params nIter) (dataX Categorical.sym ss)
      (some (dataLengths ss)) (Categorical.paramsRX double θ0.π θ0.A θ0.e) mon
    let hist := out.monitor.history
    (∀ lp ∈ hist, lp ≠ XF.ninf) →
    ∃ θs : ℕ → CatParams nc nf, θs 0 = θ0 ∧ (∀ k ≤ hist.length, GridParams double (θs k)) ∧
      out.state = Categorical.paramsRX double (θs hist.length).π (θs hist.length).A (θs hist.length).e ∧
      (out.raised ≠ none → catL ss (θs hist.length).π (θs hist.length).A (θs hist.length).e = 0) ∧
      ∀ k (hk : k < hist.length),
        IterationNear double (2⁻¹ ^ 53) (2⁻¹ ^ 1075) (doubleRel N (totalSamples ss) (nc + nf)) (2⁻¹ ^ 1000)
          (doubleScoreError N (totalSamples ss)) params sp tp ep ss (θs k) (θs (k + 1)) hist[k] := by
  intro out hist hinf
  have hb := double_fit_budget hnc hnf hN hN' hM hsp htp hep
  obtain ⟨θs, h1, h2, h3, h4, h5⟩ := C82_fit hne hb hθ mon hinf
  refine ⟨θs, h1, h2, h3, h4, fun k hk => (h5 k hk).mono (fun i => ?_) ?_ ?_ (double_score_le hnc hne)⟩
  · show 0 ≤ (if 's' ∈ params then _ else _ : Fin nc → ℝ) i
    split
    · exact div_nonneg (mapCounts_nn _ _ _ _) (Finset.sum_nonneg fun j _ => mapCounts_nn _ _ _ _)
    · exact ((h2 k hk.le).start i).1
  · refine (double_rowRel_le hnc hN' ?_).1
    have h1 : totalSamples ss ≤ 1099511627776 := hM
    have h2 : nf ≤ 1048576 := hnf
    have h3 : totalSamples ss + 1 + (nc + nf) ≤ 2199023255552 := by omega
    exact h3
  · have h1 : totalSamples ss ≤ 1099511627776 := hM
    have h2 : nf ≤ 1048576 := hnf
    have h3 : totalSamples ss + 1 + (nc + nf) ≤ 2199023255552 := by omega
    have h4 : nc + nf ≤ 2097152 := by omega
    exact double_rowAbs_le h4 h3

/-! A left-to-right model with an impossible transition, and 101 samples: the first iteration does not raise
and is accurate, and its results are doubles between zero and one. -/

theorem DemoDouble.gridHalf : GridProb double (1 / 2) := by
  refine ⟨by norm_num, by norm_num, ?_⟩
  have h1 : lastBit (1 / 2) ≤ -1 := by
    have : Int.log 2 |(1 / 2 : ℝ)| = -1 := by
      rw [abs_of_pos (by norm_num), show (1 / 2 : ℝ) = ((2 : ℕ) : ℝ) ^ (-1 : ℤ) by norm_num]
      exact Int.log_zpow (by norm_num) _
    unfold lastBit
    rw [this]
    norm_num
  have h2 : nearDouble (1 / 2) = 1 / 2 := nearDouble_pow h1 (by rw [abs_of_pos (by norm_num)]; norm_num)
  simp only [double, h2]
  rw [if_neg]
  simp only [not_le]
  have : (0 : ℝ) < 2 ^ 1024 := by positivity
  exact (neg_lt_zero.2 this).trans (by norm_num)

noncomputable def DemoDouble.model : CatParams 2 2 := ⟨DemoDouble.p0, DemoDouble.pA, DemoDouble.pe⟩

theorem DemoDouble.grid : GridParams double DemoDouble.model where
  start i := by
    show GridProb double (DemoDouble.p0 i)
    unfold DemoDouble.p0; split
    exacts [⟨by norm_num, le_rfl, double_grid.one⟩, ⟨le_rfl, by norm_num, double_grid.zero⟩]
  trans i j := by
    show GridProb double (DemoDouble.pA i j)
    unfold DemoDouble.pA; split
    · exact DemoDouble.gridHalf
    · split
      exacts [⟨le_rfl, by norm_num, double_grid.zero⟩, ⟨by norm_num, le_rfl, double_grid.one⟩]
  emission i k := DemoDouble.gridHalf

theorem DemoDouble.possible (n : ℕ) : 0 < likelihood DemoDouble.model.π DemoDouble.model.A
    (ObsSeq.weights (catB DemoDouble.model.e) ⟨n, fun _ => (0 : Fin 2)⟩) := by
  have hg := DemoDouble.grid
  have hz : 0 < joint DemoDouble.model.π DemoDouble.model.A
      (ObsSeq.weights (catB DemoDouble.model.e) ⟨n, fun _ => (0 : Fin 2)⟩) (fun _ => 0) := by
    unfold joint
    refine mul_pos (mul_pos ?_ (Finset.prod_pos fun t _ => ?_)) (Finset.prod_pos fun t _ => ?_) <;>
      simp [DemoDouble.model, DemoDouble.p0, DemoDouble.pA, DemoDouble.pe, ObsSeq.weights, catB]
  exact hz.trans_le (Finset.single_le_sum (f := fun z => joint DemoDouble.model.π DemoDouble.model.A
    (ObsSeq.weights (catB DemoDouble.model.e) ⟨n, fun _ => (0 : Fin 2)⟩) z) (fun z _ =>
    joint_nonneg (fun i => (hg.start i).1) (fun i j => (hg.trans i j).1) (fun t i => (hg.emission i _).1) z)
    (Finset.mem_univ _))

example : ∃ θ₁ : CatParams 2 2, ∃ lp, GridParams double θ₁ ∧
    emStep (logEmission double fun _ _ => 1) (logConfig double (fun _ => 1) (fun _ _ => 1) ['s', 't', 'e'] 10)
      (dataX Categorical.sym [⟨100, fun _ => (0 : Fin 2)⟩]) (dataLengths [⟨100, fun _ => (0 : Fin 2)⟩])
      (Categorical.paramsRX double DemoDouble.p0 DemoDouble.pA DemoDouble.pe) =
      .ok (Categorical.paramsRX double θ₁.π θ₁.A θ₁.e, lp) := by
  have hb := double_fit_budget (nc := 2) (nf := 2) (N := 100) (sp := fun _ => 1) (tp := fun _ _ => 1)
    (ep := fun _ _ => 1) (ss := [⟨100, fun _ => (0 : Fin 2)⟩]) (by norm_num) (by norm_num) (by simp) (by norm_num)
    (by simp [totalSamples]) (by norm_num) (by norm_num) (by norm_num)
  have hg := DemoDouble.grid
  obtain ⟨θ'', lp, h1, -, -, h4⟩ := C82_em_step (θ := DemoDouble.model) (params := ['s', 't', 'e']) (nIter := 10)
    [⟨100, fun _ => (0 : Fin 2)⟩] (by simp) hb.budget hb.small hb.states hb.symbols hb.ℓ_le hb.sp hb.tp hb.ep
    (fun i => hb.bound _ (hg.start i)) (fun i j => hb.bound _ (hg.trans i j)) (fun i k => hb.bound _ (hg.emission i k))
    hb.samples (by
      intro s hs
      rw [List.mem_singleton.1 hs]
      exact DemoDouble.possible 100)
  obtain ⟨θ₁, h5, rfl⟩ := h4 double_grid hg
  exact ⟨θ₁, lp, h5, h1⟩

end Verif
