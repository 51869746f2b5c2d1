import Verif.Proofs.RoundoffCounts
import Verif.Proofs.RoundoffGrid
import Verif.Model.Categorical

/-!
# Errors of the M-step
-/

set_option autoImplicit false

namespace Verif
open FloatLike Hmmc Spec

variable {ρ : Rounding} {u η Ω V ℓ eb Q : ℝ} {nc N M c : ℕ} [NeZero nc]

/-- A finite number, seen as a rounded one. -/
noncomputable abbrev RX.fin (ρ : Rounding) (r : ℝ) : RX ρ := XF.fin r

theorem npMaximum_rx (r : ℝ) : npMaximum (α := RX ρ) (XF.fin r) 0 = (XF.fin (max r 0) : RX ρ) := by
  have h1 : FloatLike.lt (α := RX ρ) (XF.fin r) (0 : RX ρ) = decide (r < 0) := rfl
  have h2 : FloatLike.isNaN (α := RX ρ) (XF.fin r) = false := rfl
  have h3 : FloatLike.isNaN (α := RX ρ) (0 : RX ρ) = false := rfl
  unfold npMaximum
  rw [h1, h2, h3]
  by_cases h : r < 0
  · simp [h, max_eq_right h.le]
  · simp [h, max_eq_left (not_lt.1 h)]

omit [NeZero nc] in
theorem Spec.CountNear.max_zero {δ a : ℝ} {x : RX ρ} {y : ℝ} (h : CountNear δ a x y) :
    CountNear δ a (npMaximum (α := RX ρ) x 0) (max y 0) := by
  obtain ⟨h0, r, rfl, h1, h2⟩ := h
  rw [npMaximum_rx, max_eq_left h0]
  refine ⟨h0, max r 0, rfl, le_trans ?_ h1, fun h => by rw [h2 h, max_self]⟩
  rcases le_total r 0 with h | h
  · rw [max_eq_right h, zero_sub, abs_neg, abs_of_nonneg h0, abs_of_nonpos (by linarith)]; linarith
  · rw [max_eq_left h]

/-- Relative error of pseudo-counts. -/
noncomputable abbrev cntRel (u κ : ℝ) (N M : ℕ) : ℝ := stageRel (seqRel κ N) u (M + 1)

theorem Spec.LogEMBudget.u_le (h : LogEMBudget ρ u η Ω V nc N ℓ eb M c Q) :
    u ≤ seqRel (stepError u η V nc eb) N ∧ u ≤ 1 := by
  have hu := h.budget.range.acc.u_nonneg
  have hη := h.budget.range.acc.η_nonneg
  have hV := h.budget.range.V_nonneg
  have hE := h.budget.range.sumExp_nonneg
  have heb := h.budget.eb_nonneg
  have hlse := h.budget.lse_nonneg
  have hε : 4 * u ≤ unitError u η V := by unfold unitError; nlinarith
  have hε4 := h.budget.range.unit_le
  have hκ : u ≤ stepError u η V nc eb := by unfold stepError; linarith
  refine ⟨?_, by linarith⟩
  unfold seqRel
  have : (0 : ℝ) ≤ N := Nat.cast_nonneg _
  nlinarith

/-- A pseudo-count. -/
theorem Spec.LogEMBudget.pseudo (h : LogEMBudget ρ u η Ω V nc N ℓ eb M c Q) {p y : ℝ} (hp : 1 ≤ p) (hpQ : p - 1 ≤ Q)
    {x : RX ρ} (hyM : y ≤ M)
    (hx : CountNear (stageRel (seqRel (stepError u η V nc eb) N) u M) (stageAbs (η + η) u M) x y) :
    CountNear (cntRel u (stepError u η V nc eb) N M) (stageAbs (η + η) u (M + 1))
      (npMaximum (α := RX ρ) (RX.fin ρ p - (1 : RX ρ) + x) 0) (max (p - 1 + y) 0) := by
  have hacc := h.budget.range.acc
  have hu := hacc.u_nonneg
  have hη := hacc.η_nonneg
  have hs := h.seq_nonneg
  have hy := hx.1
  have hr := h.range_le (k := M + 1) le_rfl (y := y + (p - 1)) (by linarith) (by linarith)
  have hpΩ : |p - 1| ≤ Ω := by
    rw [abs_of_nonneg (by linarith)]
    refine le_trans ?_ hr
    have h1 := hs.trans (le_stageRel hs hu (M + 1))
    have h2 : 0 ≤ stageAbs (η + η) u (M + 1) := by unfold stageAbs; positivity
    nlinarith
  obtain ⟨w, hw, hwe⟩ := hacc.rnd (p - 1) hpΩ
  rw [abs_of_nonneg (sub_nonneg.2 hp)] at hwe
  have hprior : CountNear (seqRel (stepError u η V nc eb) N) η (XF.fin w) (p - 1) := by
    refine ⟨by linarith, w, rfl, hwe.trans ?_, fun h0 => ?_⟩
    · have := mul_le_mul_of_nonneg_right h.u_le.1 (show 0 ≤ p - 1 by linarith)
      linarith
    · rw [h0, h.zero] at hw; exact (XF.fin_injective hw).symm
  have hadd := CountNear.add (x' := RX.fin ρ w) hacc h.zero hs hη hx hprior hr
  have e1 : RX.fin ρ p - (1 : RX ρ) = RX.fin ρ w := by
    show ρ.ap (XF.sub (XF.fin p) (XF.fin 1)) = _
    have e : XF.sub (XF.fin p) (XF.fin 1) = XF.fin (p - 1) := XF.fin_sub p 1
    rw [e]; exact hw
  have e2 : RX.fin ρ w + x = x + RX.fin ρ w := by
    obtain ⟨-, r, rfl, -⟩ := hx
    show ρ.ap (XF.add (XF.fin w) (XF.fin r)) = ρ.ap (XF.add (XF.fin r) (XF.fin w))
    simp only [XF.add, add_comm]
  rw [e1, e2, add_comm (p - 1) y]
  exact hadd.max_zero

theorem eq_zero_rx (r : ℝ) : FloatLike.eq (α := RX ρ) (XF.fin r) 0 = decide (r = 0) := rfl

/-- A pseudo-count with its mask. -/
theorem Spec.LogEMBudget.counts (h : LogEMBudget ρ u η Ω V nc N ℓ eb M c Q) {k : ℕ} {prior old stat : Fin k → ℝ}
    (hp : ∀ i, 1 ≤ prior i) (hpQ : ∀ i, prior i - 1 ≤ Q) {stat' : Fin k → RX ρ} (hM : ∀ i, stat i ≤ M)
    (hs : ∀ i, CountNear (stageRel (seqRel (stepError u η V nc eb) N) u M) (stageAbs (η + η) u M) (stat' i) (stat i))
    (i : Fin k) :
    CountNear (cntRel u (stepError u η V nc eb) N M) (stageAbs (η + η) u (M + 1))
      (if FloatLike.eq (α := RX ρ) (XF.fin (old i)) 0 then (0 : RX ρ) else
        npMaximum (α := RX ρ) (RX.fin ρ (prior i) - (1 : RX ρ) + stat' i) 0) (mapCounts prior old stat i) := by
  have hu := h.budget.range.acc.u_nonneg
  have hη := h.budget.range.acc.η_nonneg
  rw [eq_zero_rx]
  unfold mapCounts
  by_cases h0 : old i = 0
  · simp only [h0, decide_true, if_true]
    exact CountNear.zero (h.seq_nonneg.trans (le_stageRel h.seq_nonneg hu _)) (by unfold stageAbs; positivity)
  · simp only [h0, decide_false, Bool.false_eq_true, if_false]
    exact h.pseudo (hp i) (hpQ i) (hM i) (hs i)

theorem mapCounts_le {k : ℕ} {prior old stat : Fin k → ℝ} {C : ℝ} (hC : 0 ≤ C) (h : ∀ i, prior i - 1 + stat i ≤ C)
    (i : Fin k) : mapCounts prior old stat i ≤ C := by
  unfold mapCounts
  split
  · exact hC
  · exact max_le (h i) hC

theorem mapCounts_nn {k : ℕ} (prior old stat : Fin k → ℝ) (i : Fin k) : 0 ≤ mapCounts prior old stat i := by
  unfold mapCounts
  split
  · exact le_rfl
  · exact le_max_right _ _

/-- A normalised row of pseudo-counts, and the total it is divided by. -/
theorem Spec.LogEMBudget.share (h : LogEMBudget ρ u η Ω V nc N ℓ eb M c Q) {k : ℕ} (hk : k ≤ c)
    {w : Fin k → RX ρ} {W : Fin k → ℝ} (hW : ∀ i, W i ≤ M + Q)
    (hw : ∀ i, CountNear (cntRel u (stepError u η V nc eb) N M) (stageAbs (η + η) u (M + 1)) (w i) (W i)) :
    ShareNear u η (rowRel u (stepError u η V nc eb) N M c) (rowAbs u η M c) (normalizeRow (α := RX ρ) w) W ∧
    (0 < ∑ j, W j → 2 * (rowRel u (stepError u η V nc eb) N M c * ∑ j, W j + rowAbs u η M c) ≤ ∑ j, W j →
      normalizeVec (α := RX ρ) w = normalizeRow (α := RX ρ) w) := by
  have hacc := h.budget.range.acc
  have hu := hacc.u_nonneg
  have hη := hacc.η_nonneg
  have hs := h.seq_nonneg
  have hW0 : ∀ i, 0 ≤ W i := fun i => (hw i).1
  have hD1 : 0 ≤ cntRel u (stepError u η V nc eb) N M := hs.trans (le_stageRel hs hu _)
  have hA1 : 0 ≤ stageAbs (η + η) u (M + 1) := by unfold stageAbs; positivity
  have hrel : stageRel (cntRel u (stepError u η V nc eb) N M) u k ≤ rowRel u (stepError u η V nc eb) N M c := by
    unfold rowRel cntRel
    rw [stageRel_stageRel]
    exact stageRel_mono hs hu (by omega)
  have habs : stageAbs (stageAbs (η + η) u (M + 1) + η) u k ≤ rowAbs u η M c :=
    (stageAbs_mono (by linarith) hu hk).trans (stage_rowAbs hu hη M c)
  have hR0 : 0 ≤ rowRel u (stepError u η V nc eb) N M c := hs.trans (le_stageRel hs hu _)
  have hA0 : 0 ≤ rowAbs u η M c := by unfold rowAbs; positivity
  have hsum0 : 0 ≤ ∑ j, W j := Finset.sum_nonneg fun j _ => hW0 j
  have hsumle : ∑ j, W j ≤ c * (M + Q) := by
    have h1 : ∑ j, W j ≤ ∑ _j : Fin k, ((M : ℝ) + Q) := Finset.sum_le_sum fun j _ => hW j
    have h2 : (k : ℝ) ≤ c := by exact_mod_cast hk
    have h3 : (0 : ℝ) ≤ M + Q := add_nonneg (Nat.cast_nonneg _) h.Q_nonneg
    simp only [Finset.sum_const, Finset.card_univ, Fintype.card_fin, nsmul_eq_mul] at h1
    nlinarith
  have hsum := CountNear.sumF hacc h.zero hD1 hA1 hw (by
    refine le_trans (add_le_add ?_ habs) h.range
    exact mul_le_mul (by linarith) hsumle hsum0 (by linarith))
  have hsum' := hsum.mono hrel habs
  have hw' : ∀ i, CountNear (rowRel u (stepError u η V nc eb) N M c) (rowAbs u η M c) (w i) (W i) := fun i =>
    (hw i).mono (by
      unfold rowRel cntRel; exact stageRel_mono hs hu (by omega)) (stage_le_rowAbs hu hη M h.c_pos)
  have h3Ω : 3 ≤ Ω := by have := h.budget.range.range; have := h.budget.range.V_nonneg; linarith
  have hsne : 0 < ∑ j, W j → 2 * (rowRel u (stepError u η V nc eb) N M c * ∑ j, W j + rowAbs u η M c) ≤ ∑ j, W j →
      FloatLike.eq (α := RX ρ) (sumF (α := RX ρ) w) 0 = false := by
    intro hpos hsup
    obtain ⟨-, s, hs1, hs2, -⟩ := hsum'
    rw [hs1, eq_zero_rx, decide_eq_false_iff_not]
    rintro rfl
    rw [zero_sub, abs_neg, abs_of_pos hpos] at hs2
    linarith
  refine ⟨⟨fun h0 i => ?_, fun hpos hsup i => ?_⟩, fun hpos hsup => ?_⟩
  · have hz : ∀ j, W j = 0 := fun j =>
      (Finset.sum_eq_zero_iff_of_nonneg fun j _ => hW0 j).1 h0 j (Finset.mem_univ j)
    have e1 : sumF (α := RX ρ) w = (XF.fin 0 : RX ρ) := by
      obtain ⟨-, s, hs1, -, hs3⟩ := hsum; rw [hs1, hs3 h0]
    have e2 : w i = (XF.fin 0 : RX ρ) := by obtain ⟨-, r, h1, -, h2⟩ := hw i; rw [h1, h2 (hz i)]
    unfold normalizeRow
    simp only [e1, e2, eq_zero_rx, decide_true, if_true]
    show ρ.ap (XF.div (XF.fin 0) (XF.fin 1)) = _
    have : XF.div (XF.fin 0) (XF.fin 1) = XF.fin (0 / 1) := XF.fin_div 0 1 one_ne_zero
    rw [this, zero_div]; exact h.zero
  · unfold normalizeRow
    simp only [hsne hpos hsup, Bool.false_eq_true, if_false]
    exact CountNear.share hacc h.zero h3Ω h.u_le.2 hR0 hA0 (hw' i) hsum'
      (Finset.single_le_sum (fun j _ => hW0 j) (Finset.mem_univ i)) hpos hsup
  · funext i
    unfold normalizeRow normalizeVec
    simp only [hsne hpos hsup, Bool.false_eq_true, if_false]

/-- A row of the new `transmat_`. -/
theorem Spec.LogEMBudget.transRow (h : LogEMBudget ρ u η Ω V nc N ℓ eb M c Q) (hc : nc ≤ c)
    {prior old stat : Fin nc → ℝ} (hp : ∀ i, 1 ≤ prior i) (hpQ : ∀ i, prior i - 1 ≤ Q) {stat' : Row (RX ρ) nc}
    (hM : ∀ i, stat i ≤ M)
    (hs : ∀ i, CountNear (stageRel (seqRel (stepError u η V nc eb) N) u M) (stageAbs (η + η) u M) (stat' i) (stat i)) :
    ShareNear u η (rowRel u (stepError u η V nc eb) N M c) (rowAbs u η M c)
      (mstepTransRow (α := RX ρ) (fun i => XF.fin (prior i)) (fun i => XF.fin (old i)) stat')
      (mapCounts prior old stat) := by
  have hMQ : (0 : ℝ) ≤ M + Q := add_nonneg (Nat.cast_nonneg _) h.Q_nonneg
  unfold mstepTransRow
  simp only [memo_eq]
  exact (h.share hc (mapCounts_le hMQ fun i => by linarith [hM i, hpQ i]) (h.counts hp hpQ hM hs)).1

/-- The new `startprob_`. -/
theorem Spec.LogEMBudget.startRow (h : LogEMBudget ρ u η Ω V nc N ℓ eb M c Q) (hc : nc ≤ c)
    {prior old stat : Fin nc → ℝ} (hp : ∀ i, 1 ≤ prior i) (hpQ : ∀ i, prior i - 1 ≤ Q) {stat' : Row (RX ρ) nc}
    (hM : ∀ i, stat i ≤ M)
    (hs : ∀ i, CountNear (stageRel (seqRel (stepError u η V nc eb) N) u M) (stageAbs (η + η) u M) (stat' i) (stat i))
    (hpos : 0 < ∑ j, mapCounts prior old stat j)
    (hsup : 2 * (rowRel u (stepError u η V nc eb) N M c * ∑ j, mapCounts prior old stat j + rowAbs u η M c) ≤
      ∑ j, mapCounts prior old stat j) :
    ShareNear u η (rowRel u (stepError u η V nc eb) N M c) (rowAbs u η M c)
      (mstepStart (α := RX ρ) (fun i => XF.fin (prior i)) (fun i => XF.fin (old i)) stat')
      (mapCounts prior old stat) := by
  have hMQ : (0 : ℝ) ≤ M + Q := add_nonneg (Nat.cast_nonneg _) h.Q_nonneg
  unfold mstepStart
  simp only [memo_eq]
  obtain ⟨h1, h2⟩ := h.share hc (mapCounts_le hMQ fun i => by linarith [hM i, hpQ i]) (h.counts hp hpQ (old := old) hM hs)
  rw [h2 hpos hsup]
  exact h1

/-- A row of the new `emissionprob_`. -/
theorem Spec.LogEMBudget.emitRow (h : LogEMBudget ρ u η Ω V nc N ℓ eb M c Q) {nf : ℕ} (hc : nf ≤ c)
    {prior stat : Fin nf → ℝ} (hp : ∀ i, 1 ≤ prior i) (hpQ : ∀ i, prior i - 1 ≤ Q) {stat' : Fin nf → RX ρ}
    (hM : ∀ i, stat i ≤ M)
    (hs : ∀ i, CountNear (stageRel (seqRel (stepError u η V nc eb) N) u M) (stageAbs (η + η) u M) (stat' i) (stat i)) :
    ShareNear u η (rowRel u (stepError u η V nc eb) N M c) (rowAbs u η M c)
      (Categorical.mstepRow (α := RX ρ) (fun i => XF.fin (prior i)) stat')
      (mapCounts prior (fun _ => 1) stat) := by
  have hMQ : (0 : ℝ) ≤ M + Q := add_nonneg (Nat.cast_nonneg _) h.Q_nonneg
  unfold Categorical.mstepRow
  simp only [memo_eq]
  refine (h.share hc (mapCounts_le hMQ fun i => by linarith [hM i, hpQ i]) fun i => ?_).1
  have := h.pseudo (hp i) (hpQ i) (hM i) (hs i)
  simpa [mapCounts] using this

/-! ## New parameters are probabilities of the format -/

theorem Spec.LogEMBudget.counts_grid (g : Grid ρ) (h : LogEMBudget ρ u η Ω V nc N ℓ eb M c Q) {k : ℕ}
    {prior old stat : Fin k → ℝ} (hp : ∀ i, 1 ≤ prior i) (hpQ : ∀ i, prior i - 1 ≤ Q) {stat' : Fin k → RX ρ}
    (hM : ∀ i, stat i ≤ M)
    (hs : ∀ i, CountNear (stageRel (seqRel (stepError u η V nc eb) N) u M) (stageAbs (η + η) u M) (stat' i) (stat i)) :
    ∃ a : Fin k → ℝ, ∀ i, ((if FloatLike.eq (α := RX ρ) (XF.fin (old i)) 0 then (0 : RX ρ) else
        npMaximum (α := RX ρ) (RX.fin ρ (prior i) - (1 : RX ρ) + stat' i) 0) : RX ρ) = XF.fin (a i) ∧
      0 ≤ a i ∧ ρ.rnd (a i) = .fin (a i) := by
  have key : ∀ i, ∃ a : ℝ, ((if FloatLike.eq (α := RX ρ) (XF.fin (old i)) 0 then (0 : RX ρ) else
        npMaximum (α := RX ρ) (RX.fin ρ (prior i) - (1 : RX ρ) + stat' i) 0) : RX ρ) = XF.fin a ∧
      0 ≤ a ∧ ρ.rnd a = .fin a := by
    intro i
    obtain ⟨-, a, ha, -, -⟩ := h.counts hp hpQ (old := old) hM hs i
    refine ⟨a, ha, ?_⟩
    split at ha
    · have : XF.fin 0 = XF.fin a := ha
      cases this
      exact ⟨le_rfl, g.zero⟩
    · exact npMaximum_grid g _ _ ha
  choose a ha using key
  exact ⟨a, ha⟩

theorem Spec.LogEMBudget.transRow_grid (g : Grid ρ) (h : LogEMBudget ρ u η Ω V nc N ℓ eb M c Q)
    {prior old stat : Fin nc → ℝ} (hp : ∀ i, 1 ≤ prior i) (hpQ : ∀ i, prior i - 1 ≤ Q) {stat' : Row (RX ρ) nc}
    (hM : ∀ i, stat i ≤ M)
    (hs : ∀ i, CountNear (stageRel (seqRel (stepError u η V nc eb) N) u M) (stageAbs (η + η) u M) (stat' i) (stat i))
    (i : Fin nc) :
    ∃ p, mstepTransRow (α := RX ρ) (fun i => XF.fin (prior i)) (fun i => XF.fin (old i)) stat' i = XF.fin p ∧
      GridProb ρ p := by
  obtain ⟨a, ha⟩ := h.counts_grid g hp hpQ (old := old) hM hs
  unfold mstepTransRow
  simp only [memo_eq]
  exact normalizeRow_grid g (fun i => (ha i).1) (fun i => (ha i).2.1) (fun i => (ha i).2.2) i

theorem Spec.LogEMBudget.startRow_grid (g : Grid ρ) (h : LogEMBudget ρ u η Ω V nc N ℓ eb M c Q) (hc : nc ≤ c)
    {prior old stat : Fin nc → ℝ} (hp : ∀ i, 1 ≤ prior i) (hpQ : ∀ i, prior i - 1 ≤ Q) {stat' : Row (RX ρ) nc}
    (hM : ∀ i, stat i ≤ M)
    (hs : ∀ i, CountNear (stageRel (seqRel (stepError u η V nc eb) N) u M) (stageAbs (η + η) u M) (stat' i) (stat i))
    (hpos : 0 < ∑ j, mapCounts prior old stat j)
    (hsup : 2 * (rowRel u (stepError u η V nc eb) N M c * ∑ j, mapCounts prior old stat j + rowAbs u η M c) ≤
      ∑ j, mapCounts prior old stat j) (i : Fin nc) :
    ∃ p, mstepStart (α := RX ρ) (fun i => XF.fin (prior i)) (fun i => XF.fin (old i)) stat' i = XF.fin p ∧
      GridProb ρ p := by
  obtain ⟨a, ha⟩ := h.counts_grid g hp hpQ (old := old) hM hs
  have hMQ : (0 : ℝ) ≤ M + Q := add_nonneg (Nat.cast_nonneg _) h.Q_nonneg
  obtain ⟨-, h2⟩ := h.share hc (mapCounts_le hMQ fun i => by linarith [hM i, hpQ i]) (h.counts hp hpQ (old := old) hM hs)
  unfold mstepStart
  simp only [memo_eq]
  rw [h2 hpos hsup]
  exact normalizeRow_grid g (fun i => (ha i).1) (fun i => (ha i).2.1) (fun i => (ha i).2.2) i

theorem Spec.LogEMBudget.emitRow_grid (g : Grid ρ) (h : LogEMBudget ρ u η Ω V nc N ℓ eb M c Q) {nf : ℕ}
    {prior stat : Fin nf → ℝ} (hp : ∀ i, 1 ≤ prior i) (hpQ : ∀ i, prior i - 1 ≤ Q) {stat' : Fin nf → RX ρ}
    (hM : ∀ i, stat i ≤ M)
    (hs : ∀ i, CountNear (stageRel (seqRel (stepError u η V nc eb) N) u M) (stageAbs (η + η) u M) (stat' i) (stat i))
    (i : Fin nf) :
    ∃ p, Categorical.mstepRow (α := RX ρ) (fun i => XF.fin (prior i)) stat' i = XF.fin p ∧ GridProb ρ p := by
  obtain ⟨a, ha⟩ := h.counts_grid g hp hpQ (old := fun _ => 1) hM hs
  have e : ∀ i, npMaximum (α := RX ρ) (RX.fin ρ (prior i) - (1 : RX ρ) + stat' i) 0 = XF.fin (a i) := by
    intro i
    have := (ha i).1
    rw [eq_zero_rx] at this
    simpa using this
  unfold Categorical.mstepRow
  simp only [memo_eq]
  exact normalizeRow_grid g e (fun i => (ha i).2.1) (fun i => (ha i).2.2) i

end Verif
