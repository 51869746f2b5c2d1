import Verif.Props.RoundoffViterbi
import Verif.Num.Double
import Mathlib.Analysis.Complex.ExponentialBounds

/-!
# C77 for a `CategoricalHMM` in double precision
-/

set_option autoImplicit false

namespace Verif
open FloatLike Hmmc Spec

variable {nc nf n : ℕ} [NeZero nc] {π : Fin nc → ℝ} {A : Fin nc → Fin nc → ℝ}

namespace Categorical

/-- Parameters of a `CategoricalHMM` as numbers of the rounded arithmetic. -/
noncomputable def paramsRX (ρ : Rounding) (π : Fin nc → ℝ) (A : Fin nc → Fin nc → ℝ)
    (e : Fin nc → Fin nf → ℝ) : Theta (RX ρ) nc (Params (RX ρ) nc nf) :=
  ⟨fun i => XF.fin (π i), fun i j => XF.fin (A i j), fun i k => XF.fin (e i k)⟩

/-- A `CategoricalHMM` takes the logarithms of the emission probabilities it looks up: one rounding. -/
theorem logApproximates {ρ : Rounding} {u η Ω : ℝ} (ha : Accurate ρ u η Ω)
    (prior : Params (RX ρ) nc nf) (impl : Impl) {e : Fin nc → Fin nf → ℝ}
    (hπ : ∀ i, 0 ≤ π i) (hA : ∀ i j, 0 ≤ A i j) (he : ∀ i k, 0 ≤ e i k)
    (hΩ : ∀ i k, 0 < e i k → |Real.log (e i k)| ≤ Ω) :
    LogApproximates ((emission prior).toHmm impl (paramsRX ρ π A e)) sym u η 1 1 π A (fun k i => e i k) where
  π_nonneg := hπ
  A_nonneg := hA
  b_nonneg k i := he i k
  startprob i := rfl
  transmat i j := rfl
  lik X := by
    refine ⟨X.map fun k i => FloatLike.log (α := RX ρ) (XF.fin (e i k)), ?_, ?_⟩
    · show logRows (computeLikelihood _ (X.map sym)) = _
      have : X.map sym = X.map fun k => (k.val : Int) := rfl
      rw [this, computeLikelihood_fin]
      simp [logRows, Except.map, paramsRX]
    · rw [List.forall₂_map_left_iff, List.forall₂_same]
      intro k _ i
      rcases (he i k).eq_or_lt with h0 | h0
      · left; show e i k = 0 ∧ FloatLike.log (α := RX ρ) (XF.fin (e i k)) = XF.ninf
        rw [← h0]; exact ⟨rfl, log_zero'⟩
      · right
        obtain ⟨-, y, hy, hd⟩ := Off.log ha h0 (hΩ i k h0)
        exact ⟨h0, y, hy, hd⟩

end Categorical

/-- Positive entries are at least the smallest positive double, and at most one. -/
def Spec.DoubleProb (p : ℝ) : Prop := p = 0 ∨ (2⁻¹ ^ 1074 ≤ p ∧ p ≤ 1)

theorem Spec.DoubleProb.nonneg {p : ℝ} (h : DoubleProb p) : 0 ≤ p := by
  rcases h with rfl | ⟨h, -⟩
  · exact le_rfl
  · exact le_trans (by positivity) h

theorem Spec.DoubleProb.le_one {p : ℝ} (h : DoubleProb p) : p ≤ 1 := by
  rcases h with rfl | ⟨-, h⟩
  · exact zero_le_one
  · exact h

theorem Spec.DoubleProb.log {p : ℝ} (h : DoubleProb p) (hp : 0 < p) : |Real.log p| ≤ 1074 := by
  rcases h with rfl | ⟨h1, h2⟩
  · exact absurd hp (lt_irrefl _)
  rw [abs_of_nonpos (Real.log_nonpos hp.le h2)]
  have h3 : Real.log (2⁻¹ ^ 1074) ≤ Real.log p := Real.log_le_log (by positivity) h1
  rw [Real.log_pow, Real.log_inv] at h3
  have h4 := Real.log_two_lt_d9
  push_cast at h3
  linarith

/-- The magnitude of the logarithms of a path of probabilities is its log-probability. -/
theorem logMass_eq {B : Fin (n + 1) → Fin nc → ℝ} (hπ : ∀ i, 0 ≤ π i ∧ π i ≤ 1)
    (hA : ∀ i j, 0 ≤ A i j ∧ A i j ≤ 1) (hB : ∀ t i, 0 ≤ B t i ∧ B t i ≤ 1) (z : Fin (n + 1) → Fin nc)
    (hz : 0 < joint π A B z) : logMass π A B z = -Real.log (joint π A B z) := by
  obtain ⟨h1, h2, h3⟩ := (joint_pos_iff (fun i => (hπ i).1) (fun i j => (hA i j).1) (fun t i => (hB t i).1) z).1 hz
  unfold logMass joint
  rw [Real.log_mul (mul_pos h1 (Finset.prod_pos fun t _ => h2 t)).ne' (Finset.prod_pos fun t _ => h3 t).ne',
    Real.log_mul h1.ne' (Finset.prod_pos fun t _ => h2 t).ne', Real.log_prod fun t _ => (h2 t).ne',
    Real.log_prod fun t _ => (h3 t).ne', abs_of_nonpos (Real.log_nonpos (hπ _).1 (hπ _).2),
    Finset.sum_congr rfl fun t _ => abs_of_nonpos (Real.log_nonpos (hB t (z t)).1 (hB t (z t)).2),
    Finset.sum_congr rfl fun (t : Fin n) _ =>
      abs_of_nonpos (Real.log_nonpos (hA (z t.castSucc) (z t.succ)).1 (hA (z t.castSucc) (z t.succ)).2),
    Finset.sum_neg_distrib, Finset.sum_neg_distrib]
  ring

theorem logMass_le {B : Fin (n + 1) → Fin nc → ℝ} (hπ : ∀ i, DoubleProb (π i))
    (hA : ∀ i j, DoubleProb (A i j)) (hB : ∀ t i, DoubleProb (B t i)) (z : Fin (n + 1) → Fin nc)
    (hz : 0 < joint π A B z) : logMass π A B z ≤ (2 * n + 2) * 1074 := by
  obtain ⟨h1, h2, h3⟩ := (joint_pos_iff (fun i => (hπ i).nonneg) (fun i j => (hA i j).nonneg)
    (fun t i => (hB t i).nonneg) z).1 hz
  have e1 := (hπ _).log h1
  have e2 : ∑ t, |Real.log (B t (z t))| ≤ ∑ _t : Fin (n + 1), (1074 : ℝ) :=
    Finset.sum_le_sum fun t _ => (hB _ _).log (h3 t)
  have e3 : ∑ t : Fin n, |Real.log (A (z t.castSucc) (z t.succ))| ≤ ∑ _t : Fin n, (1074 : ℝ) :=
    Finset.sum_le_sum fun t _ => (hA _ _).log (h2 t)
  simp only [Finset.sum_const, Finset.card_univ, Fintype.card_fin, nsmul_eq_mul] at e2 e3
  push_cast at e2
  unfold logMass
  linarith

/-- `(1 + u) ^ k` is about `1 + k u`. -/
theorem pow_unit_le {k : ℕ} (hk : (k : ℝ) ≤ 2 ^ 53) :
    (1 + (2⁻¹ : ℝ) ^ 53) ^ k - 1 ≤ 2 * (k * 2⁻¹ ^ 53) := by
  have hx0 : (0 : ℝ) ≤ k * 2⁻¹ ^ 53 := by positivity
  have hx1 : (k : ℝ) * 2⁻¹ ^ 53 ≤ 1 := by
    rw [inv_pow, ← div_eq_mul_inv, div_le_one (by positivity)]; exact hk
  have h1 : (1 + (2⁻¹ : ℝ) ^ 53) ^ k ≤ Real.exp (k * 2⁻¹ ^ 53) := by
    rw [Real.exp_nat_mul]
    refine pow_le_pow_left₀ (by positivity) ?_ k
    rw [add_comm]; exact Real.add_one_le_exp _
  have h2 := Real.abs_exp_sub_one_le (x := k * 2⁻¹ ^ 53) (by rw [abs_of_nonneg hx0]; exact hx1)
  rw [abs_of_nonneg hx0] at h2
  linarith [le_abs_self (Real.exp (k * 2⁻¹ ^ 53) - 1)]

/-- **C77** `CategoricalHMM` in double precision, probabilities at least `2 ^ -1074` where positive, up to
`2 ^ 50` samples: the log-probability of the returned path is below that of any other path by at
most a relative `(4 n + 6) 2 ^ -53` (and a contribution of the order of the smallest double). -/
theorem C77_categorical_double (prior : Categorical.Params (RX double) nc nf) (impl : Impl)
    {e : Fin nc → Fin nf → ℝ} (hπ : ∀ i, DoubleProb (π i)) (hA : ∀ i j, DoubleProb (A i j))
    (he : ∀ i k, DoubleProb (e i k)) (s : ObsSeq (Fin nf)) (hn : s.n < 2 ^ 50) :
    ∃ (z : Fin (s.n + 1) → Fin nc) (v : RX double),
      decode ((Categorical.emission prior).toHmm impl (Categorical.paramsRX double π A e)) .viterbi
        (s.rows Categorical.sym) none = .ok (v, List.ofFn z) ∧
      ∀ z', 0 < joint π A (s.weights fun k i => e i k) z' →
        0 < joint π A (s.weights fun k i => e i k) z ∧
        Real.log (joint π A (s.weights fun k i => e i k) z') ≤
          Real.log (joint π A (s.weights fun k i => e i k) z) +
          (4 * s.n + 6) * 2⁻¹ ^ 53 * (|Real.log (joint π A (s.weights fun k i => e i k) z)| +
            |Real.log (joint π A (s.weights fun k i => e i k) z')|) + (24 * s.n + 18) * 2⁻¹ ^ 1075 := by
  have hB : ∀ t i, DoubleProb (s.weights (fun k i => e i k) t i) := fun t i => he i (s.x t)
  have hn' : (s.n : ℝ) ≤ 1125899906842624 := by exact_mod_cast hn.le
  have hk : ((scoreRoundings s.n 1 : ℕ) : ℝ) ≤ 2 ^ 53 := by
    unfold scoreRoundings
    push_cast
    norm_num
    linarith
  have hp := pow_unit_le hk
  have hp3 : (1 + (2⁻¹ : ℝ) ^ 53) ^ scoreRoundings s.n 1 ≤ 3 := by
    have : ((scoreRoundings s.n 1 : ℕ) : ℝ) * 2⁻¹ ^ 53 ≤ 1 := by
      rw [inv_pow, ← div_eq_mul_inv, div_le_one (by positivity)]; exact hk
    linarith
  have hη1 : (2⁻¹ : ℝ) ^ 1075 ≤ 1 := pow_le_one₀ (by norm_num) (by norm_num)
  have hη0 : (0 : ℝ) ≤ 2⁻¹ ^ 1075 := by positivity
  have hbig : (2 : ℝ) ^ 100 ≤ 2 ^ 1022 := pow_le_pow_right₀ one_le_two (by norm_num)
  have hN0 : (0 : ℝ) ≤ s.n := Nat.cast_nonneg _
  have hC : ((scoreTerms s.n 1 : ℕ) : ℝ) = 4 * s.n + 3 := by unfold scoreTerms; push_cast; ring
  have happ := Categorical.logApproximates double_accurate prior impl (e := e) (fun i => (hπ i).nonneg)
    (fun i j => (hA i j).nonneg) (fun i k => (he i k).nonneg) fun i k h0 => ((he i k).log h0).trans (by
      refine le_trans ?_ hbig; norm_num)
  have hr : ScoresInRange (2⁻¹ ^ 53) (2⁻¹ ^ 1075) (2 ^ 1022) 1 1 π A (s.weights fun k i => e i k) := by
    intro z hz
    have h1 := logMass_le hπ hA hB z hz
    have h0 := logMass_nonneg π A (s.weights fun k i => e i k) z
    have h2 : ((scoreTerms s.n 1 : ℕ) : ℝ) * 2⁻¹ ^ 1075 ≤ 4 * s.n + 3 := by
      rw [hC]; exact mul_le_of_le_one_right (by positivity) hη1
    have h3 : (0 : ℝ) ≤ ((scoreTerms s.n 1 : ℕ) : ℝ) * 2⁻¹ ^ 1075 := by positivity
    have h4 : logMass π A (s.weights fun k i => e i k) z + ((scoreTerms s.n 1 : ℕ) : ℝ) * 2⁻¹ ^ 1075 ≤
        (2 * s.n + 2) * 1074 + (4 * s.n + 3) := add_le_add h1 h2
    refine (mul_le_mul hp3 h4 (add_nonneg h0 h3) (by norm_num)).trans (le_trans ?_ hbig)
    norm_num
    linarith
  obtain ⟨z, v, h1, h2, -⟩ := decodeViterbi_rounded double_accurate happ s hr
  refine ⟨z, (0 : RX double) + v, ?_, fun z' hz' => ?_⟩
  · unfold decode
    simp only [splitXLengths, bind, Except.bind, seqLoop, h1]
    rfl
  · obtain ⟨hz, hle⟩ := h2 z' hz'
    refine ⟨hz, hle.trans ?_⟩
    have hm := fun z hz => logMass_eq (fun i => ⟨(hπ i).nonneg, (hπ i).le_one⟩)
      (fun i j => ⟨(hA i j).nonneg, (hA i j).le_one⟩) (fun t i => ⟨(hB t i).nonneg, (hB t i).le_one⟩) z hz
    have herr : ∀ z, 0 < joint π A (s.weights fun k i => e i k) z →
        pathError (2⁻¹ ^ 53) (2⁻¹ ^ 1075) 1 1 π A (s.weights fun k i => e i k) z ≤
          (4 * s.n + 6) * 2⁻¹ ^ 53 * |Real.log (joint π A (s.weights fun k i => e i k) z)| +
            (12 * s.n + 9) * 2⁻¹ ^ 1075 := by
      intro z hz
      have h0 := logMass_nonneg π A (s.weights fun k i => e i k) z
      have : |Real.log (joint π A (s.weights fun k i => e i k) z)| =
          logMass π A (s.weights fun k i => e i k) z := by
        rw [hm z hz] at h0 ⊢
        rw [abs_of_nonpos (by linarith)]
      rw [this]
      unfold pathError sumError
      refine add_le_add (mul_le_mul_of_nonneg_right (hp.trans (le_of_eq ?_)) h0) ?_
      · unfold scoreRoundings; push_cast; ring
      · rw [hC]
        refine (mul_le_mul_of_nonneg_right hp3 (by positivity)).trans (le_of_eq ?_)
        ring
    have e1 := herr z hz
    have e2 := herr z' hz'
    generalize (2⁻¹ : ℝ) ^ 1075 = E at *
    generalize (2⁻¹ : ℝ) ^ 53 = U at *
    linarith

/-! A left-to-right model with an impossible transition: the path is nearly the most
probable one, and possible. -/

namespace DemoDouble

theorem half : DoubleProb (1 / 2) := by
  refine Or.inr ⟨?_, by norm_num⟩
  calc (2⁻¹ : ℝ) ^ 1074 ≤ 2⁻¹ ^ 1 := pow_le_pow_of_le_one (by norm_num) (by norm_num) (by norm_num)
    _ = 1 / 2 := by norm_num

theorem one : DoubleProb 1 := Or.inr ⟨pow_le_one₀ (by norm_num) (by norm_num), le_rfl⟩

noncomputable def p0 : Fin 2 → ℝ := fun i => if i = 0 then 1 else 0
noncomputable def pA : Fin 2 → Fin 2 → ℝ := fun i j => if i = 0 then 1 / 2 else if j = 0 then 0 else 1
noncomputable def pe : Fin 2 → Fin 2 → ℝ := fun _ _ => 1 / 2

example (n : ℕ) (hn : n < 2 ^ 50) : ∃ (z : Fin (n + 1) → Fin 2) (v : RX double),
    decode ((Categorical.emission (α := RX double) fun _ _ => XF.fin 1).toHmm .log (Categorical.paramsRX double p0 pA pe))
      .viterbi (ObsSeq.rows Categorical.sym ⟨n, fun _ => (0 : Fin 2)⟩) none = .ok (v, List.ofFn z) ∧
    0 < joint p0 pA (ObsSeq.weights (fun k i => pe i k) ⟨n, fun _ => (0 : Fin 2)⟩) z := by
  obtain ⟨z, v, h1, h2⟩ := C77_categorical_double (π := p0) (A := pA) (e := pe) (fun _ _ => XF.fin 1) .log
    (fun i => by unfold p0; split; exacts [one, Or.inl rfl])
    (fun i j => by unfold pA; split; exacts [half, by split; exacts [Or.inl rfl, one]])
    (fun i k => half) ⟨n, fun _ => (0 : Fin 2)⟩ hn
  refine ⟨z, v, h1, (h2 (fun _ => 0) ?_).1⟩
  unfold joint
  refine mul_pos (mul_pos ?_ (Finset.prod_pos fun t _ => ?_)) (Finset.prod_pos fun t _ => ?_) <;>
    simp [p0, pA, pe, ObsSeq.weights]

end DemoDouble

end Verif
