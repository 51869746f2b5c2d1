import Verif.Props.RoundoffSum
import Verif.Props.RoundoffViterbiDouble

/-!
# C81 for a `CategoricalHMM` in double precision
-/

set_option autoImplicit false

namespace Verif
open FloatLike Hmmc Spec

variable {nc nf n : ℕ} [NeZero nc] {π : Fin nc → ℝ} {A : Fin nc → Fin nc → ℝ}

/-- The log-likelihoods of a `CategoricalHMM` carry one rounding. -/
theorem Categorical.logWithinModel {ρ : Rounding} {u η Ω V ℓ : ℝ} (h : LogRange ρ u η Ω V nc) (hℓ : ℓ ≤ V)
    (prior : Params (RX ρ) nc nf) (impl : Impl) {e : Fin nc → Fin nf → ℝ}
    (hπ : ∀ i, LogBound ℓ (π i)) (hA : ∀ i j, LogBound ℓ (A i j)) (he : ∀ i k, LogBound ℓ (e i k)) :
    LogWithinModel ((emission prior).toHmm impl (paramsRX ρ π A e)) sym ℓ (unitError u η V) π A
      (fun k i => e i k) where
  π_bound := hπ
  A_bound := hA
  b_bound k i := he i k
  startprob i := rfl
  transmat i j := rfl
  lik X := by
    refine ⟨X.map fun k i => FloatLike.log (α := RX ρ) (XF.fin (e i k)), ?_, ?_⟩
    · show logRows (computeLikelihood _ (X.map sym)) = _
      have : X.map sym = X.map fun k => (k.val : Int) := rfl
      rw [this, computeLikelihood_fin]
      simp [logRows, Except.map, paramsRX]
    · rw [List.forall₂_map_left_iff, List.forall₂_same]
      intro k _ i
      exact h.log ((he i k).mono hℓ)

theorem Spec.DoubleProb.logBound {p : ℝ} (h : DoubleProb p) : LogBound 1074 p := by
  rcases h.nonneg.eq_or_lt with h0 | h0
  · exact Or.inl h0.symm
  · exact Or.inr ⟨h0, h.log h0⟩

/-- Range of the logarithms for sequences of `n + 1` samples. -/
noncomputable def doubleSpan (n : ℕ) : ℝ := 2155 * (n + 1)

theorem log_card_le (hnc : nc ≤ 1024) : Real.log nc ≤ 7 := by
  have h1 : (nc : ℝ) ≤ 2 ^ 10 := by norm_num; exact_mod_cast hnc
  have h0 : (0 : ℝ) < nc := by exact_mod_cast NeZero.pos nc
  have h2 := Real.log_le_log h0 h1
  rw [Real.log_pow] at h2
  have := Real.log_two_lt_d9
  push_cast at h2
  linarith

theorem double_η_le : (2⁻¹ : ℝ) ^ 1075 ≤ 2⁻¹ ^ 53 :=
  pow_le_pow_of_le_one (by norm_num) (by norm_num) (by norm_num)

theorem double_unit_le (n : ℕ) :
    unitError (2⁻¹ ^ 53) (2⁻¹ ^ 1075) (doubleSpan n) ≤ 8625 * (n + 1) * 2⁻¹ ^ 53 := by
  have h := double_η_le
  have hU : (0 : ℝ) ≤ 2⁻¹ ^ 53 := by positivity
  have hn : (0 : ℝ) ≤ n := Nat.cast_nonneg _
  unfold unitError doubleSpan
  generalize (2⁻¹ : ℝ) ^ 1075 = E at *
  generalize (2⁻¹ : ℝ) ^ 53 = U at *
  nlinarith

theorem double_step_le (hnc : nc ≤ 1024) (n : ℕ) :
    stepError (2⁻¹ ^ 53) (2⁻¹ ^ 1075) (doubleSpan n) nc (unitError (2⁻¹ ^ 53) (2⁻¹ ^ 1075) (doubleSpan n)) ≤
      (n + 1) * 2⁻¹ ^ 36 := by
  have h := double_η_le
  have hu := double_unit_le n
  have hn : (0 : ℝ) ≤ n := Nat.cast_nonneg _
  have h1 : (nc : ℝ) ≤ 1024 := by exact_mod_cast hnc
  have h0 : (0 : ℝ) ≤ nc := Nat.cast_nonneg _
  have hU : (0 : ℝ) ≤ 2⁻¹ ^ 53 := by positivity
  have h36 : (2⁻¹ : ℝ) ^ 36 = 131072 * 2⁻¹ ^ 53 := by norm_num
  have hE : (0 : ℝ) ≤ 2⁻¹ ^ 1075 := by positivity
  unfold stepError lseError sumExpError
  rw [h36]
  generalize unitError (2⁻¹ ^ 53) (2⁻¹ ^ 1075) (doubleSpan n) = ε at *
  generalize (2⁻¹ : ℝ) ^ 1075 = E at *
  generalize (2⁻¹ : ℝ) ^ 53 = U at *
  have h2 : (nc : ℝ) * (U + E) ≤ 1024 * (2 * U) := mul_le_mul h1 (by linarith) (by linarith) (by norm_num)
  have h3 : 0 ≤ (n : ℝ) * U := by positivity
  nlinarith

theorem double_budget (hnc : nc ≤ 1024) (hn : n < 2 ^ 17) :
    LogBudget double (2⁻¹ ^ 53) (2⁻¹ ^ 1075) (2 ^ 1022) (doubleSpan n) nc n 1074
      (unitError (2⁻¹ ^ 53) (2⁻¹ ^ 1075) (doubleSpan n)) := by
  have hn0 : (0 : ℝ) ≤ n := Nat.cast_nonneg _
  have hn' : (n : ℝ) + 1 ≤ 131072 := by exact_mod_cast hn
  have hnc' : (nc : ℝ) ≤ 1024 := by exact_mod_cast hnc
  have hlog := log_card_le hnc
  have hstep := double_step_le hnc n
  have hbig : (2 : ℝ) ^ 40 ≤ 2 ^ 1022 := pow_le_pow_right₀ one_le_two (by norm_num)
  have hε : 0 ≤ unitError (2⁻¹ ^ 53) (2⁻¹ ^ 1075) (doubleSpan n) := by
    unfold unitError doubleSpan; positivity
  have h36 : (2⁻¹ : ℝ) ^ 36 = 1 / 68719476736 := by norm_num
  have htot : (2 * (n : ℝ) + 3) * stepError (2⁻¹ ^ 53) (2⁻¹ ^ 1075) (doubleSpan n) nc
      (unitError (2⁻¹ ^ 53) (2⁻¹ ^ 1075) (doubleSpan n)) ≤ 1 := by
    refine (mul_le_mul_of_nonneg_left hstep (by positivity)).trans ?_
    rw [h36]
    nlinarith
  have hE : 0 ≤ sumExpError (2⁻¹ ^ 53) (2⁻¹ ^ 1075) (doubleSpan n) nc := by unfold sumExpError; positivity
  refine ⟨⟨double_accurate, ?_, ?_, ?_, ?_, ?_⟩, by norm_num, hε, ?_, htot⟩
  · unfold doubleSpan; positivity
  · unfold doubleSpan; nlinarith
  · refine le_trans ?_ hbig
    unfold doubleSpan; norm_num; nlinarith
  · refine le_trans ?_ hbig
    norm_num; linarith
  · have : 2 * sumExpError (2⁻¹ ^ 53) (2⁻¹ ^ 1075) (doubleSpan n) nc ≤
        stepError (2⁻¹ ^ 53) (2⁻¹ ^ 1075) (doubleSpan n) nc
          (unitError (2⁻¹ ^ 53) (2⁻¹ ^ 1075) (doubleSpan n)) := by
      unfold stepError lseError; linarith
    refine this.trans (le_trans ?_ htot)
    refine le_mul_of_one_le_left ?_ (by linarith)
    linarith
  · unfold doubleSpan stepSpan
    nlinarith

/-- **C81** `CategoricalHMM` with `implementation="log"` (the default) in double precision, up to 1024
states, up to `2 ^ 17` samples, any probabilities that doubles hold: the log-likelihood of the forward
pass is off by at most `(n + 1) (n + 2) 2 ^ -36`, and each posterior by a relative
`(4 n + 7) (n + 1) 2 ^ -36` (plus half the smallest double). -/
theorem C81_categorical_double (hnc : nc ≤ 1024) (prior : Categorical.Params (RX double) nc nf)
    {e : Fin nc → Fin nf → ℝ} (hπ : ∀ i, DoubleProb (π i)) (hA : ∀ i j, DoubleProb (A i j))
    (he : ∀ i k, DoubleProb (e i k)) (s : ObsSeq (Fin nf)) (hn : s.n < 2 ^ 17) :
    ∃ x : RX double,
      scoreOneLog ((Categorical.emission prior).toHmm .log (Categorical.paramsRX double π A e)) false
        (s.rows Categorical.sym) = .ok (x, []) ∧
      LogWithin ((s.n + 1) * (s.n + 2) * 2⁻¹ ^ 36) x (likelihood π A (s.weights fun k i => e i k)) ∧
      (0 < likelihood π A (s.weights fun k i => e i k) → ∃ y : Fin (s.n + 1) → Fin nc → ℝ,
        predictProba ((Categorical.emission prior).toHmm .log (Categorical.paramsRX double π A e))
          (s.rows Categorical.sym) none = .ok (List.ofFn fun t i => XF.fin (y t i)) ∧
        ∀ t i, |y t i - posterior π A (s.weights fun k i => e i k) t i| ≤
          (4 * s.n + 7) * (s.n + 1) * 2⁻¹ ^ 36 * posterior π A (s.weights fun k i => e i k) t i + 2⁻¹ ^ 1075) := by
  have hb := double_budget (nc := nc) hnc hn
  have hm := Categorical.logWithinModel hb.range hb.ℓ_le prior .log (e := e) (fun i => (hπ i).logBound)
    (fun i j => (hA i j).logBound) (fun i k => (he i k).logBound)
  have hst := double_step_le (nc := nc) hnc s.n
  obtain ⟨x, h1, h2, -, h3⟩ := scoreOneLog_rounded hb hm s le_rfl
  refine ⟨x, h1, h2.mono ?_, fun hpos => ?_⟩
  · refine (mul_le_mul_of_nonneg_left hst (by positivity)).trans (le_of_eq ?_)
    ring
  · obtain ⟨y, h4, h5⟩ := h3 hpos
    refine ⟨y, ?_, fun t i => (h5 t i).trans ?_⟩
    · unfold predictProba scoreSamples scoreCore
      have : ((Categorical.emission prior).toHmm .log (Categorical.paramsRX double π A e)).implementation = .log := rfl
      simp only [splitXLengths, bind, Except.bind, seqLoop, this, h4, List.nil_append]
      rfl
    · have hp : 0 ≤ posterior π A (s.weights fun k i => e i k) t i :=
        div_nonneg (Finset.sum_nonneg fun z _ => joint_nonneg (fun i => (hπ i).nonneg)
          (fun i j => (hA i j).nonneg) (fun t i => (he i _).nonneg) z) hpos.le
      refine add_le_add ?_ le_rfl
      refine mul_le_mul_of_nonneg_right ?_ hp
      refine (mul_le_mul_of_nonneg_left hst (by positivity)).trans (le_of_eq ?_)
      ring

/-! A left-to-right model with an impossible transition and 101 samples: the score is within
`2 ^ -22` of the log-likelihood. -/

example : ∃ x : RX double,
    scoreOneLog ((Categorical.emission (α := RX double) fun _ _ => XF.fin 1).toHmm .log
        (Categorical.paramsRX double DemoDouble.p0 DemoDouble.pA DemoDouble.pe)) false
      (ObsSeq.rows Categorical.sym ⟨100, fun _ => (0 : Fin 2)⟩) = .ok (x, []) ∧
    LogWithin (2⁻¹ ^ 22) x (likelihood DemoDouble.p0 DemoDouble.pA
      (ObsSeq.weights (fun k i => DemoDouble.pe i k) ⟨100, fun _ => (0 : Fin 2)⟩)) := by
  obtain ⟨x, h1, h2, -⟩ := C81_categorical_double (π := DemoDouble.p0) (A := DemoDouble.pA) (e := DemoDouble.pe)
    (by norm_num) (fun _ _ => XF.fin 1)
    (fun i => by unfold DemoDouble.p0; split; exacts [DemoDouble.one, Or.inl rfl])
    (fun i j => by unfold DemoDouble.pA; split; exacts [DemoDouble.half, by split; exacts [Or.inl rfl, DemoDouble.one]])
    (fun i k => DemoDouble.half) ⟨100, fun _ => (0 : Fin 2)⟩ (by norm_num)
  exact ⟨x, h1, h2.mono (by norm_num)⟩

end Verif
