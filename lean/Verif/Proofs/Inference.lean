import Verif.Proofs.Scaling
import Verif.Proofs.Viterbi
import Verif.Spec.Represents

/-!
# Inference methods on estimators that represent a real HMM
-/

namespace Verif
open FloatLike XF Hmmc Spec

variable {nc n : ℕ} {Obs D : Type}

theorem map_ofFn_row (b : D → Fin nc → ℝ) (x : Fin n → D) :
    ((List.ofFn x).map fun o i => XF.fin (b o i)) = List.ofFn fun t => finRow (b (x t)) := by
  rw [List.map_ofFn]; rfl

theorem ofFn_map_obs (obs : D → Obs) (x : Fin n → D) :
    (List.ofFn fun t => obs (x t)) = (List.ofFn x).map obs := by
  rw [List.map_ofFn]; rfl

theorem map_ofFn_lgRow (b : D → Fin nc → ℝ) (x : Fin n → D) :
    ((List.ofFn x).map fun o i => FloatLike.log (XF.fin (b o i))) =
      List.ofFn fun t => lgRow (b (x t)) := by
  rw [List.map_ofFn]; rfl

theorem Spec.Represents.startprob_finRow {m : Hmm XF nc Obs} {π : Fin nc → ℝ}
    {A : Fin nc → Fin nc → ℝ} {b : D → Fin nc → ℝ} {obs : D → Obs} (h : Represents m obs π A b) :
    m.startprob = finRow π := h.startprob_eq

theorem Spec.Represents.transmat_finMat {m : Hmm XF nc Obs} {π : Fin nc → ℝ}
    {A : Fin nc → Fin nc → ℝ} {b : D → Fin nc → ℝ} {obs : D → Obs} (h : Represents m obs π A b) :
    m.transmat = finMat A := h.transmat_eq

variable [NeZero nc] {m : Hmm XF nc Obs} {π : Fin nc → ℝ} {A : Fin nc → Fin nc → ℝ}
  {b : D → Fin nc → ℝ} {obs : D → Obs}

theorem scoreOneLog_false (h : Represents m obs π A b) (x : Fin (n + 1) → D) :
    scoreOneLog m false (List.ofFn fun t => obs (x t)) = .ok (lg (likelihood π A fun t => b (x t)), []) := by
  unfold scoreOneLog
  rw [ofFn_map_obs, h.loglik_eq, map_ofFn_lgRow, h.startprob_finRow, h.transmat_finMat]
  have := forwardLog_ofFn (B := fun t => b (x t)) h.π_nonneg h.A_nonneg (fun t => h.b_nonneg _)
  simp only [bind, Except.bind, this]
  rfl

theorem scoreOneLog_true' (h : Represents m obs π A b) (x : Fin (n + 1) → D) :
    scoreOneLog m true (List.ofFn fun t => obs (x t)) = .ok (lg (likelihood π A fun t => b (x t)),
      List.ofFn fun t i => FloatLike.exp (logNormalizeRow
        (fun i => lg (stateMass π A (fun t => b (x t)) t i)) i)) := by
  unfold scoreOneLog
  rw [ofFn_map_obs, h.loglik_eq, map_ofFn_lgRow, h.startprob_finRow, h.transmat_finMat]
  have h1 := forwardLog_ofFn (B := fun t => b (x t)) h.π_nonneg h.A_nonneg (fun t => h.b_nonneg _)
  have h2 := backwardLog_ofFn (B := fun t => b (x t)) h.A_nonneg (fun t => h.b_nonneg _)
  have h3 := computePosteriorsLog_eq (B := fun t => b (x t)) h.π_nonneg h.A_nonneg
    (fun t => h.b_nonneg _)
  simp only [bind, Except.bind, h1, h2, h3]
  rfl

theorem scoreOneLog_true (h : Represents m obs π A b) (x : Fin (n + 1) → D)
    (hL : 0 < likelihood π A fun t => b (x t)) :
    scoreOneLog m true (List.ofFn fun t => obs (x t)) = .ok (lg (likelihood π A fun t => b (x t)),
      List.ofFn fun t i => fin (posterior π A (fun t => b (x t)) t i)) := by
  rw [scoreOneLog_true' h]
  congr 3
  funext t i
  rw [exp_logNormalizeRow_lg _ (fun i => stateMass_nonneg h.π_nonneg h.A_nonneg
    (fun t => h.b_nonneg _) t i) (by rw [← likelihood_eq_sum_stateMass]; exact hL),
    ← likelihood_eq_sum_stateMass]
  rfl

open Classical in
theorem scoreOneScaling_false (h : Represents m obs π A b) (x : Fin (n + 1) → D) :
    scoreOneScaling m false (List.ofFn fun t => obs (x t)) =
      if NoUnderflow π A (fun t => b (x t)) then .ok (lg (likelihood π A fun t => b (x t)), [])
      else .error .underflow := by
  unfold scoreOneScaling
  rw [ofFn_map_obs, h.lik_eq, map_ofFn_row, h.startprob_finRow, h.transmat_finMat]
  have h1 := forwardScaling_ofFn π A (fun t => b (x t))
  simp only [bind, Except.bind, h1]
  by_cases hu : NoUnderflow π A (fun t => b (x t))
  · simp only [hu, if_true]; rfl
  · simp only [hu, if_false]

open Classical in
theorem scoreOneScaling_true (h : Represents m obs π A b) (x : Fin (n + 1) → D) :
    scoreOneScaling m true (List.ofFn fun t => obs (x t)) =
      if NoUnderflow π A (fun t => b (x t)) then .ok (lg (likelihood π A fun t => b (x t)),
        List.ofFn fun t i => fin (posterior π A (fun t => b (x t)) t i))
      else .error .underflow := by
  unfold scoreOneScaling
  rw [ofFn_map_obs, h.lik_eq, map_ofFn_row, h.startprob_finRow, h.transmat_finMat]
  have h1 := forwardScaling_ofFn π A (fun t => b (x t))
  simp only [bind, Except.bind, h1]
  by_cases hu : NoUnderflow π A (fun t => b (x t))
  · have h2 := backwardScaling_ofFn hu
    have h3 := computePosteriorsScaling_posterior hu
    simp only [hu, if_true, h2]
    rw [← h3]
    rfl
  · simp only [hu, if_false]

omit [NeZero nc] in
theorem zero_add_xf (a : XF) : (0 : XF) + a = a := by
  cases a <;> first | rfl | (show XF.fin (0 + _) = _; rw [zero_add])

omit [NeZero nc] in
theorem seqLoop_single {γ : Type} (one : List Obs → Except PyErr (XF × List γ)) (s : List Obs) :
    seqLoop one [s] 0 [] = one s := by
  simp only [seqLoop]
  cases one s with
  | error e => rfl
  | ok p => show Except.ok ((0 : XF) + p.1, [] ++ p.2) = Except.ok p; rw [zero_add_xf]; rfl

theorem scoreCore_none (m : Hmm XF nc Obs) (X : List Obs) (cp : Bool) :
    scoreCore m X none cp = match m.implementation with
      | .log => scoreOneLog m cp X
      | .scaling => scoreOneScaling m cp X := by
  unfold scoreCore
  simp only [splitXLengths, bind, Except.bind]
  rw [seqLoop_single]
  cases m.implementation <;> rfl

theorem decodeViterbi_ofFn (h : Represents m obs π A b) (x : Fin (n + 1) → D) :
    ∃ z : Fin (n + 1) → Fin nc,
      decodeViterbi m (List.ofFn fun t => obs (x t)) = .ok (lg (joint π A (fun t => b (x t)) z), List.ofFn z) ∧
      ∀ z', joint π A (fun t => b (x t)) z' ≤ joint π A (fun t => b (x t)) z := by
  obtain ⟨z, h1, h2⟩ := viterbi_ofFn (B := fun t => b (x t)) h.π_nonneg h.A_nonneg
    (fun t => h.b_nonneg _)
  refine ⟨z, ?_, h2⟩
  unfold decodeViterbi
  rw [ofFn_map_obs, h.loglik_eq, map_ofFn_lgRow, h.startprob_finRow, h.transmat_finMat]
  exact h1

theorem decode_none (m : Hmm XF nc Obs) (alg : Alg) (X : List Obs) :
    decode m alg X none = match alg with
      | .viterbi => decodeViterbi m X
      | .map => decodeMap m X := by
  unfold decode
  simp only [splitXLengths, bind, Except.bind]
  rw [seqLoop_single]
  cases alg <;> rfl

end Verif
