import Verif.Props.RoundoffEM
import Verif.Props.Demo

/-!
# The hypotheses of C75 and C76 are met
-/

set_option autoImplicit false

namespace Verif
open FloatLike Spec

/-- An arithmetic in which every operation loses one part in a thousand. -/
noncomputable def chop : Trapped where
  u := 1 / 1000
  u_nonneg := by norm_num
  u_lt := by norm_num
  rnd r := some (999 / 1000 * r)
  rel r x h := by
    cases h
    rw [show 999 / 1000 * r - r = -(1 / 1000) * r by ring, abs_mul, abs_neg,
      abs_of_pos (show (0 : ℝ) < 1 / 1000 by norm_num)]

theorem chop_total : chop.Total := fun _ h => by cases h

namespace Demo

theorem predictive_ge (t : Fin 3) : 1 / 10 ≤ predictive π A (seq.weights b) t := by
  have h0 : prefixLikelihood π A (fun t => b (x t)) 0 = 3/10 := by
    show likelihood (n := 0) _ _ _ = _
    simp only [likelihood_one]
    simp [Fin.sum_univ_two, π, b, e, x]
    norm_num
  have h1 : prefixLikelihood π A (fun t => b (x t)) 1 = 519/5000 := by
    show likelihood (n := 1) _ _ _ = _
    simp only [likelihood_succ, likelihood_one]
    simp [push, Fin.sum_univ_two, Fin.tail, π, A, b, e, x]
    norm_num
  have h2 : prefixLikelihood π A (fun t => b (x t)) 2 = 8403/250000 := likelihood_eq
  fin_cases t
  · show _ ≤ prefixLikelihood π A (fun t => b (x t)) 0
    rw [h0]; norm_num
  · show _ ≤ prefixLikelihood π A (fun t => b (x t)) 1 / prefixLikelihood π A (fun t => b (x t)) 0
    rw [h0, h1]; norm_num
  · show _ ≤ prefixLikelihood π A (fun t => b (x t)) 2 / prefixLikelihood π A (fun t => b (x t)) 1
    rw [h1, h2]; norm_num

/-- The model of `Demo` in the arithmetic `chop`. -/
noncomputable def hmmChop : Hmm (TX chop) 2 Int :=
  (Categorical.emission fun _ _ => 1).toHmm .scaling (Categorical.paramsTX chop π A e)

theorem chop_accepts : ∀ s ∈ [seq, seq], ∀ t, (1 / 10 ^ 300 : ℝ) ≤
    (1 - chop.u) ^ (2 * steps 2 s.n 0 0 0 + 1) * predictive π A (s.weights b) t := by
  intro s hs t
  have : s = seq := by simpa using hs
  subst this
  have hp : (1 / 10 ^ 300 : ℝ) ≤ 1 / 10 ^ 3 :=
    one_div_le_one_div_of_le (by norm_num) (pow_le_pow_right₀ (by norm_num) (by norm_num))
  refine hp.trans (le_trans ?_ (mul_le_mul_of_nonneg_left (predictive_ge t) (by norm_num [chop])))
  norm_num [chop, steps, seq]

/-- **C75**, a case: `score` on two sequences in the arithmetic `chop`. -/
theorem C75_demo : ∃ x, score hmmChop (dataX Categorical.sym [seq, seq]) (some (dataLengths [seq, seq])) =
      .ok (TX.fin chop x) ∧
    |x - Real.log (dataLikelihood π A b [seq, seq])| ≤ dataError chop.u 0 0 0 π A b [seq, seq] :=
  C75_score_in_range chop_total (Categorical.approximates _ _ π_nonneg A_nonneg e_nonneg)
    (fun _ => TX.fin_ne_nan _) (fun _ _ => TX.fin_ne_nan _) (fun X rows h row hr i => by
      have h := (Categorical.computeLikelihood_fin (fun i k => TX.fin chop (e i k)) X).symm.trans h
      cases h
      obtain ⟨k, -, rfl⟩ := List.mem_map.1 hr
      exact TX.fin_ne_nan _)
    rfl _ (by simp) chop_accepts

/-- The model of `Demo` as parameters. -/
noncomputable def catParams : CatParams 2 3 := ⟨π, A, e⟩

/-- **C76**, a case: one iteration of `fit` on two sequences in the arithmetic `chop` ends with finite
parameters, close to those of the exact iteration. -/
theorem C76_demo (mon : Monitor (TX chop)) :
    let out := fitFrom (catEmission chop fun _ _ => 1) (catConfig chop (fun _ => 1) (fun _ _ => 1)
      ['s', 't', 'e'] 1) (dataX Categorical.sym [seq, seq]) (some (dataLengths [seq, seq]))
      (Categorical.paramsTX chop π A e) mon
    out.raised = none ∧ AllFin out.state ∧
    NearModel (fitSteps 2 3 2 6 0 out.monitor.history.length) out.state
      ((catEM ['s', 't', 'e'] (fun _ => 1) (fun _ _ => 1) (fun _ _ => 1) [seq, seq])^[
        out.monitor.history.length] catParams) := by
  have h := C76_fit_in_range (τ := chop) (nf := 3) (K := 0) (θ0 := catParams)
    (θ0' := Categorical.paramsTX chop π A e) (sp := fun _ => 1) (tp := fun _ _ => 1) (ep := fun _ _ => 1)
    (params := ['s', 't', 'e']) (nIter := 1) (N := 2) chop_total (fun _ => le_rfl) (fun _ _ => le_rfl)
    (fun _ _ => le_rfl)
    ⟨fun i => ⟨_, rfl, π_nonneg i, by simp [Within, catParams]⟩, fun i j => ⟨_, rfl, A_nonneg i j, by simp [Within, catParams]⟩,
      fun i k => Near.fin (e_nonneg i k)⟩
    ⟨fun _ => ⟨_, rfl⟩, fun _ _ => ⟨_, rfl⟩, fun _ _ => ⟨_, rfl⟩⟩ [seq, seq] (by simp)
    (fun s hs => by have : s = seq := by simpa using hs
                    subst this; exact le_rfl)
    (fun k hk => by
      obtain rfl : k = 0 := by omega
      exact chop_accepts) mon
  exact ⟨h.1, h.2.1, h.2.2.1⟩

end Demo
end Verif
