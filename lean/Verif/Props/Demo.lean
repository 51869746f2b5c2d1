import Verif.Proofs.Categorical
import Verif.Spec.Train
import Mathlib.Tactic.FinCases
import Mathlib.Data.Fin.VecNotation

/-!
# Concrete models used to show that the hypotheses of the theorems can be met

`Demo` : two states, three symbols, everything positive.
`DemoLR` : a left-right model with zeros and a symbol that cannot be emitted.
-/

namespace Verif
open FloatLike XF Spec

namespace Demo

noncomputable def π : Fin 2 → ℝ := ![3/5, 2/5]
noncomputable def A : Fin 2 → Fin 2 → ℝ := ![![7/10, 3/10], ![2/5, 3/5]]
noncomputable def e : Fin 2 → Fin 3 → ℝ := ![![1/10, 2/5, 1/2], ![3/5, 3/10, 1/10]]
/-- Emission weights by symbol. -/
noncomputable def b (k : Fin 3) (i : Fin 2) : ℝ := e i k
/-- A sequence of three symbols. -/
def x : Fin 3 → Fin 3 := ![0, 1, 2]

noncomputable def hmm (impl : Impl) : Hmm XF 2 Int :=
  (Categorical.emission fun _ _ => 1).toHmm impl (Categorical.params π A e)

theorem π_nonneg (i : Fin 2) : 0 ≤ π i := by fin_cases i <;> norm_num [π]
theorem A_nonneg (i j : Fin 2) : 0 ≤ A i j := by fin_cases i <;> fin_cases j <;> norm_num [A]
theorem e_nonneg (i : Fin 2) (k : Fin 3) : 0 ≤ e i k := by
  fin_cases i <;> fin_cases k <;> norm_num [e]

theorem represents (impl : Impl) : Represents (hmm impl) Categorical.sym π A b :=
  Categorical.represents _ impl π_nonneg A_nonneg e_nonneg

theorem stochastic : Stochastic π A where
  π_sum := by norm_num [π, Fin.sum_univ_two]
  A_sum i := by fin_cases i <;> norm_num [A, Fin.sum_univ_two]

theorem likelihood_eq : likelihood π A (fun t => b (x t)) = 8403/250000 := by
  simp only [likelihood_succ, likelihood_one]
  simp [push, Fin.sum_univ_two, Fin.tail, π, A, b, e, x]
  norm_num

theorem noUnderflow : NoUnderflow π A (fun t => b (x t)) := by
  have h0 : prefixLikelihood π A (fun t => b (x t)) 0 = 3/10 := by
    show likelihood (n := 0) _ _ _ = _
    simp only [likelihood_one]
    simp [Fin.sum_univ_two, π, b, e, x]
    norm_num
  have h1 : prefixLikelihood π A (fun t => b (x t)) 1 = 519/5000 := by
    show likelihood (n := 1) _ _ _ = _
    simp only [likelihood_succ, likelihood_one]
    simp [push, Fin.sum_univ_two, Fin.tail, π, A, b, e, x]
    norm_num
  have h2 : prefixLikelihood π A (fun t => b (x t)) 2 = 8403/250000 := likelihood_eq
  have hp : (1 / 10 ^ 300 : ℝ) ≤ 1 / 10 ^ 1 :=
    one_div_le_one_div_of_le (by norm_num) (pow_le_pow_right₀ (by norm_num) (by norm_num))
  refine ⟨by rw [h0]; linarith, fun t => ?_⟩
  fin_cases t
  · show _ ≤ prefixLikelihood π A _ 1 / prefixLikelihood π A _ 0
    rw [h0, h1]; refine hp.trans ?_; norm_num
  · show _ ≤ prefixLikelihood π A _ 2 / prefixLikelihood π A _ 1
    rw [h1, h2]; refine hp.trans ?_; norm_num

/-- The sequence as a data set. -/
def seq : ObsSeq (Fin 3) := ⟨2, x⟩

theorem seq_likelihood : likelihood π A (seq.weights b) = 8403/250000 := likelihood_eq

theorem seq_noUnderflow : NoUnderflow π A (seq.weights b) := noUnderflow

theorem noUnderflows : ∀ s ∈ [seq, seq], NoUnderflow π A (s.weights b) := by
  intro s hs
  have : s = seq := by simpa using hs
  subst this
  exact seq_noUnderflow

theorem data_likelihood : dataLikelihood π A b [seq, seq] = (8403/250000) * (8403/250000) := by
  simp only [dataLikelihood, List.map_cons, List.map_nil, List.prod_cons, List.prod_nil, mul_one]
  erw [seq_likelihood]

theorem estepOk (impl : Impl) : ∀ s ∈ [seq, seq], EstepOk impl π A (s.weights b) := by
  intro s hs
  have : s = seq := by simpa using hs
  subst this
  cases impl with
  | log => show 0 < likelihood π A (seq.weights b); erw [seq_likelihood]; norm_num
  | scaling => exact seq_noUnderflow

end Demo

namespace DemoLR

noncomputable def π : Fin 2 → ℝ := ![1, 0]
noncomputable def A : Fin 2 → Fin 2 → ℝ := ![![1/2, 1/2], ![0, 1]]
noncomputable def e : Fin 2 → Fin 2 → ℝ := ![![1, 0], ![1, 0]]
noncomputable def b (k : Fin 2) (i : Fin 2) : ℝ := e i k
/-- A sequence containing the impossible symbol. -/
def bad : Fin 2 → Fin 2 := ![0, 1]
/-- A possible sequence. -/
def good : Fin 2 → Fin 2 := ![0, 0]

noncomputable def hmm (impl : Impl) : Hmm XF 2 Int :=
  (Categorical.emission fun _ _ => 1).toHmm impl (Categorical.params π A e)

theorem represents (impl : Impl) : Represents (hmm impl) Categorical.sym π A b :=
  Categorical.represents _ impl (fun i => by fin_cases i <;> norm_num [π])
    (fun i j => by fin_cases i <;> fin_cases j <;> norm_num [A])
    (fun i j => by fin_cases i <;> fin_cases j <;> norm_num [e])

theorem stochastic : Stochastic π A where
  π_sum := by norm_num [π, Fin.sum_univ_two]
  A_sum i := by fin_cases i <;> norm_num [A, Fin.sum_univ_two]

theorem bad_likelihood : likelihood π A (fun t => b (bad t)) = 0 := by
  simp only [likelihood_succ, likelihood_one]
  simp [push, Fin.sum_univ_two, Fin.tail, π, A, b, e, bad]

theorem good_likelihood : likelihood π A (fun t => b (good t)) = 1 := by
  simp only [likelihood_succ, likelihood_one]
  simp [push, Fin.sum_univ_two, Fin.tail, π, A, b, e, good]
  norm_num

end DemoLR
end Verif
