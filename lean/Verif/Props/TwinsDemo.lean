import Verif.Props.TwinsMean

/-!
# Models that meet the hypotheses of C107
-/
set_option autoImplicit false

namespace Verif.TwinsDemo
open FloatLike XF Spec Gaussian

/-- Two equal states. -/
noncomputable def π : Fin 2 → ℝ := fun _ => 1 / 2
noncomputable def A : Fin 2 → Fin 2 → ℝ := fun _ _ => 1 / 2

theorem π_pos (i : Fin 2) : 0 < π i := by norm_num [π]
theorem A_pos (i j : Fin 2) : 0 < A i j := by norm_num [A]
theorem chain : ChainModel π A :=
  ⟨fun i => (π_pos i).le, fun i j => (A_pos i j).le, by norm_num [π], fun i => by norm_num [A]⟩

theorem twins (i j : Fin 2) : Twins π A i j := ⟨rfl, rfl, rfl, fun _ _ _ => rfl, fun _ _ _ => rfl⟩
theorem flat (i j : Fin 2) : Twins (fun _ : Fin 2 => (1 : ℝ)) (fun _ _ => 1) i j := ⟨rfl, rfl, rfl, fun _ _ _ => rfl, fun _ _ _ => rfl⟩

/-- Twins among three states, which the third treats differently. -/
example : Twins ![(1 : ℝ) / 4, 1 / 4, 1 / 2] ![![1 / 2, 1 / 4, 1 / 4], ![1 / 4, 1 / 2, 1 / 4], ![0, 0, 1]] 0 1 := by
  refine ⟨rfl, rfl, rfl, fun k h0 h1 => ?_, fun k h0 h1 => ?_⟩ <;> fin_cases k <;> first | rfl | exact absurd rfl h0 | exact absurd rfl h1

theorem rates_pos (o : Fin 1 → ℕ) (i : Fin 2) : 0 < poissonB (fun _ : Fin 2 => fun _ : Fin 1 => (3 : ℝ)) o i :=
  Finset.prod_pos fun _ _ => Poisson.poissonPmf_pos (by norm_num) _

theorem poisson : PoissonModel π A fun _ => fun _ : Fin 1 => (3 : ℝ) :=
  ⟨chain.π_nonneg, chain.A_nonneg, fun _ _ => by norm_num, chain.π_sum, chain.A_sum⟩

/-- Counts 0, 2, 5 and 1: both rates become their mean. -/
example (mon : Monitor XF) :
    let out := poissonFit (fun _ => 1) (fun _ _ => 1) (fun _ : Fin 2 => fun _ => 0) (fun _ _ => 0) ['s', 't', 'l'] .log 10 DemoCounts.ss
      (Poisson.params π A fun _ _ => 3) mon
    out.raised = none → ∀ i k, out.state.emission i k = fin 2 := by
  have hu := everyStateUsed_of_pos (ss := DemoCounts.ss) (by simp [DemoCounts.ss]) π_pos A_pos rates_pos
  intro out hr i k
  have h := C107_poisson_pooled (fun _ => 1) (fun _ _ => 1) (by simp) (by simp) flat ['s', 't', 'l'] .log 10 (by norm_num) mon
    (fun _ => 3) (fun _ => 0) (fun _ => 0) (by simp) (by simp) (by simp) DemoCounts.ss (by simp [DemoCounts.ss]) poisson hu.2 hu.1 twins hr i k
  have hk : k = 0 := Subsingleton.elim _ _
  subst hk
  refine h.trans (congrArg fin ?_)
  have hn : sampleCount DemoCounts.ss = 4 := rfl
  have ht : (grandTotal DemoCounts.ss fun x => (x 0 : ℝ)) = 8 := by
    simp only [grandTotal, DemoCounts.ss, List.map_cons, List.map_nil, List.sum_cons, List.sum_nil]
    rw [Fin.sum_univ_three, Fin.sum_univ_one]
    show ((0 : ℕ) : ℝ) + (2 : ℕ) + (5 : ℕ) + ((1 : ℕ) + 0) = 8
    norm_num
  rw [hn, ht]
  norm_num

example := fun (mon : Monitor XF) => C107_poisson (fun _ => 1) (fun _ _ => 1) (by simp) (by simp) ['s', 't', 'l'] .log 10 mon (flat 0 1)
  (fun _ _ => 0) (fun _ _ => 0) (by simp) (by simp) DemoCounts.ss (by simp [DemoCounts.ss]) poisson
  (everyStateUsed_of_pos (by simp [DemoCounts.ss]) π_pos A_pos rates_pos).2
  (everyStateUsed_of_pos (by simp [DemoCounts.ss]) π_pos A_pos rates_pos).1 (twins 0 1) rfl rfl rfl

/-- Samples of one feature. -/
noncomputable def xs : List (ObsSeq (Fin 1 → ℝ)) := [⟨1, ![![1], ![3]]⟩, ⟨0, ![![-1]]⟩]

theorem used : EveryStateUsed π A (diagB (fun _ => fun _ : Fin 1 => (0 : ℝ)) fun _ _ => 1) xs ∧
    0 < dataLikelihood π A (diagB (fun _ => fun _ : Fin 1 => (0 : ℝ)) fun _ _ => 1) xs :=
  everyStateUsed_of_pos (by simp [xs]) π_pos A_pos fun _ _ => diagB_pos _ _ _ _

/-- The default hyper-parameters: both means become the mean of the samples. -/
example (mon : Monitor XF) :
    let out := gaussFit .diag (fun _ => 1) (fun _ _ => 1) ⟨fun _ _ => 0, 0, 1⟩ (fun _ _ => 1 / 100) ['s', 't', 'm', 'c'] .log 10 xs
      (DiagPoint.theta ⟨π, A, fun _ _ => 0, fun _ _ => 1⟩) mon
    out.raised = none → ∀ i k, out.state.emission.means i k = fin 1 := by
  intro out hr i k
  have h := (C107_gaussian_pooled (fun _ => 1) (fun _ _ => 1) (by simp) (by simp) flat ['s', 't', 'm', 'c'] .log 10 (by norm_num) mon
    (fun _ => 0) (fun _ => 0) (fun _ => 1) (fun _ => 1 / 100) 1 (by simp) (by simp) xs (by simp [xs]) chain used.2 used.1 twins hr i k).1
  have hk : k = 0 := Subsingleton.elim _ _
  subst hk
  refine h.trans (congrArg fin ?_)
  have hn : sampleCount xs = 3 := rfl
  have ht : (grandTotal xs fun x => x 0) = 3 := by
    simp only [grandTotal, xs, List.map_cons, List.map_nil, List.sum_cons, List.sum_nil]
    rw [Fin.sum_univ_two, Fin.sum_univ_one]
    norm_num
  unfold grandMean
  rw [hn, ht]
  norm_num

example := fun (mon : Monitor XF) => C107_gaussian (fun _ => 1) (fun _ _ => 1) (by simp) (by simp) ['s', 't', 'm', 'c'] .log 10 mon (flat 0 1)
  ⟨fun _ _ => 0, 0, 1⟩ le_rfl rfl xs (by simp [xs]) .diag (fun _ _ => 1 / 100) ⟨π, A, fun _ _ => 0, fun _ _ => 1⟩ trivial chain used.2 (.inr used.1)
  (twins 0 1) rfl rfl rfl

/-- A mixture in each state. -/
noncomputable def q : GmmPoint 2 2 2 (Fin 2 → Fin 2 → Fin 2 → ℝ) :=
  ⟨π, A, fun _ => ![1 / 4, 3 / 4], fun _ k l => 2 * k.val + l.val, fun _ _ _ => 1⟩

theorem q_weights : MixWeights q.w := by
  constructor
  · intro i k; fin_cases k <;> simp [q]
  · intro i; simp [q, Fin.sum_univ_two]; norm_num

theorem q_used : EveryStateUsed q.π q.A (q.b Gmm.dDiag.dens) GmmExample.ss ∧ 0 < q.L Gmm.dDiag.dens GmmExample.ss :=
  everyStateUsed_of_pos (by simp [GmmExample.ss]) π_pos A_pos fun o i => Gmm.dDiag.b_pos (Gmm.toR q q_weights).q o i

example := fun (mon : Monitor XF) => C107_gmm_diag (nc := 2) (nm := 2) (nf := 2) 0 1 (fun _ => 1) (fun _ _ => 1) ['s', 't', 'm', 'c', 'w'] .log 10
  GmmExample.ss q mon (by simp) (by simp) (by simp [GmmExample.ss]) chain q_weights q_used.2 q_used.1 (flat 0 1) (twins 0 1) rfl rfl rfl

end Verif.TwinsDemo
