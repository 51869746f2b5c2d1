import Verif.Props.IntWidthFit
import Verif.Props.GaussianEM

/-!
# Data that meet the hypotheses of C105
-/
set_option autoImplicit false

namespace Verif.IntWidthDemo
open FloatLike XF Spec Gaussian

/-- Amplitudes around 200, as of sound recorded in `int16`. -/
def xs : List (ObsSeq (Fin 1 → ℤ)) := [⟨2, ![![200], ![-210], ![190]]⟩, ⟨0, ![![255]]⟩]

/-- Two states on a line. -/
noncomputable def p : DiagPoint 2 1 := ⟨Demo.π, Demo.A, ![![-200], ![200]], fun _ _ => 100⟩

theorem chain : ChainModel p.π p.A :=
  ⟨Demo.π_nonneg, Demo.A_nonneg, Demo.stochastic.π_sum.le, fun i => (Demo.stochastic.A_sum i).le⟩

theorem used : EveryStateUsed p.π p.A (diagB p.mu p.v) (recode realRow xs) ∧ 0 < p.L (recode realRow xs) :=
  everyStateUsed_of_pos (by simp [xs, recode]) DemoCounts.π_pos DemoCounts.A_pos fun _ _ => diagB_pos _ _ _ _

theorem loud : ∀ s ∈ xs, ∀ t k, LoudFor 16 (s.x t k) := by
  intro s hs t k
  simp only [xs, List.mem_cons, List.not_mem_nil, or_false] at hs
  have hk : k = 0 := Subsingleton.elim _ _
  subst hk
  rcases hs with rfl | rfl
  · change Fin 3 at t
    fin_cases t <;> norm_num [LoudFor]
  · change Fin 1 at t
    fin_cases t
    norm_num [LoudFor]

theorem count : sampleCount xs = 4 := rfl

/-- The default hyper-parameters; ten iterations on four samples. -/
example (mon : Monitor XF) :
    let out := fitFrom (emissionDiagInts (.signed 16) (prior ⟨fun _ _ => 0, 0, 1⟩) fun _ _ => fin (1 / 100))
      (mapConfig (fun _ => 1) (fun _ _ => 1) ['s', 't', 'm', 'c'] .log 10) (dataX id xs) (some (dataLengths xs)) p.theta mon
    out.raised = none ∧ NegativeVariances out.state.emission.covars := by
  have h := C105_negative_diag 16 ⟨fun _ _ => 0, 0, 1⟩ rfl (fun _ _ => 1 / 100) ['s', 't', 'm', 'c'] (by simp) (by simp) (fun _ => 1)
    (fun _ _ => 1) (by simp) (by simp) .log 10 xs (by simp [xs]) p chain used.2 used.1 loud (fun _ => by rw [count]; norm_num) mon
  exact ⟨h.1 rfl, h.2 (h.1 rfl) (by norm_num)⟩

example (mon : Monitor XF) :
    let out := fitFrom (emissionSphericalInts (.signed 16) (prior ⟨fun _ _ => 0, 0, 1⟩) fun _ _ => fin (1 / 100))
      (mapConfig (fun _ => 1) (fun _ _ => 1) ['s', 't', 'm', 'c'] .log 10) (dataX id xs) (some (dataLengths xs)) p.theta mon
    out.raised = none ∧ NegativeVariances out.state.emission.covars := by
  have h := C105_negative_spherical 16 ⟨fun _ _ => 0, 0, 1⟩ rfl (fun _ _ => 1 / 100) ['s', 't', 'm', 'c'] (by simp) (by simp)
    (fun _ => 1) (fun _ _ => 1) (by simp) (by simp) .log 10 xs (by simp [xs]) p chain used.2 used.1 loud
    (fun _ => by rw [count]; norm_num) mon fun _ _ _ => rfl
  exact ⟨h.1 rfl, h.2 (h.1 rfl) (by norm_num)⟩

/-- The square of 200 loses `2 ^ 16`; in `int32` it loses nothing. -/
example : lost (.signed 16) 200 = 2 ^ 16 ∧ lost (.signed 32) 200 = 0 := by decide

/-- The step on these data. -/
example := C105_step (.signed 16) ⟨fun _ _ => 0, 1, 1⟩ (fun _ _ => 1 / 100) ['s', 't', 'm', 'c'] (by simp) (by simp) (fun _ => 1)
  (fun _ _ => 1) (by simp) .log 10 xs (by simp [xs]) p chain (DiagPoint.likelihoods chain used.2) fun i =>
    (add_pos_of_pos_of_nonneg one_pos (weighted_nonneg' i)).ne'
where
  weighted_nonneg' (i : Fin 2) : 0 ≤ visits p.π p.A (diagB p.mu p.v) (recode realRow xs) i := by
    rw [← visits_eq]
    exact (obsStat_posLin chain.π_nonneg chain.A_nonneg (fun o i => (diagB_pos p.mu p.v o i).le) _).nonneg i _ fun _ => zero_le_one

/-- In `int32` the squares fit: the class for arrays is the class of the rest of the model. -/
example {R : RandomLib XF ℕ} {eig : Eigvalsh XF} :
    (gaussDiagInts (.signed 32) eig).fit R (intsX [![(200 : ℤ)], ![-210]]) none =
      (gaussDiagSub eig).fit R (intsX [![(200 : ℤ)], ![-210]]) none :=
  C105_same_diag _ _ _ (by
    intro x hx k
    have hk : k = 0 := Subsingleton.elim _ _
    subst hk
    simp only [List.mem_cons, List.not_mem_nil, or_false] at hx
    rcases hx with rfl | rfl <;> norm_num [InType]) _

end Verif.IntWidthDemo
