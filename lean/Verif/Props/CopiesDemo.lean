import Verif.Props.Copies
import Verif.Props.RecodeDemo

/-!
# C97: where it fails, and concrete cases
-/

set_option autoImplicit false

namespace Verif
open FloatLike XF Hmmc Spec Gaussian
open scoped Classical Matrix

namespace DemoGauss

theorem q2_lik : ∀ s ∈ copies 2 qs, 0 < likelihood q.π q.A (s.weights (diagB q.mu q.v)) := fun s hs =>
  q_lik s ((mem_copies qs (by norm_num)).1 hs)

theorem q2_weighted (f : (Fin 1 → ℝ) → ℝ) :
    weighted q.π q.A (diagB q.mu q.v) (copies 2 qs) 0 f = 2 * (f ![0] + f ![2]) := by
  rw [← q_weighted]
  have h : obsStat q.π q.A (diagB q.mu q.v) (copies 2 qs) 0 f = ((2 : ℕ) : ℝ) * obsStat q.π q.A (diagB q.mu q.v) qs 0 f := by
    rw [obsStat_copies]
  exact_mod_cast h

/-- **C97** With `params="c"` and the default `covars_weight=1` the divisor of the variances is the floor `1e-5`, whatever
the number of samples: seeing every sample twice doubles the fitted variance. -/
theorem C97_needs_floor (mon mon' : Monitor XF) :
    ¬ CopiedFit 2
      (gaussFit .diag (fun _ => stronger 2 1 1) (strongerM 2 1 fun _ _ => 1) (GaussPrior.copies 2 1 ⟨fun _ _ => 0, 0, 1⟩)
        (strongerM 2 0 fun _ _ => 0) ['c'] .log 1 (copies 2 qs) q.theta mon')
      (gaussFit .diag (fun _ => 1) (fun _ _ => 1) ⟨fun _ _ => 0, 0, 1⟩ (fun _ _ => 0) ['c'] .log 1 qs q.theta mon) := by
  intro h
  obtain ⟨θ, l, h1, _, h2⟩ := C45_diag (fun _ => 1) (fun _ _ => 1) ⟨fun _ _ => 0, 0, 1⟩
      (fun _ _ => 0) ['c'] (by simp) (by simp) .log 1 qs (by simp [qs]) q q_chain q_lik
  obtain ⟨θ', l', h1', _, h2'⟩ := C45_diag (fun _ => stronger 2 1 1) (strongerM 2 1 fun _ _ => 1)
      (GaussPrior.copies 2 1 ⟨fun _ _ => 0, 0, 1⟩)
      (strongerM 2 0 fun _ _ => 0) ['c'] (by simp) (by simp) .log 1 (copies 2 qs) (by simp [qs, copies])
      q q_chain q2_lik
  have e := h.state
  rw [fit_one h1, fit_one h1'] at e
  have e2 : θ'.emission.covars 0 0 = θ.emission.covars 0 0 := by rw [e]
  rw [h2, h2', q_weighted] at e2
  rw [q2_weighted] at e2
  have e3 := fin.inj e2
  norm_num [GaussPrior.copies, strongerM, stronger] at e3

end DemoGauss

/-! ## Concrete cases -/

namespace DemoCopies

/-- `tol` for one copy and for three. -/
noncomputable def mon (tol : ℝ) : Monitor XF := ⟨fin tol, 10, [], 0⟩

theorem coarser (tol : ℝ) : Coarser 3 (mon (3 * tol)) (mon tol) := ⟨by simp [mon], rfl⟩

example (impl : Impl) :=
  C97_categorical (k := 3) (by norm_num) (fun _ => 2) (fun _ _ => 1) (fun _ _ => 3 / 2) (by simp) (by simp) (by intros; norm_num)
    ['s', 't', 'e'] impl 10 [Demo.seq, Demo.seq] (by simp) Demo.catModel (fun _ => Demo.catL_pos) _ _ (coarser (1 / 100))

example (impl : Impl) :=
  C97_poisson (k := 3) (by norm_num) (fun _ => 1) (fun _ _ => 1) (fun _ _ => 2) (fun _ _ => 1) (by simp) (by simp) (by simp)
    (by simp) ['s', 't', 'l'] impl 10 DemoCounts.ss (by simp [DemoCounts.ss]) DemoCounts.poisson
    DemoCounts.poisson_used.2 DemoCounts.poisson_used.1 _ _ (coarser (1 / 100))

example (impl : Impl) :=
  C97_multinomial (k := 3) (by norm_num) (fun _ => 1) (fun _ _ => 1) (by simp) (by simp)
    ['s', 't', 'e'] impl 10 DemoCounts.ms (by simp [DemoCounts.ms]) DemoCounts.multinomial
    DemoCounts.multinomial_pos DemoCounts.multinomial_emits _ _ (coarser (1 / 100))

/-- A stronger prior on the covariances. -/
example (ty : DiagType) (impl : Impl) :=
  C97_gaussian (k := 3) ty (by norm_num) (fun _ => 1) (fun _ _ => 1) (by simp) (by simp) ⟨fun _ _ => 0, 0, 2⟩ le_rfl
    (fun _ _ => 1 / 100) ['s', 't', 'm', 'c'] impl 10
    DemoGauss.ss (by simp [DemoGauss.ss]) DemoGauss.p (by cases ty <;> simp [DiagType.Shape, DemoGauss.p])
    (fun _ => Or.inl (by norm_num)) DemoGauss.chain DemoGauss.used.2 (Or.inr DemoGauss.used.1) _ _ (coarser (1 / 100))

/-- With one state every sample is a visit to it. -/
theorem one_state {nf : ℕ} (p : DiagPoint 1 nf) (ss : List (ObsSeq (Fin nf → ℝ))) (hne : ss ≠ [])
    (h : ChainModel p.π p.A) (hL : 0 < p.L ss) (i : Fin 1) : 1 / 10 ^ 5 ≤ visits p.π p.A (diagB p.mu p.v) ss i := by
  have hl := DiagPoint.likelihoods h hL
  have h1 : ∀ s ∈ ss, ∑ t, posterior p.π p.A (s.weights (diagB p.mu p.v)) t i = s.n + 1 := by
    intro s hs
    have : ∀ t, posterior p.π p.A (s.weights (diagB p.mu p.v)) t i = 1 := fun t => by
      have := sum_posterior (hl s hs).ne' t
      have hi : i = 0 := Subsingleton.elim _ _
      subst hi
      simpa using this
    simp [this]
  unfold visits
  rw [List.map_congr_left h1]
  obtain ⟨s, ss', rfl⟩ := List.exists_cons_of_ne_nil hne
  rw [List.map_cons, List.sum_cons]
  have : 0 ≤ (ss'.map fun s => (s.n : ℝ) + 1).sum := List.sum_nonneg fun x hx => by
    obtain ⟨s, _, rfl⟩ := List.mem_map.1 hx
    positivity
  have h2 : (0 : ℝ) ≤ s.n := Nat.cast_nonneg _
  have h3 : (1 : ℝ) / 10 ^ 5 ≤ 1 := by norm_num
  linarith

/-- The default prior on the covariances. -/
example (ty : DiagType) (impl : Impl) :=
  C97_gaussian (k := 3) ty (by norm_num) (fun _ => 1) (fun _ _ => 1) (by simp) (by simp) ⟨fun _ _ => 0, 0, 1⟩ le_rfl
    (fun _ _ => 1 / 100) ['s', 't', 'm', 'c'] impl 10
    DemoGauss.qs (by simp [DemoGauss.qs]) DemoGauss.q (by cases ty <;> simp [DiagType.Shape, DemoGauss.q])
    (fun _ => Or.inr ⟨by simp, fun _ _ p' _ h hL => one_state p' _ (by simp [DemoGauss.qs]) h hL⟩)
    DemoGauss.q_chain
    (everyStateUsed_of_pos (by simp [DemoGauss.qs]) (by simp [DemoGauss.q]) (by simp [DemoGauss.q])
      fun _ _ => diagB_pos _ _ _ _).2
    (Or.inr (everyStateUsed_of_pos (by simp [DemoGauss.qs]) (by simp [DemoGauss.q]) (by simp [DemoGauss.q])
      fun _ _ => diagB_pos _ _ _ _).1) _ _ (coarser (1 / 100))

open DemoCov in
example (impl : Impl) :=
  C97_gaussian_full (k := 3) (by norm_num) (fun _ => 1) (fun _ _ => 1) (by simp) (by simp) ⟨fun _ _ => 0, 1, 3⟩ (by simp)
    (fun _ => (1 / 100 : ℝ) • J) (fun _ => J_singular.1.smul (by norm_num)) ['s', 't', 'm', 'c']
    (by simp) impl 10 ss (by simp [ss]) p (fun _ => S_posDef.posSemidef) chain used.2 (Or.inr used.1) _ _ (coarser (1 / 100))

open DemoCov in
example (impl : Impl) :=
  C97_gaussian_tied (k := 3) (by norm_num) (fun _ => 1) (fun _ _ => 1) (by simp) (by simp) ⟨fun _ _ => 0, 1, 3⟩ (by simp)
    ((1 / 100 : ℝ) • J) (J_singular.1.smul (by norm_num)) ['s', 't', 'm', 'c']
    (by simp) impl 10 ss (by simp [ss]) q S_posDef.posSemidef chain used.2 (Or.inr used.1) _ _ (coarser (1 / 100))

end DemoCopies
end Verif
