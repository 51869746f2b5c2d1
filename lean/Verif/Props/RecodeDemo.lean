import Verif.Props.RecodeFull
import Verif.Props.CategoricalEM
import Verif.Props.CountEM
import Verif.Props.Density

/-!
# C96: where it fails, and concrete cases
-/

set_option autoImplicit false

namespace Verif
open FloatLike XF Hmmc Spec Gaussian
open scoped Classical Matrix

namespace DemoGauss

/-- The origin moved by one. -/
noncomputable def shift : Axes 1 := ⟨1, fun _ => 1, fun _ => 1, fun _ => by norm_num⟩

theorem qm_chain : ChainModel (shift.point q).π (shift.point q).A := q_chain

theorem qm_lik : ∀ s ∈ recode shift.move qs,
    0 < likelihood (shift.point q).π (shift.point q).A (s.weights (diagB (shift.point q).mu (shift.point q).v)) :=
  DiagPoint.likelihoods qm_chain (everyStateUsed_of_pos (by simp [qs, recode]) (by simp [q, Axes.point])
    (by simp [q, Axes.point]) fun _ _ => diagB_pos _ _ _ _).2

theorem qm_weighted (f : (Fin 1 → ℝ) → ℝ) :
    weighted (shift.point q).π (shift.point q).A (diagB (shift.point q).mu (shift.point q).v)
      (recode shift.move qs) 0 f = f (shift.move ![0]) + f (shift.move ![2]) := by
  have h1 : ∀ t, posterior (shift.point q).π (shift.point q).A
      (ObsSeq.weights (diagB (shift.point q).mu (shift.point q).v) (ObsSeq.recode shift.move ⟨1, ![![0], ![2]]⟩)) t 0 =
        1 := by
    intro t
    have := sum_posterior (qm_lik _ (by simp [qs, recode] :
      ObsSeq.recode shift.move ⟨1, ![![0], ![2]]⟩ ∈ recode shift.move qs)).ne' t
    simpa using this
  have h0 := h1 (0 : Fin 2)
  have h2 := h1 (1 : Fin 2)
  simp only [ObsSeq.recode] at h0 h2
  simp [weighted, qs, recode, ObsSeq.recode, h0, h2]

/-- The fitted attributes after one iteration. -/
theorem fit_one {sp : Fin 1 → ℝ} {tp : Fin 1 → Fin 1 → ℝ} {g : GaussPrior 1 1} {cp : Fin 1 → Fin 1 → ℝ} {ps : List Char}
    {impl : Impl} {ss : List (ObsSeq (Fin 1 → ℝ))} {p : DiagPoint 1 1} {θ' : Theta XF 1 (DiagParams XF 1 1)} {l : XF}
    (h : emStep (emissionDiag (prior g) fun i k => fin (cp i k)) (mapConfig sp tp ps impl 1)
        (dataX row ss) (dataLengths ss) p.theta = .ok (θ', l)) (mon : Monitor XF) :
    (gaussFit .diag sp tp g cp ps impl 1 ss p.theta mon).state = θ' := by
  show (fitLoop (emStep (emissionDiag (prior g) fun i k => fin (cp i k)) (mapConfig sp tp ps impl 1)
        (dataX row ss) (dataLengths ss)) 1 p.theta mon.reset).state = θ'
  unfold fitLoop
  rw [h]
  dsimp only
  split <;> rfl

/-- **C96** With `params="c"` the result depends on where the origin is: a state with fixed mean at the midpoint of two
samples gets variance `400000` when the samples are written 0 and 2, and `1000000` when they are written 1 and 3. -/
theorem C96_needs_means (mon : Monitor XF) :
    ¬ RecodedFit shift.params
      (gaussFit .diag (fun _ => 1) (fun _ _ => 1) (shift.prior ⟨fun _ _ => 0, 0, 1⟩) (Spec.cols shift.τ fun _ _ => 0)
        ['c'] .log 1 (recode shift.move qs) (shift.point q).theta mon)
      (gaussFit .diag (fun _ => 1) (fun _ _ => 1) ⟨fun _ _ => 0, 0, 1⟩ (fun _ _ => 0) ['c'] .log 1 qs q.theta mon) := by
  intro h
  obtain ⟨θ, l, h1, _, h2⟩ := C45_diag (fun _ => 1) (fun _ _ => 1) ⟨fun _ _ => 0, 0, 1⟩
      (fun _ _ => 0) ['c'] (by simp) (by simp) .log 1 qs (by simp [qs]) q q_chain q_lik
  obtain ⟨θ', l', h1', _, h2'⟩ := C45_diag (fun _ => 1) (fun _ _ => 1) (shift.prior ⟨fun _ _ => 0, 0, 1⟩)
      (Spec.cols shift.τ fun _ _ => 0) ['c'] (by simp) (by simp) .log 1 (recode shift.move qs) (by simp [qs, recode])
      (shift.point q) qm_chain qm_lik
  have e := h.emission
  rw [fit_one h1, fit_one h1'] at e
  have e2 : θ'.emission.covars 0 0 = θ.emission.covars 0 0 := by rw [e]; rfl
  rw [h2, h2', q_weighted, qm_weighted] at e2
  have e3 := fin.inj e2
  norm_num [Axes.prior, Spec.cols, Axes.move, shift] at e3

end DemoGauss

/-! ## Concrete cases -/

example (ty : DiagType) (impl : Impl) (mon : Monitor XF) :=
  C96_gaussian ty DemoGauss.shift (fun _ => 1) (fun _ _ => 1) (by simp) (by simp) ⟨fun _ _ => 0, 0, 1⟩ le_rfl
    (fun _ _ => 1 / 100) ['s', 't', 'm', 'c'] (by simp) impl 10
    DemoGauss.ss (by simp [DemoGauss.ss]) DemoGauss.p (by cases ty <;> simp [DiagType.Shape, DemoGauss.p])
    DemoGauss.chain DemoGauss.used.2 (Or.inr DemoGauss.used.1) mon

example (impl : Impl) (mon : Monitor XF) :=
  C96_categorical (Equiv.swap 0 1) (fun _ => 1) (fun _ _ => 1) (fun _ _ => 1) (by simp) (by simp) (by simp)
    ['s', 't', 'e'] impl 10 [Demo.seq, Demo.seq] (by simp) Demo.catModel (fun _ => Demo.catL_pos) mon

example (impl : Impl) (mon : Monitor XF) :=
  C96_poisson (Equiv.refl _) (fun _ => 1) (fun _ _ => 1) (fun _ _ => 0) (fun _ _ => 0) (by simp) (by simp) (by simp)
    (by simp) ['s', 't', 'l'] impl 10 DemoCounts.ss (by simp [DemoCounts.ss]) DemoCounts.poisson
    DemoCounts.poisson_used.2 DemoCounts.poisson_used.1 mon

example (impl : Impl) (mon : Monitor XF) :=
  C96_multinomial (Equiv.swap 0 1) (fun _ => 1) (fun _ _ => 1) (by simp) (by simp)
    ['s', 't', 'e'] impl 10 DemoCounts.ms (by simp [DemoCounts.ms]) DemoCounts.multinomial
    DemoCounts.multinomial_pos DemoCounts.multinomial_emits mon

/-- A quarter turn about the origin, then a translation. -/
def DemoCov.turn : Motion 2 := ⟨!![0, -1; 1, 0], ![1, 5], by
  ext i j; fin_cases i <;> fin_cases j <;> simp [Matrix.mul_apply, Fin.sum_univ_two]⟩

open DemoCov in
example (impl : Impl) (mon : Monitor XF) :=
  C96_gaussian_full turn (fun _ => 1) (fun _ _ => 1) (by simp) (by simp) ⟨fun _ _ => 0, 0, 1⟩ le_rfl
    (fun _ => (1 / 100 : ℝ) • J) (fun _ => J_singular.1.smul (by norm_num)) ['s', 't', 'm', 'c']
    (by simp) impl 10 ss (by simp [ss]) p (fun _ => S_posDef.posSemidef) chain used.2 (Or.inr used.1) mon

open DemoCov in
example (impl : Impl) (mon : Monitor XF) :=
  C96_gaussian_tied turn (fun _ => 1) (fun _ _ => 1) (by simp) (by simp) ⟨fun _ _ => 0, 0, 1⟩ le_rfl
    ((1 / 100 : ℝ) • J) (J_singular.1.smul (by norm_num)) ['s', 't', 'm', 'c']
    (by simp) impl 10 ss (by simp [ss]) q S_posDef.posSemidef chain used.2 (Or.inr used.1) mon

end Verif
