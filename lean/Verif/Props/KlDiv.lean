import Verif.Proofs.KlDiv
import Verif.Proofs.MvnLaw
import Verif.Props.Kl
import Verif.Proofs.WishartLaw

/-!
# The KL functions compute Kullback-Leibler divergences (C86)

C56 shows that the functions of `_kl_divergence.py` return certain closed forms.  Here these are shown to
be the Kullback-Leibler divergences of measure theory (Mathlib's `klDiv`, defined by the Radon-Nikodym
derivative) between the distributions the functions are named after: `dirichlet` (independent gamma variables
divided by their sum, Spec/Evidence.lean), Mathlib's `gaussianReal`, `multivariateGaussian` and
`gammaMeasure`.  The Wishart law is not in Mathlib; it is `wishart` (Bartlett's decomposition, Spec/Wishart.lean).
-/

set_option autoImplicit false

namespace Verif
open Spec XF MeasureTheory ProbabilityTheory InformationTheory
open scoped ENNReal NNReal

variable {n : ℕ} {sci : Sci XF}

/-- `r` is the divergence of `P` from `Q`. -/
def IsKl {Ω : Type} [MeasurableSpace Ω] (r : XF) (Q P : Measure Ω) : Prop :=
  ∃ x : ℝ, r = fin x ∧ 0 ≤ x ∧ klDiv Q P = ENNReal.ofReal x

/-- **C86** `kl_dirichlet`. -/
theorem C86_dirichlet (hsci : sci.Exact) [NeZero n] {q p : Fin n → ℝ} (hq : ∀ i, 0 < q i) (hp : ∀ i, 0 < p i) :
    IsKl (Kl.dirichlet sci (fun i => fin (q i)) (fun i => fin (p i))) (dirichlet q) (dirichlet p) :=
  ⟨_, (C56_dirichlet hsci hq hp).1, (C56_dirichlet hsci hq hp).2.1, klDiv_dirichlet hp hq⟩

/-- **C86** `kl_normal_distribution`. -/
theorem C86_normal (m m' : ℝ) {v v' : ℝ≥0} (hv : 0 < v) (hv' : 0 < v') :
    ∃ r, Kl.normal (fin m) (fin v) (fin m') (fin v') = .ok r ∧ IsKl r (gaussianReal m v) (gaussianReal m' v') :=
  ⟨_, (C56_normal m m' hv hv').1, _, rfl, (C56_normal m m' hv hv').2.1, klDiv_normal m m' hv.ne' hv'.ne'⟩

/-- **C86** `kl_multivariate_normal_distribution`. -/
theorem C86_mvn (hsci : sci.Exact) (m m' : Fin n → ℝ) {S S' : Matrix (Fin n) (Fin n) ℝ} (hS : S.PosDef)
    (hS' : S'.PosDef) :
    ∃ r, Kl.mvn sci (fun i => fin (m i)) (fun i j => fin (S i j)) (fun i => fin (m' i)) (fun i j => fin (S' i j)) =
      .ok r ∧ IsKl r (mvnLaw m S) (mvnLaw m' S') :=
  ⟨_, (C56_mvn hsci m m' hS hS').1, _, rfl, (C56_mvn hsci m m' hS hS').2.1, klDiv_mvn m m' hS hS'⟩

/-- **C86** `kl_gamma_distribution`. -/
theorem C86_gamma (hsci : sci.Exact) {b c b' c' : ℝ} (hb : 0 < b) (hc : 0 < c) (hb' : 0 < b') (hc' : 0 < c') :
    ∃ r, Kl.gamma sci (fin b) (fin c) (fin b') (fin c') = .ok r ∧ IsKl r (gammaMeasure b c) (gammaMeasure b' c') :=
  ⟨_, (C56_gamma hsci hb hc hb' hc').1, _, rfl, (C56_gamma hsci hb hc hb' hc').2.1, klDiv_gamma hb hc hb' hc'⟩

/-- **C86** `kl_wishart_distribution`, whose scale arguments are inverse scale matrices. -/
theorem C86_wishart (hsci : sci.Exact) [NeZero n] {ν ν' : ℝ} {S S' : Matrix (Fin n) (Fin n) ℝ} (hS : S.PosDef)
    (hS' : S'.PosDef) (hν : (n : ℝ) - 1 < ν) (hν' : (n : ℝ) - 1 < ν') :
    ∃ r, Kl.wishart sci (fin ν) (fun i j => fin (S i j)) (fin ν') (fun i j => fin (S' i j)) = .ok r ∧
      IsKl r (wishart ν S⁻¹) (wishart ν' S'⁻¹) :=
  ⟨_, (C56_wishart hsci hS hS' hν hν').1, _, rfl, (C56_wishart hsci hS hS' hν hν').2.1, klDiv_wishart hν hν' hS hS'⟩

/-- **C86** `kl_wishart_distribution` for one feature: the Wishart law with `ν` degrees of freedom and inverse
scale `s` on `1 × 1` matrices is the gamma law of shape `ν / 2` and rate `s / 2`. -/
theorem C86_wishart_one (hsci : sci.Exact) {ν ν' s s' : ℝ} (hν : 0 < ν) (hν' : 0 < ν') (hs : 0 < s) (hs' : 0 < s') :
    ∃ r, Kl.wishart (n := 1) sci (fin ν) (fun _ _ => fin s) (fin ν') (fun _ _ => fin s') = .ok r ∧
      IsKl r (gammaMeasure (ν / 2) (s / 2)) (gammaMeasure (ν' / 2) (s' / 2)) := by
  have hpd : ∀ s : ℝ, 0 < s → (Matrix.of fun _ _ : Fin 1 => s).PosDef := by
    intro s hs
    have : (Matrix.of fun _ _ : Fin 1 => s) = s • (1 : Matrix (Fin 1) (Fin 1) ℝ) := by
      ext i j
      fin_cases i; fin_cases j; simp
    rw [this]
    exact Matrix.PosDef.one.smul hs
  have h := C56_wishart (ν := ν) (ν' := ν') hsci (hpd s hs) (hpd s' hs') (by simpa using hν) (by simpa using hν')
  refine ⟨_, h.1, _, rfl, h.2.1, ?_⟩
  rw [klDiv_gamma (by linarith) (by linarith) (by linarith) (by linarith)]
  congr 1
  have htr : ((Matrix.of fun _ _ : Fin 1 => s') * (Matrix.of fun _ _ : Fin 1 => s)⁻¹).trace = s' / s := by
    simp [Matrix.trace, Matrix.mul_apply, div_eq_mul_inv]
  rw [klWishart, htr, klGamma]
  simp only [Matrix.det_fin_one, Matrix.of_apply, Fin.sum_univ_one, Fin.val_zero, Nat.cast_zero, sub_zero, Nat.cast_one]
  rw [div_div_div_cancel_right₀ two_ne_zero]
  field_simp
  ring

/-- The hypotheses are met, and the divergences are not all zero: `KL(N(0, 1) ‖ N(2, 1)) = 2`. -/
example : klDiv (gaussianReal 0 1) (gaussianReal 2 1) = ENNReal.ofReal 2 := by
  obtain ⟨r, hr, x, rfl, -, h⟩ := C86_normal 0 2 (v := 1) (v' := 1) one_pos one_pos
  have := (C56_normal 0 2 (v := 1) (v' := 1) one_pos one_pos).1
  rw [h]
  simp only [NNReal.coe_one] at hr
  rw [this] at hr
  injection hr with hr
  injection hr with hr
  rw [← hr, klNormal]
  norm_num

end Verif
