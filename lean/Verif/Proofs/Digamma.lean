import Verif.Spec.Digamma
import Mathlib.Probability.Distributions.Beta
import Mathlib.Analysis.Convex.Deriv
import Mathlib.Analysis.SpecialFunctions.Gamma.BohrMollerup
import Mathlib.Analysis.MeanInequalities
import Mathlib.MeasureTheory.Integral.Bochner.Basic

/-!
# Inequalities for log-gamma and digamma

`breg b a` is the gap between `lnΓ b` and its tangent at `a`.  The basic fact is that this gap is
superadditive from the right side: `breg (b₁+b₂) (a₁+a₂) ≤ breg b₁ a₁ + breg b₂ a₂`, which is the
convexity of the logarithm of the Beta function (Hölder's inequality for the Beta integral).
-/

namespace Verif
open Spec MeasureTheory Set ProbabilityTheory

theorem hasDerivAt_lnGamma {x : ℝ} (hx : 0 < x) : HasDerivAt lnGamma (digamma x) x := by
  have hd : DifferentiableAt ℝ Real.Gamma x := Real.differentiableAt_Gamma fun m => by
    have : (0 : ℝ) ≤ m := Nat.cast_nonneg m
    linarith
  have := hd.hasDerivAt.log (Real.Gamma_pos_of_pos hx).ne'
  rw [show digamma x = deriv Real.Gamma x / Real.Gamma x from rfl]
  exact this

/-- Log-convexity of the Beta function. -/
theorem beta_logconvex {x y x' y' θ : ℝ} (hx : 0 < x) (hy : 0 < y) (hx' : 0 < x') (hy' : 0 < y')
    (h0 : 0 ≤ θ) (h1 : θ ≤ 1) :
    Real.log (beta (θ * x + (1 - θ) * x') (θ * y + (1 - θ) * y')) ≤
      θ * Real.log (beta x y) + (1 - θ) * Real.log (beta x' y') := by
  have hθ' : 0 ≤ 1 - θ := by linarith
  have hpos : ∀ {u v : ℝ}, 0 < u → 0 < v → 0 < θ * u + (1 - θ) * v := fun {u v} hu hv => by
    rcases h0.eq_or_lt with h | h
    · subst h; simpa using hv
    · have := mul_pos h hu; have := mul_nonneg hθ' hv.le; linarith
  set X := θ * x + (1 - θ) * x' with hX
  set Y := θ * y + (1 - θ) * y' with hY
  have hXp : 0 < X := hpos hx hx'
  have hYp : 0 < Y := hpos hy hy'
  have hB := beta_pos hx hy
  have hB' := beta_pos hx' hy'
  have hB'' := beta_pos hXp hYp
  set C := beta x y ^ θ * beta x' y' ^ (1 - θ) with hC
  have hCp : 0 < C := mul_pos (Real.rpow_pos_of_pos hB _) (Real.rpow_pos_of_pos hB' _)
  have key : ENNReal.ofReal (beta X Y / C) * ∫⁻ t, betaPDF X Y t ≤
      ENNReal.ofReal θ * (∫⁻ t, betaPDF x y t) + ENNReal.ofReal (1 - θ) * ∫⁻ t, betaPDF x' y' t := by
    have hm : ∀ u v : ℝ, Measurable (betaPDF u v) := fun u v =>
      (measurable_betaPDFReal u v).ennreal_ofReal
    rw [← lintegral_const_mul _ (hm _ _), ← lintegral_const_mul _ (hm _ _), ← lintegral_const_mul _ (hm _ _),
      ← lintegral_add_left ((hm _ _).const_mul _)]
    refine lintegral_mono fun t => ?_
    simp only [betaPDF]
    rw [← ENNReal.ofReal_mul (by positivity), ← ENNReal.ofReal_mul h0, ← ENNReal.ofReal_mul hθ']
    have hnn : ∀ {u v : ℝ}, 0 < u → 0 < v → 0 ≤ betaPDFReal u v t := fun {u v} hu hv => by
      by_cases ht : 0 < t ∧ t < 1
      · exact (betaPDFReal_pos ht.1 ht.2 hu hv).le
      · simp [betaPDFReal, ht]
    rw [← ENNReal.ofReal_add (mul_nonneg h0 (hnn hx hy)) (mul_nonneg hθ' (hnn hx' hy'))]
    refine ENNReal.ofReal_le_ofReal ?_
    by_cases ht : 0 < t ∧ t < 1
    · have hamgm := Real.geom_mean_le_arith_mean2_weighted h0 hθ' (hnn hx hy) (hnn hx' hy') (by ring)
      refine le_trans (le_of_eq ?_) hamgm
      simp only [betaPDFReal, ht, and_self, if_true]
      have ht' : 0 < 1 - t := by linarith [ht.2]
      have e : ∀ {u v : ℝ}, 0 < u → 0 < v → ∀ (k : ℝ), (1 / beta u v * t ^ (u - 1) * (1 - t) ^ (v - 1)) ^ k =
          Real.exp (k * (-Real.log (beta u v) + (u - 1) * Real.log t + (v - 1) * Real.log (1 - t))) := by
        intro u v hu hv k
        have hb := beta_pos hu hv
        have h1 := Real.rpow_pos_of_pos ht.1 (u - 1)
        have h2 := Real.rpow_pos_of_pos ht' (v - 1)
        rw [Real.rpow_def_of_pos (by positivity), Real.log_mul (by positivity) h2.ne',
          Real.log_mul (by positivity) h1.ne', Real.log_rpow ht.1, Real.log_rpow ht',
          one_div, Real.log_inv]
        ring_nf
      have e1 := e hXp hYp 1
      rw [Real.rpow_one] at e1
      rw [e1, e hx hy, e hx' hy', ← Real.exp_log (div_pos hB'' hCp), ← Real.exp_add, ← Real.exp_add,
        Real.log_div hB''.ne' hCp.ne', hC, Real.log_mul (Real.rpow_pos_of_pos hB _).ne'
          (Real.rpow_pos_of_pos hB' _).ne', Real.log_rpow hB, Real.log_rpow hB', hX, hY]
      ring_nf
    · simp [betaPDFReal, ht]
  rw [lintegral_betaPDF_eq_one hXp hYp, lintegral_betaPDF_eq_one hx hy, lintegral_betaPDF_eq_one hx' hy',
    mul_one, mul_one, mul_one, ← ENNReal.ofReal_add h0 hθ', add_sub_cancel, ENNReal.ofReal_one,
    ENNReal.ofReal_le_one, div_le_one hCp] at key
  have := Real.log_le_log hB'' key
  rwa [hC, Real.log_mul (Real.rpow_pos_of_pos hB _).ne' (Real.rpow_pos_of_pos hB' _).ne',
    Real.log_rpow hB, Real.log_rpow hB'] at this

/-- The gap between `lnΓ b` and its tangent at `a`. -/
noncomputable def breg (b a : ℝ) : ℝ := lnGamma b - lnGamma a - (b - a) * digamma a

theorem log_beta {x y : ℝ} (hx : 0 < x) (hy : 0 < y) :
    Real.log (beta x y) = lnGamma x + lnGamma y - lnGamma (x + y) := by
  have h1 := Real.Gamma_pos_of_pos hx
  have h2 := Real.Gamma_pos_of_pos hy
  have h3 := Real.Gamma_pos_of_pos (add_pos hx hy)
  rw [beta, Real.log_div (by positivity) h3.ne', Real.log_mul h1.ne' h2.ne']
  rfl

theorem breg_add {a₁ a₂ b₁ b₂ : ℝ} (ha₁ : 0 < a₁) (ha₂ : 0 < a₂) (hb₁ : 0 < b₁) (hb₂ : 0 < b₂) :
    breg (b₁ + b₂) (a₁ + a₂) ≤ breg b₁ a₁ + breg b₂ a₂ := by
  let φ : ℝ → ℝ := fun t => lnGamma (a₁ + t * (b₁ - a₁)) + lnGamma (a₂ + t * (b₂ - a₂)) -
    lnGamma ((a₁ + t * (b₁ - a₁)) + (a₂ + t * (b₂ - a₂)))
  have pos : ∀ {a b t : ℝ}, 0 < a → 0 < b → t ∈ Icc (0:ℝ) 1 → 0 < a + t * (b - a) := by
    intro a b t ha hb ht
    have : a + t * (b - a) = (1 - t) * a + t * b := by ring
    rw [this]
    rcases ht.1.eq_or_lt with h | h
    · rw [← h]; simpa using ha
    · have := mul_pos h hb; have := mul_nonneg (sub_nonneg.2 ht.2) ha.le; linarith
  have hconv : ConvexOn ℝ (Icc (0:ℝ) 1) φ := by
    refine ⟨convex_Icc 0 1, fun s hs t ht p q hp hq hpq => ?_⟩
    have hq' : q = 1 - p := by linarith
    subst hq'
    have := beta_logconvex (pos ha₁ hb₁ hs) (pos ha₂ hb₂ hs) (pos ha₁ hb₁ ht) (pos ha₂ hb₂ ht) hp (by linarith)
    rw [log_beta (pos ha₁ hb₁ hs) (pos ha₂ hb₂ hs), log_beta (pos ha₁ hb₁ ht) (pos ha₂ hb₂ ht)] at this
    have e1 : ∀ a b : ℝ, p * (a + s * (b - a)) + (1 - p) * (a + t * (b - a)) =
        a + (p * s + (1 - p) * t) * (b - a) := fun a b => by ring
    have hst : p * s + (1 - p) * t ∈ Icc (0:ℝ) 1 := by
      have := convex_Icc (0:ℝ) 1 hs ht hp hq hpq
      simpa using this
    rw [e1, e1, log_beta (pos ha₁ hb₁ hst) (pos ha₂ hb₂ hst)] at this
    simpa [φ] using this
  have hder : HasDerivAt φ ((b₁ - a₁) * digamma a₁ + (b₂ - a₂) * digamma a₂ -
      ((b₁ - a₁) + (b₂ - a₂)) * digamma (a₁ + a₂)) 0 := by
    have lin : ∀ a b : ℝ, HasDerivAt (fun t : ℝ => a + t * (b - a)) (b - a) 0 := fun a b => by
      simpa using ((hasDerivAt_id (0:ℝ)).mul_const (b - a)).const_add a
    have c : ∀ {a : ℝ}, 0 < a → ∀ {f : ℝ → ℝ} {d : ℝ}, HasDerivAt f d 0 → f 0 = a →
        HasDerivAt (fun t => lnGamma (f t)) (d * digamma a) 0 := by
      intro a ha f d hf hfa
      subst hfa
      have := HasDerivAt.comp (0:ℝ) (hasDerivAt_lnGamma ha) hf
      simpa [mul_comm, Function.comp_def] using this
    exact ((c ha₁ (lin a₁ b₁) (by simp)).add (c ha₂ (lin a₂ b₂) (by simp))).sub
      (c (add_pos ha₁ ha₂) ((lin a₁ b₁).add (lin a₂ b₂)) (by simp))
  have h01 := hconv.le_slope_of_hasDerivAt (left_mem_Icc.2 zero_le_one) (right_mem_Icc.2 zero_le_one) zero_lt_one hder
  rw [slope_def_field, sub_zero, div_one] at h01
  simp only [φ, zero_mul, add_zero, one_mul, sub_zero, mul_one] at h01
  rw [show a₁ + (b₁ - a₁) = b₁ by ring, show a₂ + (b₂ - a₂) = b₂ by ring] at h01
  unfold breg
  have e : (b₁ + b₂ - (a₁ + a₂)) = (b₁ - a₁) + (b₂ - a₂) := by ring
  rw [e]
  linarith

theorem breg_nonneg {a b : ℝ} (ha : 0 < a) (hb : 0 < b) : 0 ≤ breg b a := by
  have hc : ConvexOn ℝ (Ioi 0) lnGamma := Real.convexOn_log_Gamma
  have hd := hasDerivAt_lnGamma ha
  unfold breg
  rcases lt_trichotomy a b with h | h | h
  · have := hc.le_slope_of_hasDerivAt (mem_Ioi.2 ha) (mem_Ioi.2 hb) h hd
    rw [slope_def_field, le_div_iff₀ (by linarith)] at this
    linarith
  · subst h; simp
  · have := hc.slope_le_of_hasDerivAt (mem_Ioi.2 hb) (mem_Ioi.2 ha) h hd
    rw [slope_def_field, div_le_iff₀ (by linarith)] at this
    linarith

@[simp] theorem breg_self (a : ℝ) : breg a a = 0 := by simp [breg]

theorem breg_sum {ι : Type*} {s : Finset ι} (hs : s.Nonempty) {a b : ι → ℝ} (ha : ∀ i ∈ s, 0 < a i)
    (hb : ∀ i ∈ s, 0 < b i) : breg (∑ i ∈ s, b i) (∑ i ∈ s, a i) ≤ ∑ i ∈ s, breg (b i) (a i) := by
  classical
  induction hs using Finset.Nonempty.cons_induction with
  | singleton i => simp
  | cons i s hi hs ih =>
    rw [Finset.sum_cons, Finset.sum_cons, Finset.sum_cons]
    have h1 := ih (fun j hj => ha j (Finset.mem_cons_of_mem hj)) fun j hj => hb j (Finset.mem_cons_of_mem hj)
    have h2 := breg_add (ha i (Finset.mem_cons_self i s))
      (Finset.sum_pos (fun j hj => ha j (Finset.mem_cons_of_mem hj)) hs)
      (hb i (Finset.mem_cons_self i s)) (Finset.sum_pos (fun j hj => hb j (Finset.mem_cons_of_mem hj)) hs)
    linarith

theorem lnGamma_add_one {x : ℝ} (hx : 0 < x) : lnGamma (x + 1) = lnGamma x + Real.log x := by
  rw [lnGamma, Real.Gamma_add_one hx.ne', Real.log_mul hx.ne' (Real.Gamma_pos_of_pos hx).ne', lnGamma, add_comm]

/-- `ψ(x) − ln x` increases. -/
theorem digamma_sub_log_mono {x y : ℝ} (hx : 0 < x) (h : x ≤ y) :
    digamma x - Real.log x ≤ digamma y - Real.log y := by
  rcases h.eq_or_lt with h | h
  · rw [h]
  have hy := hx.trans h
  have := breg_add hx (sub_pos.2 h) (b₁ := x + 1) (b₂ := y - x) (by linarith) (sub_pos.2 h)
  rw [show x + 1 + (y - x) = y + 1 by ring, show x + (y - x) = y by ring, breg_self] at this
  simp only [breg, lnGamma_add_one hx, lnGamma_add_one hy] at this
  linarith

end Verif
