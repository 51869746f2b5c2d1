import Verif.Spec.Stationary
import Verif.Num.XFLemmas
import Verif.Proofs.Kernel
import Mathlib.LinearAlgebra.Matrix.ToLinearEquiv
import Mathlib.LinearAlgebra.Matrix.Charpoly.Coeff
import Mathlib.LinearAlgebra.Matrix.Charpoly.Eigs
import Mathlib.Analysis.Complex.Polynomial.Basic

/-!
# Eigenvectors of stochastic matrices
-/

namespace Verif.Spec
open FloatLike
variable {n : ℕ} {A : Fin n → Fin n → ℝ}

/-- The modulus of an invariant vector is invariant. -/
theorem StochasticRows.abs (h : StochasticRows A) {v : Fin n → ℝ} (hv : ∀ j, ∑ i, v i * A i j = v j) (j : Fin n) :
    ∑ i, |v i| * A i j = |v j| := by
  have hle : ∀ j, |v j| ≤ ∑ i, |v i| * A i j := by
    intro j
    calc |v j| = |∑ i, v i * A i j| := by rw [hv]
      _ ≤ ∑ i, |v i * A i j| := Finset.abs_sum_le_sum_abs _ _
      _ = ∑ i, |v i| * A i j := Finset.sum_congr rfl fun i _ => by rw [abs_mul, abs_of_nonneg (h.nonneg i j)]
  have hs : ∑ j, ∑ i, |v i| * A i j = ∑ j, |v j| := by
    rw [Finset.sum_comm]
    refine Finset.sum_congr rfl fun i _ => ?_
    rw [← Finset.mul_sum, h.sum_one, mul_one]
  exact ((Finset.sum_eq_sum_iff_of_le fun j _ => hle j).1 hs.symm j (Finset.mem_univ j)).symm

/-- An invariant vector, normalised by its sum, is a stationary distribution. -/
theorem StochasticRows.normalise (h : StochasticRows A) (hs : SimpleOne A) {v : Fin n → ℝ}
    (hv : ∀ j, ∑ i, v i * A i j = v j) (hv0 : v ≠ 0) :
    ∑ i, v i ≠ 0 ∧ Stationary A fun i => v i / ∑ i, v i := by
  obtain ⟨c, hc⟩ := hs v (fun i => |v i|) hv (h.abs hv) hv0
  obtain ⟨k, hk⟩ := Function.ne_iff.1 hv0
  have hk : v k ≠ 0 := hk
  have hc0 : c ≠ 0 := by
    rintro rfl
    have := hc k
    rw [zero_mul, abs_eq_zero] at this
    exact hk this
  have hpos : 0 < ∑ i, |v i| := Finset.sum_pos' (fun i _ => abs_nonneg _) ⟨k, Finset.mem_univ k, abs_pos.2 hk⟩
  have hsum : ∑ i, |v i| = c * ∑ i, v i := by rw [Finset.mul_sum]; exact Finset.sum_congr rfl fun i _ => hc i
  have h0 : ∑ i, v i ≠ 0 := by
    intro h0
    rw [h0, mul_zero] at hsum
    exact hpos.ne' hsum
  refine ⟨h0, ?_, ?_, ?_⟩
  · intro i
    have : v i / ∑ i, v i = |v i| / ∑ i, |v i| := by
      rw [hsum, hc i, mul_div_mul_left _ _ hc0]
    rw [this]
    positivity
  · rw [← Finset.sum_div, div_self h0]
  · intro j
    rw [← hv j, Finset.sum_div]
    exact Finset.sum_congr rfl fun i _ => by rw [div_mul_eq_mul_div]

/-- Eigenvalues of a stochastic matrix have modulus at most one. -/
theorem StochasticRows.norm_le (h : StochasticRows A) {μ : ℂ} {v : Fin n → ℂ}
    (hv : EigenPair (fun i j => A j i) μ v) : ‖μ‖ ≤ 1 := by
  obtain ⟨k, hk⟩ := Function.ne_iff.1 hv.1
  have hpos : 0 < ∑ i, ‖v i‖ := Finset.sum_pos' (fun i _ => norm_nonneg _) ⟨k, Finset.mem_univ k, norm_pos_iff.2 hk⟩
  have hle : ‖μ‖ * ∑ i, ‖v i‖ ≤ 1 * ∑ i, ‖v i‖ := by
    rw [Finset.mul_sum, one_mul]
    calc ∑ i, ‖μ‖ * ‖v i‖ = ∑ i, ‖∑ j, (A j i : ℂ) * v j‖ :=
          Finset.sum_congr rfl fun i _ => by rw [hv.2 i, norm_mul]
      _ ≤ ∑ i, ∑ j, A j i * ‖v j‖ := Finset.sum_le_sum fun i _ => (norm_sum_le _ _).trans
          (Finset.sum_le_sum fun j _ => by rw [norm_mul, Complex.norm_real, Real.norm_of_nonneg (h.nonneg j i)])
      _ = ∑ j, ‖v j‖ := by
          rw [Finset.sum_comm]
          exact Finset.sum_congr rfl fun j _ => by rw [← Finset.sum_mul, h.sum_one, one_mul]
  exact le_of_mul_le_mul_right hle hpos

/-- `1` is an eigenvalue of the transposed matrix. -/
theorem StochasticRows.exists_invariant (h : StochasticRows A) (hn : n ≠ 0) :
    ∃ v : Fin n → ℝ, v ≠ 0 ∧ ∀ j, ∑ i, v i * A i j = v j := by
  haveI : NeZero n := ⟨hn⟩
  have h1 : ∃ v, v ≠ 0 ∧ (Matrix.of A - 1).mulVec v = 0 := by
    refine ⟨fun _ => 1, ?_, ?_⟩
    · intro h
      have := congrFun h 0
      simp at this
    · funext i
      rw [Matrix.sub_mulVec, Matrix.one_mulVec]
      simp [Matrix.mulVec, dotProduct, h.sum_one i]
  rw [Matrix.exists_mulVec_eq_zero_iff, ← Matrix.exists_vecMul_eq_zero_iff] at h1
  obtain ⟨v, h0, hv⟩ := h1
  refine ⟨v, h0, fun j => ?_⟩
  rw [Matrix.vecMul_sub, Matrix.vecMul_one, sub_eq_zero] at hv
  exact congrFun hv j

end Verif.Spec

namespace Verif
open FloatLike Spec

/-- The lexicographic order on complex numbers. -/
theorem cx_ge (a b : ℂ) : Cx.ge (cxFin a) (cxFin b) = true ↔ b.re < a.re ∨ a.re = b.re ∧ b.im ≤ a.im := by
  simp [Cx.ge, cxFin, XF.fin_lt, XF.fin_le, XF.fin_eq]

/-- The entry chosen by `argmax` is greatest. -/
theorem cx_argmax {n : ℕ} [NeZero n] (w : Fin n → ℂ) (k : Fin n) :
    Cx.ge (cxFin (w (Cx.argmax fun k => cxFin (w k)))) (cxFin (w k)) = true := by
  have refl : ∀ a : ℂ, Cx.ge (cxFin a) (cxFin a) = true := fun a => (cx_ge a a).2 (.inr ⟨rfl, le_rfl⟩)
  have trans : ∀ a b c : ℂ, Cx.ge (cxFin a) (cxFin b) = true → Cx.ge (cxFin b) (cxFin c) = true →
      Cx.ge (cxFin a) (cxFin c) = true := by
    intro a b c h1 h2
    rw [cx_ge] at h1 h2 ⊢
    rcases h1 with h1 | ⟨h1, h1'⟩ <;> rcases h2 with h2 | ⟨h2, h2'⟩
    · exact .inl (h2.trans h1)
    · exact .inl (h2 ▸ h1)
    · exact .inl (h1 ▸ h2)
    · exact .inr ⟨h1.trans h2, h2'.trans h1'⟩
  have total : ∀ a b : ℂ, Cx.ge (cxFin a) (cxFin b) = false → Cx.ge (cxFin b) (cxFin a) = true := by
    intro a b h
    rw [← Bool.not_eq_true, cx_ge] at h
    rw [cx_ge]
    push Not at h
    rcases lt_or_eq_of_le h.1 with h1 | h1
    · exact .inl h1
    · exact .inr ⟨h1.symm, (h.2 h1).le⟩
  have key : ∀ (l : List (Fin n)) (b : Fin n),
      (∀ k ∈ l, Cx.ge (cxFin (w (l.foldl (fun b k => if Cx.ge (cxFin (w b)) (cxFin (w k)) then b else k) b)))
        (cxFin (w k)) = true) ∧
      Cx.ge (cxFin (w (l.foldl (fun b k => if Cx.ge (cxFin (w b)) (cxFin (w k)) then b else k) b)))
        (cxFin (w b)) = true := by
    intro l
    induction l with
    | nil => exact fun b => ⟨fun k hk => (List.not_mem_nil hk).elim, refl _⟩
    | cons a l ih =>
      intro b
      simp only [List.foldl_cons]
      cases hab : Cx.ge (cxFin (w b)) (cxFin (w a)) with
      | true =>
        simp only [if_true]
        refine ⟨fun k hk => ?_, (ih b).2⟩
        rcases List.mem_cons.1 hk with rfl | hk
        · exact trans _ _ _ (ih b).2 hab
        · exact (ih b).1 k hk
      | false =>
        simp only [Bool.false_eq_true, if_false]
        refine ⟨fun k hk => ?_, trans _ _ _ (ih a).2 (total _ _ hab)⟩
        rcases List.mem_cons.1 hk with rfl | hk
        · exact (ih _).2
        · exact (ih a).1 k hk
  exact (key (List.finRange n) 0).1 k (List.mem_finRange k)

end Verif
