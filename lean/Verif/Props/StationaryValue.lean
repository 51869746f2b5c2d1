import Verif.Props.Stationary

/-!
# C52, continued: what the method returns whatever the solver returns
-/

set_option autoImplicit false

namespace Verif
open FloatLike XF Spec

/-- The tolerance below which an imaginary part is dropped: a hundred times the spacing of doubles at one. -/
noncomputable def Spec.dropBelow : ℝ := 100 * (2 : ℝ) ^ (-52 : ℤ)

theorem cx_div_fin (a b : ℂ) (hb : b ≠ 0) : Cx.div (cxFin a) (cxFin b) = cxFin (a / b) := by
  have h0 : b.re * b.re + b.im * b.im ≠ 0 := by
    rw [← Complex.normSq_apply]
    exact fun h => hb (Complex.normSq_eq_zero.1 h)
  unfold Cx.div cxFin
  simp only [XF.fin_mul, XF.fin_add, XF.fin_sub, XF.fin_div _ _ h0, Complex.div_re, Complex.div_im, Complex.normSq_apply]
  congr 2
  · ring
  · ring

/-- **C52** For every solver: with the eigenvalue that is greatest in numpy's order and the eigenvector of its column,
the result is the vector divided by its sum.  It is real, computed from the real parts, if all imaginary parts are
below the tolerance, and complex otherwise. -/
theorem C52_value {n : ℕ} [NeZero n] (eig : Eig XF) (A : Fin n → Fin n → ℝ) (w : Fin n → ℂ) (V : Fin n → Fin n → ℂ)
    (he : eig n (fun i j => fin (A j i)) = (fun k => cxFin (w k), fun i k => cxFin (V i k))) :
    ∃ k, (∀ j, (w j).re < (w k).re ∨ (w j).re = (w k).re ∧ (w j).im ≤ (w k).im) ∧
      ((∀ i, |(V i k).im| < dropBelow) → ∑ i, (V i k).re ≠ 0 →
        stationary eig (fun i j => fin (A i j)) = fun i => ⟨fin ((V i k).re / ∑ i, (V i k).re), fin 0⟩) ∧
      ((∃ i, dropBelow ≤ |(V i k).im|) → ∑ i, V i k ≠ 0 →
        stationary eig (fun i j => fin (A i j)) = fun i => cxFin (V i k / ∑ i, V i k)) := by
  set k := Cx.argmax fun k => cxFin (w k) with hk
  have hst : stationary eig (fun i j => XF.fin (A i j)) = Cx.normalise fun i => cxFin (V i k) := by
    unfold stationary
    rw [he]
  have htol : (Cx.closeTol : XF) = fin dropBelow := by
    unfold Cx.closeTol dropBelow
    show XF.fin _ = _
    congr 1
    norm_num
  have hall : ((List.finRange n).all fun i => lt (FloatLike.abs (cxFin (V i k)).im) Cx.closeTol) = true ↔
      ∀ i, |(V i k).im| < dropBelow := by
    rw [htol]
    simp [List.all_eq_true, cxFin, XF.fin_lt, XF.fin_abs]
  refine ⟨k, fun j => ?_, fun hi hs => ?_, fun hi hs => ?_⟩
  · have := (cx_ge _ _).1 (cx_argmax w j)
    rw [← hk] at this
    exact this.imp id fun h => ⟨h.1.symm, h.2⟩
  · rw [hst]
    unfold Cx.normalise
    rw [if_pos (hall.2 hi)]
    funext i
    have hsf : (sumF fun i => (cxFin (V i k)).re) = .fin (∑ i, (V i k).re) := sumF_fin _
    rw [hsf]
    show (⟨fin (V i k).re / fin _, _⟩ : Cx XF) = _
    rw [XF.fin_div _ _ hs]
    rfl
  · rw [hst]
    unfold Cx.normalise
    rw [if_neg]
    · funext i
      have h1 : (sumF fun i => (cxFin (V i k)).re) = .fin (∑ i, (V i k).re) := sumF_fin _
      have h2 : (sumF fun i => (cxFin (V i k)).im) = .fin (∑ i, (V i k).im) := sumF_fin _
      rw [h1, h2]
      have : (⟨.fin (∑ i, (V i k).re), .fin (∑ i, (V i k).im)⟩ : Cx XF) = cxFin (∑ i, V i k) := by
        unfold cxFin
        rw [Complex.re_sum, Complex.im_sum]
      rw [this, cx_div_fin _ _ hs]
    · rw [hall]
      push Not
      exact hi

/-- Example: for the identity matrix a solver may return `(1, i)`; the result is then `((1 - i) / 2, (1 + i) / 2)`. -/
example (eig : Eig XF) (he : eig 2 (fun i j => fin (if j = i then 1 else 0)) =
    (fun _ => cxFin 1, fun i _ => cxFin (![1, Complex.I] i))) :
    stationary eig (fun i j : Fin 2 => fin (if i = j then 1 else 0)) 1 = cxFin ((1 + Complex.I) / 2) := by
  obtain ⟨k, -, -, h⟩ := C52_value eig (fun i j : Fin 2 => if i = j then 1 else 0) (fun _ => 1)
    (fun i _ => ![1, Complex.I] i) he
  have hs : (∑ i : Fin 2, ![1, Complex.I] i) = 1 + Complex.I := by simp [Fin.sum_univ_two]
  have hne : (1 + Complex.I) ≠ 0 := fun h => by simpa using congrArg Complex.re h
  rw [h ⟨1, by simp [dropBelow]; norm_num⟩ (by rw [hs]; exact hne), hs]
  refine congrArg cxFin ?_
  rw [div_eq_div_iff hne two_ne_zero]
  simp only [Matrix.cons_val_one, Matrix.cons_val_fin_one]
  linear_combination -Complex.I_sq

end Verif
