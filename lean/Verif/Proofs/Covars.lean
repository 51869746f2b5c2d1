import Verif.Spec.Covars
import Verif.Proofs.Cholesky

/-!
# Covariance arrays: validation and `fill_covars`
-/

namespace Verif
open FloatLike XF Spec Gaussian NdArray
open scoped Classical

variable {n : ℕ}

theorem symLower_symm (A : Fin n → Fin n → ℝ) : (symLower A).IsSymm := by
  ext i j
  simp only [symLower, Matrix.transpose_apply, Matrix.of_apply]
  rcases lt_trichotomy i j with h | h | h
  · rw [if_pos h.le, if_neg (not_le.2 h)]
  · rw [h]
  · rw [if_neg (not_le.2 h), if_pos h.le]

theorem symLower_eq {A : Matrix (Fin n) (Fin n) ℝ} (h : A.IsSymm) : symLower A = A := by
  ext i j
  simp only [symLower, Matrix.of_apply]
  split
  · rfl
  · exact congrFun (congrFun h i) j

theorem symLower_herm (A : Fin n → Fin n → ℝ) : (symLower A).IsHermitian := by
  have := symLower_symm A
  unfold Matrix.IsSymm at this
  rw [Matrix.IsHermitian, Matrix.conjTranspose_eq_transpose_of_trivial, this]

/-- An eigensolver as assumed exists. -/
theorem exists_eigvalsh : ∃ eig : Eigvalsh XF, EigvalshSpec eig := by
  refine ⟨fun n a i => if h : ∃ A : Fin n → Fin n → ℝ, a = fun i j => fin (A i j) then
    fin ((symLower_herm h.choose).eigenvalues i) else 0, fun n A => ?_⟩
  have hex : ∃ A' : Fin n → Fin n → ℝ, (fun i j => fin (A i j)) = fun i j => fin (A' i j) := ⟨A, rfl⟩
  refine ⟨(symLower_herm hex.choose).eigenvalues, ?_, ?_⟩
  · funext i
    exact dif_pos hex
  · have hA : hex.choose = A := by
      have := hex.choose_spec
      funext i j
      exact (fin_injective (congrFun (congrFun this i) j)).symm
    rw [← (symLower_herm hex.choose).spectrum_real_eq_range_eigenvalues, hA]

theorem isclose_fin (a b : ℝ) :
    isclose (fin a) (fin b) = decide (|a - b| ≤ 1 / 10 ^ 8 + 1 / 10 ^ 5 * |b|) := by
  have h1 : (ofRat (1 / 10 ^ 8) : XF) = fin (1 / 10 ^ 8) := by rw [ofRat_def]; congr 1; norm_num
  have h2 : (ofRat (1 / 10 ^ 5) : XF) = fin (1 / 10 ^ 5) := by rw [ofRat_def]; congr 1; norm_num
  simp only [isclose, h1, h2, fin_sub, fin_abs, fin_mul, fin_add, fin_le, isFinite_fin, fin_eq,
    Bool.and_true]
  by_cases h : a = b
  · subst h
    have : |a - a| ≤ 1 / 10 ^ 8 + 1 / 10 ^ 5 * |a| := by rw [sub_self, abs_zero]; positivity
    simp only [this, decide_true, Bool.or_self]
  · simp only [h, decide_false, Bool.or_false]

theorem allcloseT_fin (A : Fin n → Fin n → ℝ) :
    allcloseT (fun i j => fin (A i j)) = true ↔ NearlySymmetric A := by
  simp only [allcloseT, isclose_fin, List.all_eq_true, List.mem_finRange, decide_eq_true_eq, true_imp_iff,
    NearlySymmetric]

theorem symPosDef_fin {eig : Eigvalsh XF} (he : EigvalshSpec eig) (A : Fin n → Fin n → ℝ) :
    symPosDef eig (fun i j => fin (A i j)) = true ↔ NearlySymmetric A ∧ (symLower A).PosDef := by
  obtain ⟨ev, h1, h2⟩ := he n A
  rw [(symLower_herm A).posDef_iff_eigenvalues_pos]
  simp only [symPosDef, h1, Bool.not_or, Bool.not_not, Bool.and_eq_true, allcloseT_fin, zero_def, fin_le]
  refine and_congr_right fun _ => ?_
  rw [(symLower_herm A).spectrum_real_eq_range_eigenvalues] at h2
  simp only [Bool.not_eq_true', List.any_eq_false, List.mem_finRange, true_imp_iff, decide_eq_true_eq, not_le]
  constructor
  · intro h i
    obtain ⟨j, hj⟩ : (symLower_herm A).eigenvalues i ∈ Set.range ev := h2 ▸ ⟨i, rfl⟩
    rw [← hj]; exact h j
  · intro h i
    obtain ⟨j, hj⟩ : ev i ∈ Set.range (symLower_herm A).eigenvalues := h2 ▸ ⟨i, rfl⟩
    rw [← hj]; exact h j

/-- `cholesky` reads the lower triangle only. -/
theorem cholesky_lower {α : Type} [FloatLike α] : ∀ {n : ℕ} (A B : Sq α n),
    (∀ i j, j ≤ i → A i j = B i j) → cholesky A = cholesky B
  | 0, A, B, h => by
    have : A = B := funext fun i => i.elim0
    rw [this]
  | n + 1, A, B, h => by
    have e1 : A 0 0 = B 0 0 := h 0 0 le_rfl
    have e2 : ∀ i : Fin n, A i.succ 0 = B i.succ 0 := fun i => h _ _ (Fin.zero_le _)
    have e3 := cholesky_lower
      (fun i j => A i.succ j.succ - A i.succ 0 / sqrt (A 0 0) * (A j.succ 0 / sqrt (A 0 0)))
      (fun i j => B i.succ j.succ - B i.succ 0 / sqrt (B 0 0) * (B j.succ 0 / sqrt (B 0 0)))
      (fun i j hij => by rw [e1, e2, e2, h i.succ j.succ (Fin.succ_le_succ_iff.2 hij)])
    rw [cholesky, cholesky]
    simp only [memo_eq]
    rw [e3]
    simp only [e1, e2]

/-- A matrix that passes validation can be factorised. -/
theorem factor_ok_of_posDef {A : Fin n → Fin n → ℝ} (h : (symLower A).PosDef) :
    ∃ L : Matrix (Fin n) (Fin n) ℝ, factor (fun i j => fin (A i j)) = .ok (fun i j => fin (L i j)) ∧
      Factors L (symLower A) := by
  obtain ⟨L, h1, h2⟩ := exists_factor h
  refine ⟨L, ?_, h2⟩
  have hfin : (!((List.finRange n).all fun i => finiteRow fun j => fin (A i j))) = false := by
    simp [finiteRow_fin]
  have e : cholesky (fun i j => fin (A i j)) = cholesky (fun i j => fin (symLower A i j)) :=
    cholesky_lower _ _ fun i j hij => by simp only [symLower, Matrix.of_apply, if_pos hij]
  unfold factor
  rw [hfin, e, h1]
  simp

theorem any_fin (p : XF → Bool) {a : NdArray XF} : a.any p = true ↔ ∃ i, p (a.flat i) = true := by
  simp [NdArray.any]

end Verif
