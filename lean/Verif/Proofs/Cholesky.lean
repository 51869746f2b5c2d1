import Verif.Model.Gaussian
import Verif.Proofs.GaussianDiag
import Verif.Spec.Mvn
import Mathlib.LinearAlgebra.Matrix.Block
import Mathlib.Algebra.Order.Star.Real

/-!
# Cholesky factorisation, triangular solve, and the multivariate normal log-density
-/

namespace Verif
open FloatLike XF Hmmc Spec
open scoped Matrix Classical

namespace Gaussian
variable {n : ℕ}

/-- The quadratic form of a matrix. -/
def qf (A : Fin n → Fin n → ℝ) (x : Fin n → ℝ) : ℝ := ∑ i, ∑ j, x i * A i j * x j

/-- Positive definite quadratic form. -/
def PD (A : Fin n → Fin n → ℝ) : Prop := ∀ x, x ≠ 0 → 0 < qf A x

/-- Lower triangular with positive diagonal. -/
structure LowerPos (L : Fin n → Fin n → ℝ) : Prop where
  upper : ∀ i j, i < j → L i j = 0
  diag : ∀ i, 0 < L i i

/-- The Schur complement of the first entry. -/
noncomputable def schur (A : Fin (n + 1) → Fin (n + 1) → ℝ) (i j : Fin n) : ℝ :=
  A i.succ j.succ - A i.succ 0 * A j.succ 0 / A 0 0

theorem qf_cons {A : Fin (n + 1) → Fin (n + 1) → ℝ} (hs : ∀ i j, A i j = A j i) (h0 : A 0 0 ≠ 0)
    (x0 : ℝ) (y : Fin n → ℝ) :
    qf A (Fin.cons x0 y) = A 0 0 * (x0 + (∑ i, A i.succ 0 * y i) / A 0 0) ^ 2 + qf (schur A) y := by
  set s := ∑ i, A i.succ 0 * y i with hsd
  have e1 : qf A (Fin.cons x0 y) = x0 * A 0 0 * x0 + x0 * s + s * x0 +
      ∑ i, ∑ j, y i * A i.succ j.succ * y j := by
    unfold qf
    rw [Fin.sum_univ_succ, Fin.sum_univ_succ]
    simp only [Fin.cons_zero, Fin.cons_succ]
    have a1 : ∑ j : Fin n, x0 * A 0 j.succ * y j = x0 * s := by
      rw [hsd, Finset.mul_sum]
      exact Finset.sum_congr rfl fun j _ => by rw [hs 0]; ring
    have a2 : ∑ i : Fin n, ∑ j, y i * A i.succ j * (Fin.cons x0 y : Fin (n + 1) → ℝ) j =
        s * x0 + ∑ i, ∑ j, y i * A i.succ j.succ * y j := by
      rw [hsd, Finset.sum_mul, ← Finset.sum_add_distrib]
      refine Finset.sum_congr rfl fun i _ => ?_
      rw [Fin.sum_univ_succ]
      simp only [Fin.cons_zero, Fin.cons_succ]
      ring
    rw [a1, a2]; ring
  have e2 : qf (schur A) y = (∑ i, ∑ j, y i * A i.succ j.succ * y j) - s * s / A 0 0 := by
    have a3 : s * s / A 0 0 = ∑ i, ∑ j, y i * (A i.succ 0 * A j.succ 0 / A 0 0) * y j := by
      rw [hsd, Finset.sum_mul_sum, Finset.sum_div]
      refine Finset.sum_congr rfl fun i _ => ?_
      rw [Finset.sum_div]
      exact Finset.sum_congr rfl fun j _ => by ring
    rw [a3]
    unfold qf schur
    rw [← Finset.sum_sub_distrib]
    refine Finset.sum_congr rfl fun i _ => ?_
    rw [← Finset.sum_sub_distrib]
    exact Finset.sum_congr rfl fun j _ => by ring
  rw [e1, e2]
  field_simp
  ring

theorem PD.first_pos {A : Fin (n + 1) → Fin (n + 1) → ℝ} (h : PD A) : 0 < A 0 0 := by
  have := h (Pi.single 0 1) (by
    intro h0
    have := congrFun h0 0
    simp at this)
  simpa [qf, Pi.single_apply] using this

theorem pd_schur {A : Fin (n + 1) → Fin (n + 1) → ℝ} (hs : ∀ i j, A i j = A j i) (h0 : 0 < A 0 0) :
    PD A ↔ PD (schur A) := by
  constructor
  · intro h y hy
    have := h (Fin.cons (-((∑ i, A i.succ 0 * y i) / A 0 0)) y) (by
      intro h1
      apply hy
      funext i
      have := congrFun h1 i.succ
      simpa using this)
    rw [qf_cons hs h0.ne'] at this
    simpa using this
  · intro h x hx
    rw [← Fin.cons_self_tail x, qf_cons hs h0.ne']
    by_cases hy : Fin.tail x = 0
    · have hx0 : x 0 ≠ 0 := by
        intro h1
        apply hx
        funext i
        refine Fin.cases h1 (fun i => ?_) i
        exact congrFun hy i
      rw [hy]
      have e : qf (schur A) 0 = 0 := by simp [qf]
      rw [e]
      simp only [Pi.zero_apply, mul_zero, Finset.sum_const_zero, zero_div, add_zero]
      positivity
    · exact add_pos_of_nonneg_of_pos (mul_nonneg h0.le (sq_nonneg _)) (h _ hy)

theorem sqrt_fin {x : ℝ} (h : 0 ≤ x) : FloatLike.sqrt (fin x) = fin (Real.sqrt x) := by
  show XF.sqrt (fin x) = _
  simp [XF.sqrt, h]

/-- `cholesky` succeeds exactly on positive definite matrices and returns a factor. -/
theorem cholesky_spec : ∀ {n : ℕ} (A : Fin n → Fin n → ℝ), (∀ i j, A i j = A j i) →
    (PD A → ∃ L, cholesky (fun i j => fin (A i j)) = some (fun i j => fin (L i j)) ∧ LowerPos L ∧
      ∀ i j, ∑ k, L i k * L j k = A i j) ∧
    (¬ PD A → cholesky (fun i j => fin (A i j)) = none)
  | 0, A, hs => by
    refine ⟨fun _ => ⟨A, rfl, ⟨fun i => i.elim0, fun i => i.elim0⟩, fun i => i.elim0⟩, fun h => ?_⟩
    exact absurd (fun x hx => absurd (Subsingleton.elim x 0) hx) h
  | n + 1, A, hs => by
    by_cases h0 : 0 < A 0 0
    · have hsq : 0 < Real.sqrt (A 0 0) := Real.sqrt_pos.2 h0
      have hss : Real.sqrt (A 0 0) * Real.sqrt (A 0 0) = A 0 0 := Real.mul_self_sqrt h0.le
      have hrest : ∀ i j : Fin n, A i.succ j.succ - A i.succ 0 / Real.sqrt (A 0 0) *
          (A j.succ 0 / Real.sqrt (A 0 0)) = schur A i j := by
        intro i j
        unfold schur
        rw [div_mul_div_comm, hss]
      have hun : cholesky (fun i j => fin (A i j)) =
          match cholesky (fun i j => fin (schur A i j)) with
          | none => none
          | some l => some (Fin.cons (Fin.cons (fin (Real.sqrt (A 0 0))) fun _ => 0) fun i =>
              Fin.cons (fin (A i.succ 0 / Real.sqrt (A 0 0))) (l i)) := by
        rw [cholesky]
        simp only [zero_def, fin_lt, h0, decide_true, if_true, memo_eq, sqrt_fin h0.le,
          fin_div _ _ hsq.ne', fin_mul, fin_sub, hrest]
        cases cholesky (fun i j => fin (schur A i j)) <;> rfl
      obtain ⟨ih1, ih2⟩ := cholesky_spec (schur A) fun i j => by
        unfold schur; rw [hs i.succ, mul_comm]
      rw [pd_schur hs h0, hun]
      constructor
      · intro h
        obtain ⟨L, hL, hLp, hLL⟩ := ih1 h
        refine ⟨Fin.cons (Fin.cons (Real.sqrt (A 0 0)) fun _ => 0) fun i =>
              Fin.cons (A i.succ 0 / Real.sqrt (A 0 0)) (L i), ?_, ⟨?_, ?_⟩, ?_⟩
        · rw [hL]
          simp only [Option.some.injEq]
          funext i j
          refine Fin.cases ?_ (fun i => ?_) i <;> refine Fin.cases ?_ (fun j => ?_) j <;>
            simp [zero_def]
        · intro i j
          refine Fin.cases ?_ (fun i => ?_) i <;> refine Fin.cases ?_ (fun j => ?_) j
          · simp
          · simp
          · simp
          · intro hij
            simpa using hLp.upper i j (by simpa using hij)
        · intro i
          refine Fin.cases ?_ (fun i => ?_) i
          · simpa using h0
          · simpa using hLp.diag i
        · intro i j
          rw [Fin.sum_univ_succ]
          refine Fin.cases ?_ (fun i => ?_) i <;> refine Fin.cases ?_ (fun j => ?_) j
          · simp [hss]
          · simp only [Fin.cons_zero, Fin.cons_succ, zero_mul, Finset.sum_const_zero, add_zero]
            rw [mul_div_cancel₀ _ hsq.ne', hs]
          · simp only [Fin.cons_zero, Fin.cons_succ, mul_zero, Finset.sum_const_zero, add_zero]
            rw [div_mul_cancel₀ _ hsq.ne']
          · simp only [Fin.cons_zero, Fin.cons_succ, hLL, ← hrest]
            ring
      · intro h
        rw [ih2 h]
    · refine ⟨fun h => absurd h.first_pos h0, fun _ => ?_⟩
      rw [cholesky]
      simp [zero_def, h0]

/-- Forward substitution over the reals. -/
noncomputable def rsolve : {n : ℕ} → (Fin n → Fin n → ℝ) → (Fin n → ℝ) → Fin n → ℝ
  | 0, _, b => b
  | _ + 1, L, b => Fin.cons (b 0 / L 0 0)
      (rsolve (fun i j => L i.succ j.succ) fun i => b i.succ - L i.succ 0 * (b 0 / L 0 0))

theorem LowerPos.tail {L : Fin (n + 1) → Fin (n + 1) → ℝ} (h : LowerPos L) :
    LowerPos fun i j : Fin n => L i.succ j.succ :=
  ⟨fun i j hij => h.upper _ _ (by simpa using hij), fun i => h.diag _⟩

theorem solveLower_fin : ∀ {n : ℕ} (L : Fin n → Fin n → ℝ) (b : Fin n → ℝ), LowerPos L →
    solveLower (fun i j => fin (L i j)) (fun i => fin (b i)) = fun i => fin (rsolve L b i)
  | 0, L, b, h => rfl
  | n + 1, L, b, h => by
    rw [solveLower]
    simp only [fin_div _ _ (h.diag 0).ne', fin_mul, fin_sub, memo_eq]
    rw [solveLower_fin _ _ h.tail]
    funext i
    refine Fin.cases ?_ (fun i => ?_) i <;> simp [rsolve]

theorem rsolve_spec : ∀ {n : ℕ} (L : Fin n → Fin n → ℝ) (b : Fin n → ℝ), LowerPos L →
    ∀ i, ∑ j, L i j * rsolve L b j = b i
  | 0, L, b, h, i => i.elim0
  | n + 1, L, b, h, i => by
    rw [Fin.sum_univ_succ]
    simp only [rsolve, Fin.cons_zero, Fin.cons_succ]
    refine Fin.cases ?_ (fun i => ?_) i
    · have : ∀ j : Fin n, L 0 j.succ = 0 := fun j => h.upper _ _ (Fin.succ_pos j)
      simp only [this, zero_mul, Finset.sum_const_zero, add_zero]
      exact mul_div_cancel₀ _ (h.diag 0).ne'
    · rw [rsolve_spec _ _ h.tail i]
      ring

/-! ## Link to matrices -/

variable {A : Matrix (Fin n) (Fin n) ℝ}

theorem qf_eq (A : Matrix (Fin n) (Fin n) ℝ) (x : Fin n → ℝ) : qf A x = x ⬝ᵥ (A *ᵥ x) := by
  simp only [qf, dotProduct, Matrix.mulVec, Finset.mul_sum, mul_assoc]

theorem posDef_iff (hs : A.IsSymm) : A.PosDef ↔ PD A := by
  rw [Matrix.posDef_iff_dotProduct_mulVec]
  constructor
  · intro h x hx
    rw [qf_eq]
    simpa using h.2 hx
  · intro h
    refine ⟨?_, fun x hx => ?_⟩
    · ext i j
      simpa using congrFun (congrFun hs i) j
    · have := h x hx
      rw [qf_eq] at this
      simpa using this

theorem isSymm_of_posDef (h : A.PosDef) : A.IsSymm := by
  ext i j
  have := congrFun (congrFun h.1 i) j
  simpa using this

theorem isSymm_of_posSemidef (h : A.PosSemidef) : A.IsSymm := by
  ext i j
  have := congrFun (congrFun h.1 i) j
  simpa using this

/-- `L` is the Cholesky factor of `A`. -/
structure Factors (L A : Matrix (Fin n) (Fin n) ℝ) : Prop where
  lower : LowerPos L
  mul : L * Lᵀ = A

theorem exists_factor (h : A.PosDef) :
    ∃ L : Matrix (Fin n) (Fin n) ℝ, cholesky (fun i j => fin (A i j)) = some (fun i j => fin (L i j)) ∧
      Factors L A := by
  have hs := isSymm_of_posDef h
  obtain ⟨L, h1, h2, h3⟩ := (cholesky_spec A fun i j => (congrFun (congrFun hs i) j).symm).1
    ((posDef_iff hs).1 h)
  refine ⟨Matrix.of L, h1, h2, Matrix.ext fun i j => ?_⟩
  rw [Matrix.mul_apply]
  exact h3 i j

theorem Factors.det {L : Matrix (Fin n) (Fin n) ℝ} (h : Factors L A) : A.det = (∏ k, L k k) ^ 2 := by
  rw [← h.mul, Matrix.det_mul, Matrix.det_transpose,
    Matrix.det_of_lowerTriangular L fun i j hij => h.lower.upper i j hij, pow_two]

theorem Factors.det_pos {L : Matrix (Fin n) (Fin n) ℝ} (h : Factors L A) : 0 < A.det := by
  rw [h.det]
  exact pow_pos (Finset.prod_pos fun k _ => h.lower.diag k) 2

theorem Factors.log_det {L : Matrix (Fin n) (Fin n) ℝ} (h : Factors L A) :
    Real.log A.det = 2 * ∑ k, Real.log (L k k) := by
  rw [h.det, Real.log_pow, Real.log_prod fun k _ => (h.lower.diag k).ne']
  push_cast; rfl

/-- `bᵀ A⁻¹ b` is the squared norm of the solution of `L y = b`. -/
theorem Factors.quad {L : Matrix (Fin n) (Fin n) ℝ} (h : Factors L A) (b : Fin n → ℝ) :
    b ⬝ᵥ (A⁻¹ *ᵥ b) = ∑ k, rsolve L b k ^ 2 := by
  set y := rsolve L b with hy
  have hb : L *ᵥ y = b := by
    funext i
    exact rsolve_spec L b h.lower i
  have hdet : IsUnit A.det := isUnit_iff_ne_zero.2 h.det_pos.ne'
  have h1 : A⁻¹ * L * Lᵀ = 1 := by rw [Matrix.mul_assoc, h.mul, Matrix.nonsing_inv_mul _ hdet]
  have h2 : Lᵀ * (A⁻¹ * L) = 1 := mul_eq_one_comm.1 h1
  rw [← hb, Matrix.mulVec_mulVec, dotProduct_comm, Matrix.dotProduct_mulVec, ← Matrix.mulVec_transpose,
    Matrix.mulVec_mulVec, h2, Matrix.one_mulVec]
  simp only [dotProduct, pow_two]

theorem posDef_effCov (h : A.PosSemidef) : (effCov A).PosDef := by
  unfold effCov
  split
  · assumption
  · refine Matrix.PosDef.posSemidef_add h ?_
    exact Matrix.PosDef.smul Matrix.PosDef.one (by norm_num)

theorem isFinite_fin (x : ℝ) : isFinite (fin x) = true := by
  simp [isFinite]

theorem finiteRow_fin (v : Fin n → ℝ) : finiteRow (fun k => fin (v k)) = true := by
  simp [finiteRow, isFinite_fin]

theorem factor_fin (h : A.PosSemidef) :
    ∃ L : Matrix (Fin n) (Fin n) ℝ, factor (fun i j => fin (A i j)) = .ok (fun i j => fin (L i j)) ∧
      Factors L (effCov A) := by
  have hfin : (!((List.finRange n).all fun i => finiteRow fun j => fin (A i j))) = false := by
    simp [finiteRow_fin]
  have hs := isSymm_of_posSemidef h
  by_cases hp : A.PosDef
  · obtain ⟨L, h1, h2⟩ := exists_factor hp
    refine ⟨L, ?_, by rwa [effCov, if_pos hp]⟩
    unfold factor
    rw [hfin, h1]
    simp
  · have hne : cholesky (fun i j => fin (A i j)) = none :=
      (cholesky_spec A fun i j => (congrFun (congrFun hs i) j).symm).2 fun h' =>
        hp ((posDef_iff hs).2 h')
    obtain ⟨L, h1, h2⟩ := exists_factor (posDef_effCov h)
    refine ⟨L, ?_, h2⟩
    unfold factor
    rw [hfin, hne]
    have e : (fun i j => fin (A i j) + ofRat (1 / 10 ^ 7) * (if i = j then 1 else 0) :
        Fin n → Fin n → XF) = fun i j => fin (effCov A i j) := by
      funext i j
      have e7 : (ofRat (1 / 10 ^ 7) : XF) = fin (1 / 10 ^ 7) := by
        rw [ofRat_def]; congr 1; norm_num
      rw [effCov, if_neg hp, e7]
      by_cases hij : i = j
      · simp [hij, one_def, fin_mul, fin_add]
      · simp [hij, zero_def, fin_mul, fin_add, Matrix.one_apply]
    simp only [memo_eq]
    rw [e, h1]
    simp

theorem mvnPdf_pos {S : Matrix (Fin n) (Fin n) ℝ} (h : S.PosDef) (μ x : Fin n → ℝ) :
    0 < mvnPdf μ S x := by
  obtain ⟨L, _, hL⟩ := exists_factor h
  have := hL.det_pos
  have := Real.pi_pos
  unfold mvnPdf
  positivity

theorem log_mvnPdf {S : Matrix (Fin n) (Fin n) ℝ} (h : S.PosDef) (μ x : Fin n → ℝ) :
    Real.log (mvnPdf μ S x) =
      -(1 / 2) * (n * Real.log (2 * Real.pi) + Real.log S.det + mahalanobis μ S x) := by
  obtain ⟨L, _, hL⟩ := exists_factor h
  have hd := hL.det_pos
  have := Real.pi_pos
  unfold mvnPdf
  rw [Real.log_div (Real.exp_pos _).ne' (Real.sqrt_pos.2 (by positivity)).ne', Real.log_exp,
    Real.log_sqrt (by positivity), Real.log_mul (by positivity) hd.ne', Real.log_pow]
  ring

theorem logDensityChol_fin {L S : Matrix (Fin n) (Fin n) ℝ} (hS : S.PosDef) (hL : Factors L S)
    (μ x : Fin n → ℝ) :
    logDensityChol (fun k => fin (μ k)) (fun i j => fin (L i j)) (fun k => fin (x k)) =
      lg (mvnPdf μ S x) := by
  unfold logDensityChol
  simp only [memo_eq, fin_sub, solveLower_fin L _ hL.lower, sq_fin, logTwoPi_fin, half_eq, ofNat'_def]
  have e1 : ∀ k, FloatLike.log (fin (L k k)) = fin (Real.log (L k k)) := fun k => by
    rw [lg_def]; exact lg_pos (hL.lower.diag k)
  simp only [e1, sumF_fin, fin_mul, fin_add]
  rw [lg_pos (mvnPdf_pos hS μ x), log_mvnPdf hS, hL.log_det, mahalanobis, hL.quad]
  congr 1
  push_cast
  have : (fun k => x k - μ k) = x - μ := rfl
  rw [this]
  ring

theorem allOk_ok {β : Type} : ∀ {n : ℕ} (f : Fin n → Except PyErr β) (g : Fin n → β),
    (∀ i, f i = .ok (g i)) → allOk f = .ok g
  | 0, f, g, h => by
    rw [allOk]
    congr 1
    funext i
    exact i.elim0
  | n + 1, f, g, h => by
    rw [allOk, h 0]
    simp only [bind, Except.bind, pure, Except.pure]
    rw [allOk_ok _ _ fun i => h i.succ]
    simp only
    congr 1
    exact Fin.cons_self_tail g

variable {nc nf : ℕ}

/-- `_log_multivariate_normal_density_full` on positive semidefinite covariances. -/
theorem logDensityFull_fin (mu : Fin nc → Fin nf → ℝ) (S : Fin nc → Matrix (Fin nf) (Fin nf) ℝ)
    (hS : ∀ i, (S i).PosSemidef) (X : List (Fin nf → ℝ)) :
    logDensityFull (fun i k => fin (mu i k)) (fun i k l => fin (S i k l)) (X.map row) =
      .ok (X.map fun x i => FloatLike.log (fin (fullB mu S x i))) := by
  choose L hL1 hL2 using fun i => factor_fin (hS i)
  unfold logDensityFull
  rw [allOk_ok _ (fun i k l => fin (L i k l)) fun i => by
    simp only [hL1, bind, Except.bind]
    have : ((X.map row).all fun x => finiteRow fun k => x k - fin (mu i k)) = true := by
      simp only [List.all_map, List.all_eq_true]
      intro x _
      simp only [Function.comp_apply, row, fin_sub]
      exact finiteRow_fin _
    rw [this]; simp]
  simp only [bind, Except.bind, pure, Except.pure, List.map_map, memo_eq]
  congr 1
  refine List.map_congr_left fun x _ => ?_
  funext i
  exact logDensityChol_fin (posDef_effCov (hS i)) (hL2 i) (mu i) x

end Gaussian
end Verif
