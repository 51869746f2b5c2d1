import Verif.Proofs.Kernel
import Mathlib.Tactic.FinCases
import Mathlib.Data.Fin.VecNotation

/-!
# Properties of `utils.normalize` and `utils.log_normalize`: C49, C50
-/

namespace Verif
open FloatLike XF
open scoped Classical

variable {n m : ℕ}

/-! ## C49 -/

/-- **C49** `normalize(a, axis=1)` on a row with non-zero sum: the result is proportional to the row
and sums to one. -/
theorem C49_row_sums_to_one (a : Fin n → ℝ) (h : ∑ i, a i ≠ 0) :
    ∃ p : Fin n → ℝ, normalizeRow (fun i => fin (a i)) = (fun i => fin (p i)) ∧ ∑ i, p i = 1 ∧
      ∀ i, p i * ∑ j, a j = a i := by
  refine ⟨fun i => a i / ∑ j, a j, funext fun i => ?_, ?_, fun i => div_mul_cancel₀ _ h⟩
  · exact normalizeRow_fin _ h i
  · rw [← Finset.sum_div, div_self h]

/-- **C49** A row with zero sum (in particular an all-zero one) is left unchanged. -/
theorem C49_zero_row (a : Fin n → ℝ) (h : ∑ i, a i = 0) :
    normalizeRow (fun i => fin (a i)) = fun i => fin (a i) :=
  funext fun i => normalizeRow_fin_zero _ h i

/-- **C49** Idempotent on every real row. -/
theorem C49_idempotent (a : Fin n → ℝ) :
    normalizeRow (normalizeRow fun i => fin (a i)) = normalizeRow fun i => fin (a i) := by
  by_cases h : ∑ i, a i = 0
  · rw [C49_zero_row a h, C49_zero_row a h]
  · obtain ⟨p, h1, h2, _⟩ := C49_row_sums_to_one a h
    rw [h1]
    obtain ⟨p', h1', h2', h3'⟩ := C49_row_sums_to_one p (by rw [h2]; exact one_ne_zero)
    rw [h1']
    funext i
    have := h3' i
    rw [h2, mul_one] at this
    rw [this]

/-- **C49** Scale-invariant on rows with non-zero sum. -/
theorem C49_scale_invariant (a : Fin n → ℝ) (h : ∑ i, a i ≠ 0) (c : ℝ) (hc : c ≠ 0) :
    normalizeRow (fun i => fin (c * a i)) = normalizeRow fun i => fin (a i) := by
  have h' : ∑ i, c * a i ≠ 0 := by rw [← Finset.mul_sum]; exact mul_ne_zero hc h
  funext i
  rw [normalizeRow_fin _ h', normalizeRow_fin _ h, ← Finset.mul_sum, mul_div_mul_left _ _ hc]

/-- **C49** `normalize(a)` without axis divides by the sum with no guard: distribution when the sum
is non-zero, NaN on an all-zero array. -/
theorem C49_no_axis (a : Fin n → ℝ) :
    (∑ i, a i ≠ 0 → ∃ p : Fin n → ℝ, normalizeVec (fun i => fin (a i)) = (fun i => fin (p i)) ∧
      ∑ i, p i = 1 ∧ ∀ i, p i * ∑ j, a j = a i) ∧
    ((∀ i, a i = 0) → normalizeVec (fun i => fin (a i)) = fun _ => nan) := by
  constructor
  · intro h
    refine ⟨fun i => a i / ∑ j, a j, funext fun i => ?_, ?_, fun i => div_mul_cancel₀ _ h⟩
    · simp only [normalizeVec, sumF_fin]; exact fin_div _ _ h
    · rw [← Finset.sum_div, div_self h]
  · intro h
    funext i
    simp only [normalizeVec, sumF_fin, h, Finset.sum_const_zero, fin_zero_div_zero]

/-- **C49** `normalize(a, axis=0)` has no zero guard either: columns with non-zero sum become
distributions, an all-zero column becomes NaN. -/
theorem C49_axis0 (a : Fin m → Fin n → ℝ) (j : Fin n) :
    (∑ i, a i j ≠ 0 → ∃ p : Fin m → ℝ, (∀ i, normalizeAxis0 (fun i j => fin (a i j)) i j = fin (p i)) ∧
      ∑ i, p i = 1) ∧
    ((∀ i, a i j = 0) → ∀ i, normalizeAxis0 (fun i j => fin (a i j)) i j = nan) := by
  constructor
  · intro h
    refine ⟨fun i => a i j / ∑ k, a k j, fun i => ?_, ?_⟩
    · simp only [normalizeAxis0, sumF_fin]; exact fin_div _ _ h
    · rw [← Finset.sum_div, div_self h]
  · intro h i
    simp only [normalizeAxis0, sumF_fin, h, Finset.sum_const_zero, fin_zero_div_zero]

example : ∃ p : Fin 2 → ℝ, normalizeRow (fun i => fin (![1, 3] i)) = (fun i => fin (p i)) ∧
    ∑ i, p i = 1 ∧ ∀ i, p i * ∑ j, ![1, 3] j = ![1, 3] i :=
  C49_row_sums_to_one ![1, 3] (by norm_num [Fin.sum_univ_two])

/-! ## C50 -/

/-- Entries that are finite or `-inf`. -/
def LogRow (v : Fin n → XF) : Prop := ∀ i, v i = ninf ∨ ∃ r, v i = fin r

theorem LogRow.exists_lg {v : Fin n → XF} (h : LogRow v) :
    ∃ x : Fin n → ℝ, (∀ i, 0 ≤ x i) ∧ (∀ i, v i = lg (x i)) ∧
      ∀ i, FloatLike.exp (v i) = fin (x i) ∧ (v i = ninf ↔ x i = 0) := by
  have : ∀ i, ∃ x : ℝ, 0 ≤ x ∧ v i = lg x := by
    intro i
    rcases h i with h | ⟨r, h⟩
    · exact ⟨0, le_rfl, by rw [h, lg_zero]⟩
    · exact ⟨Real.exp r, (Real.exp_pos r).le, by rw [h, lg_pos (Real.exp_pos r), Real.log_exp]⟩
  choose x hx hv using this
  refine ⟨x, hx, hv, fun i => ⟨by rw [hv, lg_exp (hx i)], ?_⟩⟩
  rw [hv]
  constructor
  · intro h0
    by_contra hne
    rw [lg_pos (lt_of_le_of_ne (hx i) (Ne.symm hne))] at h0
    simp at h0
  · intro h0; rw [h0, lg_zero]

/-- **C50** `log_normalize(a, axis=1)` on a row of finite values and `-inf`, at least one of them
finite: the exponentials of the result are `exp a_i / Σ exp a_j`, hence sum to one. -/
theorem C50_normalises [NeZero n] (v : Fin n → XF) (hv : LogRow v) (hfin : ∃ i r, v i = fin r) :
    ∃ w p : Fin n → ℝ, (∀ i, FloatLike.exp (v i) = fin (w i)) ∧
      (∀ i, FloatLike.exp (logNormalizeRow v i) = fin (p i)) ∧
      (∀ i, 0 ≤ p i) ∧ ∑ i, p i = 1 ∧ ∀ i, p i * ∑ j, w j = w i := by
  obtain ⟨x, hx, hlg, hexp⟩ := hv.exists_lg
  obtain ⟨k, r, hk⟩ := hfin
  have hxk : 0 < x k := lt_of_le_of_ne (hx k) fun h0 => by
    have := (hexp k).2.2 h0.symm
    rw [hk] at this; simp at this
  have hS : 0 < ∑ i, x i := lt_of_lt_of_le hxk
    (Finset.single_le_sum (fun i _ => hx i) (Finset.mem_univ k))
  have e : v = fun i => lg (x i) := funext hlg
  refine ⟨x, fun i => x i / ∑ j, x j, fun i => (hexp i).1, fun i => ?_,
    fun i => div_nonneg (hx i) hS.le, ?_, fun i => div_mul_cancel₀ _ hS.ne'⟩
  · rw [e]; exact exp_logNormalizeRow_lg x hx hS i
  · rw [← Finset.sum_div, div_self hS.ne']

/-- **C50** Adding a constant to the row changes nothing. -/
theorem C50_shift_invariant [NeZero n] (v : Fin n → XF) (hv : LogRow v) (hfin : ∃ i r, v i = fin r)
    (c : ℝ) : logNormalizeRow (fun i => v i + fin c) = logNormalizeRow v := by
  obtain ⟨x, hx, hlg, hexp⟩ := hv.exists_lg
  obtain ⟨k, r, hk⟩ := hfin
  have hxk : 0 < x k := lt_of_le_of_ne (hx k) fun h0 => by
    have := (hexp k).2.2 h0.symm
    rw [hk] at this; simp at this
  have hS : 0 < ∑ i, x i := lt_of_lt_of_le hxk
    (Finset.single_le_sum (fun i _ => hx i) (Finset.mem_univ k))
  have hc : fin c = lg (Real.exp c) := by rw [lg_pos (Real.exp_pos c), Real.log_exp]
  have e : v = fun i => lg (x i) := funext hlg
  have e' : (fun i => v i + fin c) = fun i => lg (x i * Real.exp c) := by
    funext i
    rw [hlg, hc, lg_mul (hx i) (Real.exp_pos c).le]
  have hS' : 0 < ∑ i, x i * Real.exp c := by
    rw [← Finset.sum_mul]; exact mul_pos hS (Real.exp_pos c)
  rw [e', e]
  unfold logNormalizeRow
  split
  · rfl
  · funext i
    simp only
    rw [scipyLogsumexp_lg _ fun i => mul_nonneg (hx i) (Real.exp_pos c).le, scipyLogsumexp_lg _ hx,
      lg_div (mul_nonneg (hx i) (Real.exp_pos c).le) hS', lg_div (hx i) hS, ← Finset.sum_mul,
      mul_div_mul_right _ _ (Real.exp_pos c).ne']

/-- **C50** An all `-inf` row becomes NaN, unless it has a single entry, which becomes zero. -/
theorem C50_all_neg_inf [NeZero n] (v : Fin n → XF) (hv : ∀ i, v i = ninf) :
    logNormalizeRow v = if n = 1 then fun _ => fin 0 else fun _ => XF.nan := by
  have e : v = fun _ => lg 0 := funext fun i => by rw [hv, lg_zero]
  unfold logNormalizeRow
  split
  · rfl
  · funext i
    rw [e, scipyLogsumexp_lg (fun _ : Fin n => (0 : ℝ)) (fun _ => le_rfl)]
    simp

example : ∃ w p : Fin 3 → ℝ, (∀ i, FloatLike.exp ((![fin 1, ninf, fin (-2)] : Fin 3 → XF) i) = fin (w i)) ∧
    (∀ i, FloatLike.exp (logNormalizeRow (![fin 1, ninf, fin (-2)] : Fin 3 → XF) i) = fin (p i)) ∧
    (∀ i, 0 ≤ p i) ∧ ∑ i, p i = 1 ∧ ∀ i, p i * ∑ j, w j = w i :=
  C50_normalises _ (by intro i; fin_cases i <;> simp) ⟨0, 1, rfl⟩

end Verif
