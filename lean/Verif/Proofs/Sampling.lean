import Verif.Model.Estimator
import Verif.Num.XFLemmas
import Verif.Num.Rounded
import Mathlib.Algebra.BigOperators.Fin
import Mathlib.Algebra.Order.BigOperators.Group.Finset

/-!
# Drawing a state by inversion of the cumulative distribution
-/

namespace Verif
open FloatLike

/-! ## `argmax` of booleans -/

theorem argmaxBool_first {n : Nat} [NeZero n] {q : Fin n → Bool} (h : ∃ j, q j = true) :
    q (argmaxBool q) = true ∧ ∀ j < argmaxBool q, q j = false := by
  unfold argmaxBool
  cases hf : (List.finRange n).find? q with
  | none =>
    obtain ⟨j, hj⟩ := h
    exact absurd hj (List.find?_eq_none.1 hf j (List.mem_finRange j))
  | some z =>
    obtain ⟨hz, as, bs, hl, ha⟩ := List.find?_eq_some_iff_append.1 hf
    refine ⟨hz, fun j hj => ?_⟩
    have hj : j < z := hj
    have hm : j ∈ as ++ z :: bs := hl ▸ List.mem_finRange j
    have hp : (as ++ z :: bs).Pairwise (· < ·) := hl ▸ List.pairwise_lt_finRange n
    rcases List.mem_append.1 hm with hm | hm
    · simpa using ha j hm
    · rcases List.mem_cons.1 hm with rfl | hm
      · exact absurd hj (lt_irrefl _)
      · have := (List.pairwise_append.1 hp).2.1
        exact absurd ((List.pairwise_cons.1 this).1 j hm) (lt_asymm hj)

theorem argmaxBool_none {n : Nat} [NeZero n] {q : Fin n → Bool} (h : ∀ j, q j = false) : argmaxBool q = 0 := by
  unfold argmaxBool
  rw [List.find?_eq_none.2 fun j _ => by simp [h j]]
  rfl

theorem argmaxBool_eq {n : Nat} [NeZero n] {q : Fin n → Bool} {z : Fin n} (hz : q z = true)
    (hlt : ∀ j < z, q j = false) : argmaxBool q = z := by
  obtain ⟨h1, h2⟩ := argmaxBool_first ⟨z, hz⟩
  rcases lt_trichotomy (argmaxBool q) z with h | h | h
  · rw [hlt _ h] at h1; cases h1
  · exact h
  · rw [h2 _ h] at hz; cases hz

/-! ## Partial sums -/

section
variable {α : Type} [FloatLike α] {n : Nat}

/-- The sum of the first `k` entries. -/
def partialSum (v : Fin n → α) (k : Nat) : α := ((List.finRange n).take k).foldl (fun acc j => acc + v j) 0

theorem partialSum_zero (v : Fin n → α) : partialSum v 0 = 0 := rfl

theorem partialSum_succ (v : Fin n → α) {k : Nat} (hk : k < n) :
    partialSum v (k + 1) = partialSum v k + v ⟨k, hk⟩ := by
  unfold partialSum
  rw [List.take_add_one, List.foldl_append, List.getElem?_eq_getElem (by simpa using hk)]
  simp

theorem cumsum_eq (v : Fin n → α) (i : Fin n) : cumsum v i = partialSum v (i.val + 1) := rfl

end

/-- Sum of the entries below `k`. -/
def cdf {n : ℕ} (p : Fin n → ℝ) (k : ℕ) : ℝ := ∑ j with j.val < k, p j

theorem cdf_zero {n : ℕ} (p : Fin n → ℝ) : cdf p 0 = 0 := by simp [cdf]

theorem cdf_succ {n : ℕ} (p : Fin n → ℝ) (i : Fin n) : cdf p (i.val + 1) = cdf p i.val + p i := by
  unfold cdf
  have : (Finset.univ.filter fun j : Fin n => j.val < i.val + 1) =
      insert i (Finset.univ.filter fun j : Fin n => j.val < i.val) := by
    ext j
    simp only [Finset.mem_filter, Finset.mem_univ, true_and, Finset.mem_insert, Fin.ext_iff]
    omega
  rw [this, Finset.sum_insert (by simp), add_comm]

theorem cdf_full {n : ℕ} (p : Fin n → ℝ) : cdf p n = ∑ j, p j := by
  unfold cdf
  rw [Finset.filter_true_of_mem fun j _ => j.isLt]

theorem partialSum_fin {n : ℕ} (p : Fin n → ℝ) {k : ℕ} (hk : k ≤ n) :
    partialSum (fun j => XF.fin (p j)) k = XF.fin (cdf p k) := by
  induction k with
  | zero => rw [partialSum_zero, cdf_zero, XF.zero_def]
  | succ k ih =>
    rw [partialSum_succ _ hk, ih (by omega), XF.fin_add, cdf_succ p ⟨k, hk⟩]

theorem cumsum_fin {n : ℕ} (p : Fin n → ℝ) (i : Fin n) :
    cumsum (fun j => XF.fin (p j)) i = XF.fin (cdf p (i.val + 1)) :=
  partialSum_fin p i.isLt

/-! ## The drawn index -/

/-- The index chosen for the uniform number `u`. -/
noncomputable def pick {n : ℕ} [NeZero n] (p : Fin n → ℝ) (u : ℝ) : Fin n :=
  argmaxBool fun j => lt (XF.fin u) (cumsum (fun j => XF.fin (p j)) j)

theorem pick_lt {n : ℕ} [NeZero n] (p : Fin n → ℝ) (u : ℝ) (j : Fin n) :
    (lt (XF.fin u) (cumsum (fun j => XF.fin (p j)) j) = true) ↔ u < cdf p (j.val + 1) := by
  rw [cumsum_fin, XF.fin_lt]; simp

theorem pick_pos {n : ℕ} [NeZero n] (p : Fin n → ℝ) {u : ℝ} (hu : 0 ≤ u) (hs : u < ∑ j, p j) :
    0 < p (pick p u) ∧ cdf p (pick p u).val ≤ u := by
  have hn := NeZero.pos n
  have hex : ∃ j : Fin n, lt (XF.fin u) (cumsum (fun j => XF.fin (p j)) j) = true := by
    refine ⟨⟨n - 1, by omega⟩, (pick_lt p u _).2 ?_⟩
    simp only
    rwa [Nat.sub_add_cancel hn, cdf_full]
  obtain ⟨h1, h2⟩ := argmaxBool_first hex
  rw [pick_lt] at h1
  change u < cdf p ((pick p u).val + 1) at h1
  rw [cdf_succ] at h1
  have h3 : cdf p (pick p u).val ≤ u := by
    rcases Nat.eq_zero_or_pos (pick p u).val with h0 | h0
    · rw [h0, cdf_zero]; exact hu
    · have hlt : (⟨(pick p u).val - 1, by omega⟩ : Fin n) < pick p u := by
        rw [Fin.lt_def]; simp only; omega
      have := h2 _ hlt
      have h4 : ¬ u < cdf p ((pick p u).val - 1 + 1) := by
        rw [← pick_lt p u ⟨(pick p u).val - 1, by omega⟩]
        simp [this]
      rw [Nat.sub_add_cancel h0] at h4
      exact not_lt.1 h4
  exact ⟨by linarith, h3⟩

theorem cdf_mono {n : ℕ} {p : Fin n → ℝ} (hp : ∀ j, 0 ≤ p j) {a b : ℕ} (h : a ≤ b) : cdf p a ≤ cdf p b := by
  unfold cdf
  refine Finset.sum_le_sum_of_subset_of_nonneg (fun j hj => ?_) fun j _ _ => hp j
  simp only [Finset.mem_filter, Finset.mem_univ, true_and] at hj ⊢
  omega

/-- For a probability vector the index is `i` exactly on an interval of length `p i`. -/
theorem pick_iff {n : ℕ} [NeZero n] {p : Fin n → ℝ} (hp : ∀ j, 0 ≤ p j) {u : ℝ} (hu : 0 ≤ u)
    (hs : u < ∑ j, p j) (i : Fin n) : pick p u = i ↔ cdf p i.val ≤ u ∧ u < cdf p (i.val + 1) := by
  constructor
  · rintro rfl
    refine ⟨(pick_pos p hu hs).2, ?_⟩
    have hex : ∃ j : Fin n, lt (XF.fin u) (cumsum (fun j => XF.fin (p j)) j) = true := by
      refine ⟨⟨n - 1, by have := NeZero.pos n; omega⟩, (pick_lt p u _).2 ?_⟩
      simp only
      rwa [Nat.sub_add_cancel (NeZero.pos n), cdf_full]
    exact (pick_lt p u _).1 (argmaxBool_first hex).1
  · rintro ⟨h1, h2⟩
    refine argmaxBool_eq ((pick_lt p u i).2 h2) fun j hj => ?_
    rw [← Bool.not_eq_true, pick_lt]
    exact not_lt.2 ((cdf_mono hp (by rw [Fin.lt_def] at hj; omega)).trans h1)

end Verif
