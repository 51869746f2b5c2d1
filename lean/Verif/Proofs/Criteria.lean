import Verif.Spec.Criteria
import Mathlib.LinearAlgebra.Dimension.Constructions
import Mathlib.LinearAlgebra.FiniteDimensional.Lemmas
import Mathlib.Data.Sym.Card
import Mathlib.Tactic.NoncommRing
import Mathlib.Algebra.Order.Star.Real

/-!
# Dimensions of parameter sets
-/

namespace Verif.Spec
open Module

section
variable {E F : Type*} [AddCommGroup E] [Module ℝ E] [AddCommGroup F] [Module ℝ F]

/-- `dim` when the span of the differences is known. -/
theorem dim_of_span {s : Set E} {V : Submodule ℝ E} (h1 : ∀ a ∈ s, ∀ b ∈ s, a - b ∈ V)
    (h2 : ∀ v ∈ V, v ∈ vectorSpan ℝ s) : dim s = finrank ℝ V := by
  have : vectorSpan ℝ s = V := by
    refine le_antisymm ?_ h2
    rw [vectorSpan_def, Submodule.span_le]
    rintro _ ⟨a, ha, b, hb, rfl⟩
    exact h1 a ha b hb
  unfold dim
  rw [this]

theorem dim_image (e : E ≃ₗ[ℝ] F) (s : Set E) : dim (e '' s) = dim s := by
  unfold dim
  have : vectorSpan ℝ (e '' s) = (vectorSpan ℝ s).map (e : E →ₗ[ℝ] F) :=
    ((e : E →ₗ[ℝ] F).toAffineMap.vectorSpan_image_eq_submodule_map).symm
  rw [this]
  exact LinearEquiv.finrank_map_eq e _

theorem dim_prod [FiniteDimensional ℝ E] [FiniteDimensional ℝ F] {s : Set E} {t : Set F}
    (hs : s.Nonempty) (ht : t.Nonempty) : dim (s ×ˢ t) = dim s + dim t := by
  unfold dim
  rw [vectorSpan_prod_eq hs ht, ← finrank_prod (R := ℝ)]
  exact LinearEquiv.finrank_eq
    { toFun := fun x => (⟨x.1.1, x.2.1⟩, ⟨x.1.2, x.2.2⟩)
      invFun := fun y => ⟨(y.1.1, y.2.1), y.1.2, y.2.2⟩
      map_add' := fun _ _ => rfl
      map_smul' := fun _ _ => rfl
      left_inv := fun _ => rfl
      right_inv := fun _ => rfl }

theorem families_nonempty {s : Set E} (hs : s.Nonempty) (n : ℕ) : (families n s).Nonempty :=
  ⟨fun _ => hs.choose, fun _ => hs.choose_spec⟩

theorem dim_families [FiniteDimensional ℝ E] {s : Set E} (hs : s.Nonempty) (n : ℕ) :
    dim (families n s) = n * dim s := by
  induction n with
  | zero =>
    rw [zero_mul]
    exact finrank_zero_of_subsingleton
  | succ n ih =>
    have : families (n + 1) s = (Fin.consLinearEquiv ℝ fun _ => E) '' (s ×ˢ families n s) := by
      ext f
      constructor
      · intro h
        exact ⟨(f 0, fun i => f i.succ), ⟨h 0, fun i => h _⟩, Fin.cons_self_tail f⟩
      · rintro ⟨⟨a, g⟩, ⟨ha, hg⟩, rfl⟩
        intro i
        refine Fin.cases ?_ (fun i => ?_) i
        · exact ha
        · exact hg i
    rw [this, dim_image, dim_prod hs (families_nonempty hs n), ih]
    ring

theorem dim_univ : dim (Set.univ : Set E) = finrank ℝ E := by
  rw [dim_of_span (V := ⊤) (fun _ _ _ _ => trivial)]
  · exact finrank_top ℝ E
  · intro v _
    have := vsub_mem_vectorSpan ℝ (Set.mem_univ v) (Set.mem_univ (0 : E))
    simpa using this

end

theorem positives_nonempty : positives.Nonempty := ⟨1, show (0 : ℝ) < 1 from one_pos⟩

theorem dim_positives : dim positives = 1 := by
  rw [dim_of_span (V := ⊤) (fun _ _ _ _ => trivial)]
  · rw [finrank_top, finrank_self]
  · intro v _
    have h2 : (2 : ℝ) ∈ positives := show (0 : ℝ) < 2 from two_pos
    have h1 : (1 : ℝ) ∈ positives := show (0 : ℝ) < 1 from one_pos
    have := vsub_mem_vectorSpan ℝ h2 h1
    have := Submodule.smul_mem _ v this
    simpa [show (2 : ℝ) - 1 = 1 by norm_num] using this

theorem simplex_nonempty {n : ℕ} (hn : n ≠ 0) : (simplex n).Nonempty := by
  haveI : NeZero n := ⟨hn⟩
  refine ⟨Pi.single 0 1, fun i => ?_, by simp⟩
  by_cases h : i = 0
  · subst h; simp
  · simp [h]

/-- Probability vectors of length `n`: `n - 1`. -/
theorem dim_simplex {n : ℕ} (hn : n ≠ 0) : dim (simplex n) + 1 = n := by
  haveI : NeZero n := ⟨hn⟩
  let σ : (Fin n → ℝ) →ₗ[ℝ] ℝ := ∑ i, LinearMap.proj i
  have hσ : ∀ v, σ v = ∑ i, v i := fun v => by simp [σ]
  rw [dim_of_span (V := LinearMap.ker σ)]
  · have h1 := LinearMap.finrank_range_add_finrank_ker σ
    have h2 : finrank ℝ (LinearMap.range σ) = 1 := by
      rw [LinearMap.range_eq_top.2, finrank_top, finrank_self]
      intro x
      exact ⟨Pi.single 0 x, by rw [hσ]; simp⟩
    rw [h2, finrank_fin_fun] at h1
    omega
  · intro a ha b hb
    rw [LinearMap.mem_ker, hσ]
    simp [ha.2, hb.2]
  · intro v hv
    rw [LinearMap.mem_ker, hσ] at hv
    have hs : ∀ i : Fin n, (Pi.single i (1 : ℝ) : Fin n → ℝ) ∈ simplex n := by
      intro i
      refine ⟨fun j => ?_, by simp⟩
      by_cases h : j = i
      · subst h; simp
      · simp [h]
    have : v = ∑ i, v i • ((Pi.single i (1 : ℝ) : Fin n → ℝ) -ᵥ Pi.single 0 1) := by
      simp only [vsub_eq_sub, smul_sub, Finset.sum_sub_distrib, ← Finset.sum_smul, hv, zero_smul, sub_zero]
      funext j
      simp [Finset.sum_apply, Pi.single_apply]
    rw [this]
    exact Submodule.sum_mem _ fun i _ => Submodule.smul_mem _ _ (vsub_mem_vectorSpan ℝ (hs i) (hs 0))

/-- Symmetric matrices. -/
def symmetric (n : ℕ) : Submodule ℝ (Matrix (Fin n) (Fin n) ℝ) where
  carrier := {M | M.transpose = M}
  add_mem' := by
    intro a b ha hb
    change (a + b).transpose = a + b
    rw [Matrix.transpose_add, ha, hb]
  zero_mem' := Matrix.transpose_zero
  smul_mem' := by
    intro c a ha
    change (c • a).transpose = c • a
    rw [Matrix.transpose_smul, ha]

theorem finrank_symmetric (n : ℕ) : finrank ℝ (symmetric n) = n * (n + 1) / 2 := by
  have e : symmetric n ≃ₗ[ℝ] (Sym2 (Fin n) → ℝ) :=
    { toFun := fun M s => s.lift ⟨fun i j => M.1 i j, fun i j => congrFun (congrFun M.2 j) i⟩
      invFun := fun f => ⟨Matrix.of fun i j => f s(i, j), by
        ext i j
        simp only [Matrix.transpose_apply, Matrix.of_apply]
        rw [Sym2.eq_swap]⟩
      map_add' := fun M N => by
        funext s
        induction s using Sym2.ind
        rfl
      map_smul' := fun c M => by
        funext s
        induction s using Sym2.ind
        rfl
      left_inv := fun M => rfl
      right_inv := fun f => by
        funext s
        induction s using Sym2.ind
        rfl }
  rw [e.finrank_eq, finrank_pi, Sym2.card, Fintype.card_fin, Nat.choose_two_right, Nat.add_sub_cancel, mul_comm]

theorem covariances_nonempty (n : ℕ) : (covariances n).Nonempty := ⟨1, Matrix.PosDef.one⟩

theorem dim_covariances (n : ℕ) : dim (covariances n) = n * (n + 1) / 2 := by
  rw [← finrank_symmetric]
  have hT : ∀ M : Matrix (Fin n) (Fin n) ℝ, M.conjTranspose = M.transpose := fun M => by
    ext i j; simp
  refine dim_of_span ?_ ?_
  · intro a ha b hb
    change (a - b).transpose = a - b
    have h1 := Matrix.PosDef.isHermitian ha
    have h2 := Matrix.PosDef.isHermitian hb
    rw [Matrix.IsHermitian, hT] at h1 h2
    rw [Matrix.transpose_sub, h1, h2]
  · intro M hM
    have hM : M.transpose = M := hM
    have hp : ∀ N : Matrix (Fin n) (Fin n) ℝ, N.transpose = N → N * N + 1 ∈ covariances n := by
      intro N hN
      have := Matrix.posSemidef_conjTranspose_mul_self N
      rw [hT, hN] at this
      exact Matrix.PosDef.posSemidef_add this Matrix.PosDef.one
    have h1 := hp (1 + M) (by rw [Matrix.transpose_add, hM, Matrix.transpose_one])
    have h2 := hp (1 - M) (by rw [Matrix.transpose_sub, hM, Matrix.transpose_one])
    have := Submodule.smul_mem _ (1 / 4 : ℝ) (vsub_mem_vectorSpan ℝ h1 h2)
    have e : (1 / 4 : ℝ) • (((1 + M) * (1 + M) + 1) -ᵥ ((1 - M) * (1 - M) + 1)) = M := by
      have : ((1 + M) * (1 + M) + 1) - ((1 - M) * (1 - M) + 1) = (4 : ℝ) • M := by
        have h4 : (4 : ℝ) • M = M + M + M + M := by
          ext i j; simp; ring
        rw [h4]
        noncomm_ring
      rw [vsub_eq_sub, this, smul_smul]
      norm_num
    rwa [e] at this

theorem chainSpace_nonempty {nc : ℕ} (h : nc ≠ 0) : (chainSpace nc).Nonempty :=
  (simplex_nonempty h).prod (families_nonempty (simplex_nonempty h) nc)

theorem dim_chainSpace {nc : ℕ} (h : nc ≠ 0) : dim (chainSpace nc) = (nc - 1) + nc * (nc - 1) := by
  have h1 := dim_simplex h
  have h2 : dim (simplex nc) = nc - 1 := by omega
  unfold chainSpace
  rw [dim_prod (simplex_nonempty h) (families_nonempty (simplex_nonempty h) nc),
    dim_families (simplex_nonempty h), h2]

end Verif.Spec
