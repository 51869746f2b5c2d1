import Mathlib.MeasureTheory.Measure.FiniteMeasureExt
import Mathlib.Topology.UnitInterval
import Mathlib.Topology.ContinuousMap.Bounded.Basic
import Mathlib.MeasureTheory.Constructions.BorelSpace.Real

/-!
# A finite measure on a cube is determined by its moments
-/

set_option autoImplicit false

namespace Verif
open MeasureTheory BoundedContinuousFunction unitInterval

variable {n : ℕ}

/-- Coordinates on the cube. -/
noncomputable def cubeCoord (i : Fin n) : (Fin n → I) →ᵇ ℝ :=
  mkOfCompact ⟨fun x => (x i : ℝ), by fun_prop⟩

/-- Polynomials on the cube. -/
noncomputable def cubePoly (n : ℕ) : StarSubalgebra ℝ ((Fin n → I) →ᵇ ℝ) where
  toSubalgebra := Algebra.adjoin ℝ (Set.range cubeCoord)
  star_mem' := fun {a} ha => by
    have : star a = a := by ext x; simp
    rw [this]; exact ha

theorem cubePoly_separates : ((cubePoly n).map (toContinuousMapStarₐ ℝ)).SeparatesPoints := by
  intro x y hxy
  obtain ⟨i, hi⟩ := Function.ne_iff.1 hxy
  refine ⟨fun x => (x i : ℝ), ⟨toContinuousMapStarₐ ℝ (cubeCoord i), ?_, rfl⟩, fun h => hi (Subtype.ext h)⟩
  exact ⟨cubeCoord i, Algebra.subset_adjoin ⟨i, rfl⟩, rfl⟩

theorem closure_cubeCoord {g : (Fin n → I) →ᵇ ℝ} (hg : g ∈ Submonoid.closure (Set.range cubeCoord)) :
    ∃ k : Fin n → ℕ, ∀ x, g x = ∏ i, (x i : ℝ) ^ k i := by
  classical
  induction hg using Submonoid.closure_induction with
  | mem g h =>
    obtain ⟨i, rfl⟩ := h
    refine ⟨Pi.single i 1, fun x => ?_⟩
    simp [Pi.single_apply, pow_ite, Finset.prod_ite_eq', cubeCoord]
  | one => exact ⟨0, fun x => by simp⟩
  | mul f g _ _ hf hg =>
    obtain ⟨k, hk⟩ := hf
    obtain ⟨l, hl⟩ := hg
    exact ⟨k + l, fun x => by simp [hk, hl, pow_add, Finset.prod_mul_distrib]⟩

theorem ext_of_cube_moments {P P' : Measure (Fin n → I)} [IsFiniteMeasure P] [IsFiniteMeasure P']
    (h : ∀ k : Fin n → ℕ, ∫ x, ∏ i, (x i : ℝ) ^ k i ∂P = ∫ x, ∏ i, (x i : ℝ) ^ k i ∂P') : P = P' := by
  refine ext_of_forall_mem_subalgebra_integral_eq_of_polish (A := cubePoly n) cubePoly_separates fun g hg => ?_
  have hg' : g ∈ Submodule.span ℝ (Submonoid.closure (Set.range (cubeCoord (n := n))) : Set ((Fin n → I) →ᵇ ℝ)) := by
    rw [← Algebra.adjoin_eq_span]; exact hg
  clear hg
  induction hg' using Submodule.span_induction with
  | mem g h' =>
    obtain ⟨k, hk⟩ := closure_cubeCoord h'
    simp only [hk]
    exact h k
  | zero => simp
  | add f g hf hg h1 h2 =>
    simp only [BoundedContinuousFunction.coe_add, Pi.add_apply]
    rw [integral_add (f.integrable P) (g.integrable P), integral_add (f.integrable P') (g.integrable P'),
      h1, h2]
  | smul c f hf h1 =>
    simp only [BoundedContinuousFunction.coe_smul, smul_eq_mul]
    rw [integral_const_mul, integral_const_mul, h1]

/-- Two finite measures carried by the unit cube that have the same moments are equal. -/
theorem ext_of_moments {μ ν : Measure (Fin n → ℝ)} [IsFiniteMeasure μ] [IsFiniteMeasure ν]
    (hμ : ∀ᵐ x ∂μ, ∀ i, x i ∈ Set.Icc (0 : ℝ) 1) (hν : ∀ᵐ x ∂ν, ∀ i, x i ∈ Set.Icc (0 : ℝ) 1)
    (h : ∀ k : Fin n → ℕ, ∫ x, ∏ i, x i ^ k i ∂μ = ∫ x, ∏ i, x i ^ k i ∂ν) : μ = ν := by
  let φ : (Fin n → ℝ) → Fin n → I := fun x i => Set.projIcc 0 1 zero_le_one (x i)
  let ψ : (Fin n → I) → Fin n → ℝ := fun x i => x i
  have hφ : Measurable φ := measurable_pi_lambda _ fun i =>
    (continuous_projIcc.measurable).comp (measurable_pi_apply i)
  have hψ : Measurable ψ := measurable_pi_lambda _ fun i => measurable_subtype_coe.comp (measurable_pi_apply i)
  have key : ∀ x : Fin n → ℝ, (∀ i, x i ∈ Set.Icc (0 : ℝ) 1) → ψ (φ x) = x := fun x hx => by
    funext i
    exact congrArg Subtype.val (Set.projIcc_of_mem zero_le_one (hx i))
  have back : ∀ {μ : Measure (Fin n → ℝ)}, (∀ᵐ x ∂μ, ∀ i, x i ∈ Set.Icc (0 : ℝ) 1) → (μ.map φ).map ψ = μ := by
    intro μ hμ
    rw [Measure.map_map hψ hφ]
    have : ψ ∘ φ =ᵐ[μ] id := by filter_upwards [hμ] with x hx using key x hx
    rw [Measure.map_congr this, Measure.map_id]
  have int : ∀ {μ : Measure (Fin n → ℝ)}, (∀ᵐ x ∂μ, ∀ i, x i ∈ Set.Icc (0 : ℝ) 1) → ∀ k : Fin n → ℕ,
      ∫ x, ∏ i, (x i : ℝ) ^ k i ∂μ.map φ = ∫ x, ∏ i, x i ^ k i ∂μ := by
    intro μ hμ k
    have hc : Continuous fun x : Fin n → I => ∏ i, (x i : ℝ) ^ k i := by fun_prop
    rw [integral_map hφ.aemeasurable hc.aestronglyMeasurable]
    refine integral_congr_ae ?_
    filter_upwards [hμ] with x hx
    refine Finset.prod_congr rfl fun i _ => ?_
    rw [show ((φ x i : I) : ℝ) = x i from congrFun (key x hx) i]
  have := ext_of_cube_moments (P := μ.map φ) (P' := ν.map φ) fun k => by rw [int hμ, int hν, h]
  rw [← back hμ, ← back hν, this]

end Verif
