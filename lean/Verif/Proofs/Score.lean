import Verif.Proofs.EM
import Mathlib.Analysis.Calculus.Deriv.Add
import Mathlib.Analysis.Calculus.Deriv.Mul
import Mathlib.Analysis.SpecialFunctions.Log.Deriv

/-!
# The derivative of the log-likelihood of a data set

Along the segment between two parameters, one of which vanishes where the other does, the derivative is given by
the expected counts (Fisher's identity).
-/
set_option autoImplicit false

namespace Verif
open Finset Spec

variable {nc n : ℕ} {D : Type}

/-- Point of the segment from `x` to `y`. -/
def seg (x y t : ℝ) : ℝ := x + t * (y - x)

theorem seg_eq {x y : ℝ} (h : x = 0 → y = 0) (t : ℝ) : seg x y t = x * (1 + t * (y / x - 1)) := by
  unfold seg
  by_cases hx : x = 0
  · simp [hx, h hx]
  · field_simp

theorem hasDerivAt_factor (c : ℝ) : HasDerivAt (fun t : ℝ => 1 + t * c) c 0 := by
  simpa using ((hasDerivAt_id (0 : ℝ)).mul_const c).const_add 1

theorem hasDerivAt_prod_factor {ι : Type*} [Fintype ι] (c : ι → ℝ) :
    HasDerivAt (fun t : ℝ => ∏ i, (1 + t * c i)) (∑ i, c i) 0 := by
  classical
  have := HasDerivAt.fun_finsetProd (u := (univ : Finset ι)) (f := fun i (t : ℝ) => 1 + t * c i)
    (f' := c) (x := 0) fun i _ => hasDerivAt_factor (c i)
  simpa using this

section
variable {π π' : Fin nc → ℝ} {A A' : Fin nc → Fin nc → ℝ} {B B' : Fin (n + 1) → Fin nc → ℝ}
  (hπ : ∀ i, π i = 0 → π' i = 0) (hA : ∀ i j, A i j = 0 → A' i j = 0)
  (hB : ∀ t i, B t i = 0 → B' t i = 0)
include hπ hA hB

theorem joint_seg (z : Fin (n + 1) → Fin nc) (t : ℝ) :
    joint (fun i => seg (π i) (π' i) t) (fun i j => seg (A i j) (A' i j) t) (fun s i => seg (B s i) (B' s i) t) z =
      joint π A B z * ((1 + t * (π' (z 0) / π (z 0) - 1)) *
        (∏ s : Fin n, (1 + t * (A' (z s.castSucc) (z s.succ) / A (z s.castSucc) (z s.succ) - 1))) *
        ∏ s, (1 + t * (B' s (z s) / B s (z s) - 1))) := by
  simp only [joint, seg_eq (hπ _), seg_eq (hA _ _), seg_eq (hB _ _), Finset.prod_mul_distrib]
  ring

theorem hasDerivAt_joint (z : Fin (n + 1) → Fin nc) :
    HasDerivAt (fun t => joint (fun i => seg (π i) (π' i) t) (fun i j => seg (A i j) (A' i j) t)
      (fun s i => seg (B s i) (B' s i) t) z)
      (joint π A B z * ((π' (z 0) / π (z 0) - 1) +
        (∑ s : Fin n, (A' (z s.castSucc) (z s.succ) / A (z s.castSucc) (z s.succ) - 1)) +
        ∑ s, (B' s (z s) / B s (z s) - 1))) 0 := by
  simp only [joint_seg hπ hA hB z]
  have := ((hasDerivAt_factor (π' (z 0) / π (z 0) - 1)).mul (hasDerivAt_prod_factor fun s : Fin n =>
    A' (z s.castSucc) (z s.succ) / A (z s.castSucc) (z s.succ) - 1)).mul
    (hasDerivAt_prod_factor fun s => B' s (z s) / B s (z s) - 1)
  refine (this.const_mul (joint π A B z)).congr_deriv ?_
  simp

theorem hasDerivAt_likelihood (hL : likelihood π A B ≠ 0) :
    HasDerivAt (fun t => likelihood (fun i => seg (π i) (π' i) t) (fun i j => seg (A i j) (A' i j) t)
      (fun s i => seg (B s i) (B' s i) t))
      (likelihood π A B * (∑ i, posterior π A B 0 i * (π' i / π i - 1) +
        ∑ i, ∑ j, expectedTransitions π A B i j * (A' i j / A i j - 1) +
        ∑ s, ∑ i, posterior π A B s i * (B' s i / B s i - 1))) 0 := by
  unfold likelihood
  refine (HasDerivAt.fun_sum fun z _ => hasDerivAt_joint hπ hA hB z).congr_deriv ?_
  change _ = likelihood π A B * _
  have hm : ∀ z, joint π A B z * ((π' (z 0) / π (z 0) - 1) +
        (∑ s : Fin n, (A' (z s.castSucc) (z s.succ) / A (z s.castSucc) (z s.succ) - 1)) +
        ∑ s, (B' s (z s) / B s (z s) - 1)) = joint π A B z * (π' (z 0) / π (z 0) - 1) +
        (∑ s : Fin n, joint π A B z * (A' (z s.castSucc) (z s.succ) / A (z s.castSucc) (z s.succ) - 1)) +
        ∑ s, joint π A B z * (B' s (z s) / B s (z s) - 1) := fun z => by
    rw [mul_add, mul_add, Finset.mul_sum, Finset.mul_sum]
  simp only [hm, Finset.sum_add_distrib]
  rw [mul_add, mul_add]
  congr 1
  · congr 1
    · rw [sum_joint_state π A B 0 (fun i => π' i / π i - 1), Finset.mul_sum]
      refine Finset.sum_congr rfl fun i _ => ?_
      simp only [posterior]; field_simp
    · rw [Finset.sum_comm]
      simp only [fun t => sum_joint_pair π A B t (fun i j => A' i j / A i j - 1)]
      rw [Finset.sum_comm, Finset.mul_sum]
      refine Finset.sum_congr rfl fun i _ => ?_
      rw [Finset.sum_comm, Finset.mul_sum]
      refine Finset.sum_congr rfl fun j _ => ?_
      simp only [expectedTransitions, pairPosterior, Finset.sum_mul, Finset.mul_sum]
      refine Finset.sum_congr rfl fun t _ => ?_
      field_simp
  · rw [Finset.sum_comm]
    simp only [fun t => sum_joint_state π A B t (fun i => B' t i / B t i - 1), Finset.mul_sum]
    refine Finset.sum_congr rfl fun t _ => Finset.sum_congr rfl fun i _ => ?_
    simp only [posterior]; field_simp

end

/-- **Fisher's identity**: the derivative of the log-likelihood. -/
theorem hasDerivAt_logL {π π' : Fin nc → ℝ} {A A' : Fin nc → Fin nc → ℝ} {b b' : D → Fin nc → ℝ}
    (hπ : ∀ i, π i = 0 → π' i = 0) (hA : ∀ i j, A i j = 0 → A' i j = 0)
    (hb : ∀ o i, b o i = 0 → b' o i = 0) (ss : List (ObsSeq D))
    (hL : ∀ s ∈ ss, 0 < likelihood π A (s.weights b)) :
    HasDerivAt (fun t => Real.log (dataLikelihood (fun i => seg (π i) (π' i) t)
        (fun i j => seg (A i j) (A' i j) t) (fun o i => seg (b o i) (b' o i) t) ss))
      (∑ i, startStat π A b ss i * (π' i / π i - 1) + ∑ i, ∑ j, transStat π A b ss i j * (A' i j / A i j - 1) +
        ∑ i, obsStat π A b ss i fun o => b' o i / b o i - 1) 0 := by
  have hseg : ∀ x y : ℝ, seg x y 0 = x := fun x y => by simp [seg]
  have key : HasDerivAt (fun t => dataLikelihood (fun i => seg (π i) (π' i) t)
        (fun i j => seg (A i j) (A' i j) t) (fun o i => seg (b o i) (b' o i) t) ss)
      (dataLikelihood π A b ss * (∑ i, startStat π A b ss i * (π' i / π i - 1) +
        ∑ i, ∑ j, transStat π A b ss i j * (A' i j / A i j - 1) +
        ∑ i, obsStat π A b ss i fun o => b' o i / b o i - 1)) 0 := by
    induction ss with
    | nil => simpa [dataLikelihood, startStat, transStat, obsStat] using hasDerivAt_const (0 : ℝ) (1 : ℝ)
    | cons s ss ih =>
      have ih := ih fun s' hs' => hL s' (List.mem_cons_of_mem _ hs')
      have h1 := hasDerivAt_likelihood (B := s.weights b) (B' := s.weights b') hπ hA (fun t i => hb _ _)
        (hL s (by simp)).ne'
      have e : ∀ (π : Fin nc → ℝ) (A : Fin nc → Fin nc → ℝ) (b : D → Fin nc → ℝ),
          dataLikelihood π A b (s :: ss) = likelihood π A (s.weights b) * dataLikelihood π A b ss :=
        fun π A b => by simp [dataLikelihood]
      have h2 := h1.mul ih
      simp only [e]
      refine h2.congr_deriv ?_
      simp only [hseg]
      have e1 : ∑ i, startStat π A b (s :: ss) i * (π' i / π i - 1) =
          ∑ i, posterior π A (s.weights b) 0 i * (π' i / π i - 1) +
          ∑ i, startStat π A b ss i * (π' i / π i - 1) := by
        rw [← Finset.sum_add_distrib]
        exact Finset.sum_congr rfl fun i _ => by simp [startStat, add_mul]
      have e2 : ∑ i, ∑ j, transStat π A b (s :: ss) i j * (A' i j / A i j - 1) =
          ∑ i, ∑ j, expectedTransitions π A (s.weights b) i j * (A' i j / A i j - 1) +
          ∑ i, ∑ j, transStat π A b ss i j * (A' i j / A i j - 1) := by
        simp only [← Finset.sum_add_distrib]
        exact Finset.sum_congr rfl fun i _ => Finset.sum_congr rfl fun j _ => by simp [transStat, add_mul]
      have e3 : ∑ i, obsStat π A b (s :: ss) i (fun o => b' o i / b o i - 1) =
          ∑ t, ∑ i, posterior π A (s.weights b) t i * (s.weights b' t i / s.weights b t i - 1) +
          ∑ i, obsStat π A b ss i fun o => b' o i / b o i - 1 := by
        rw [Finset.sum_comm, ← Finset.sum_add_distrib]
        exact Finset.sum_congr rfl fun i _ => by simp [obsStat, ObsSeq.weights]
      rw [e1, e2, e3]
      change likelihood π A (s.weights b) * _ * dataLikelihood π A b ss +
        likelihood π A (s.weights b) * (dataLikelihood π A b ss * _) = _
      ring
  have hpos := (log_dataLikelihood ss hL).1
  have h0 : dataLikelihood (fun i => seg (π i) (π' i) 0) (fun i j => seg (A i j) (A' i j) 0)
      (fun o i => seg (b o i) (b' o i) 0) ss = dataLikelihood π A b ss := by simp only [hseg]
  have := key.log (by rw [h0]; exact hpos.ne')
  refine this.congr_deriv ?_
  rw [h0, mul_div_cancel_left₀ _ hpos.ne']

end Verif
