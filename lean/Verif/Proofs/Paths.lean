import Verif.Spec.Paths
import Mathlib.Tactic.Ring
import Mathlib.Algebra.BigOperators.Ring.Finset
import Mathlib.Algebra.BigOperators.Field
import Mathlib.Algebra.Order.BigOperators.Ring.Finset

/-!
# Forward/backward recursions over the reals and the path-sum specification

Auxiliary (not part of the model): real-valued lattices `rfwd`, `rbwd` and their
relation to `Spec.likelihood`, `Spec.stateMass`, `Spec.pairMass`.
-/

namespace Verif
open Finset Spec

variable {nc n : ℕ}

/-- Sum over paths = sum over the first state and the remaining path. -/
theorem sum_cons {X : Type} [Fintype X] (f : (Fin (n + 1) → X) → ℝ) :
    ∑ z, f z = ∑ i, ∑ z' : Fin n → X, f (Fin.cons i z') := by
  rw [← Fintype.sum_prod_type' (f := fun i z' => f (Fin.cons i z'))]
  exact (Fintype.sum_equiv (Fin.consEquiv fun _ => X) (fun p => f (Fin.cons p.1 p.2)) f
    (fun _ => rfl)).symm

theorem joint_cons (p : Fin nc → ℝ) (A : Fin nc → Fin nc → ℝ) (B : Fin (n + 2) → Fin nc → ℝ)
    (i : Fin nc) (z : Fin (n + 1) → Fin nc) :
    joint p A B (Fin.cons i z) = joint (fun j => p i * B 0 i * A i j) A (Fin.tail B) z := by
  unfold joint
  rw [Fin.prod_univ_succ (n := n), Fin.prod_univ_succ (n := n + 1)]
  simp only [Fin.cons_zero, Fin.cons_succ, Fin.castSucc_zero, ← Fin.succ_castSucc, Fin.tail]
  ring

theorem joint_linear (p : Fin nc → Fin nc → ℝ) (A : Fin nc → Fin nc → ℝ)
    (B : Fin (n + 1) → Fin nc → ℝ) (z : Fin (n + 1) → Fin nc) :
    ∑ i, joint (p i) A B z = joint (fun j => ∑ i, p i j) A B z := by
  unfold joint
  rw [← Finset.sum_mul, ← Finset.sum_mul]

/-- One step of the chain: `push A r j = Σ_i r_i A_ij`. -/
def push (A : Fin nc → Fin nc → ℝ) (r : Fin nc → ℝ) : Fin nc → ℝ := fun j => ∑ i, r i * A i j

/-- Unscaled real forward lattice started from the prior `p`. -/
def rfwd (A : Fin nc → Fin nc → ℝ) : (Fin nc → ℝ) → List (Fin nc → ℝ) → List (Fin nc → ℝ)
  | _, [] => []
  | p, b :: bs => (fun i => p i * b i) :: rfwd A (push A fun i => p i * b i) bs

/-- Real backward value: weight of the future rows `bs` given the current state. -/
def beta (A : Fin nc → Fin nc → ℝ) : List (Fin nc → ℝ) → Fin nc → ℝ
  | [] => fun _ => 1
  | b :: bs => fun i => ∑ j, A i j * b j * beta A bs j

/-- Real backward lattice. -/
def rbwd (A : Fin nc → Fin nc → ℝ) : List (Fin nc → ℝ) → List (Fin nc → ℝ)
  | [] => []
  | _ :: bs => beta A bs :: rbwd A bs

@[simp] theorem length_rfwd (A : Fin nc → Fin nc → ℝ) (p : Fin nc → ℝ) (bs : List (Fin nc → ℝ)) :
    (rfwd A p bs).length = bs.length := by
  induction bs generalizing p with
  | nil => rfl
  | cons b bs ih => simp [rfwd, ih]

@[simp] theorem length_rbwd (A : Fin nc → Fin nc → ℝ) (bs : List (Fin nc → ℝ)) :
    (rbwd A bs).length = bs.length := by
  induction bs with
  | nil => rfl
  | cons b bs ih => simp [rbwd, ih]

theorem stateMass_zero (p : Fin nc → ℝ) (A : Fin nc → Fin nc → ℝ) (B : Fin (n + 1) → Fin nc → ℝ)
    (i : Fin nc) :
    stateMass p A B 0 i = p i * B 0 i * beta A (List.ofFn (Fin.tail B)) i := by
  induction n generalizing p i with
  | zero =>
    simp only [stateMass, Finset.sum_filter]
    rw [sum_cons]
    simp [joint, beta]
  | succ n ih =>
    simp only [stateMass, Finset.sum_filter]
    rw [sum_cons]
    simp only [Fin.cons_zero, joint_cons]
    rw [Finset.sum_eq_single i (by intro k _ hk; simp [hk]) (by simp)]
    simp only [if_true]
    have h : ∀ q : Fin nc → ℝ, ∑ z, joint q A (Fin.tail B) z =
        ∑ j, stateMass q A (Fin.tail B) 0 j := by
      intro q
      simp only [stateMass]
      rw [← Finset.sum_fiberwise (Finset.univ) (fun z : Fin (n + 1) → Fin nc => z 0)]
    rw [h]
    simp only [ih, List.ofFn_succ (f := Fin.tail B), beta, Finset.mul_sum]
    refine Finset.sum_congr rfl fun j _ => ?_
    rw [show (List.ofFn fun i => Fin.tail B (Fin.succ i)) = List.ofFn (Fin.tail (Fin.tail B)) from rfl]
    ring

theorem likelihood_eq_sum_stateMass (p : Fin nc → ℝ) (A : Fin nc → Fin nc → ℝ)
    (B : Fin (n + 1) → Fin nc → ℝ) (t : Fin (n + 1)) :
    likelihood p A B = ∑ i, stateMass p A B t i := by
  simp only [likelihood, stateMass]
  rw [← Finset.sum_fiberwise (Finset.univ) (fun z : Fin (n + 1) → Fin nc => z t)]

theorem stateMass_succ (p : Fin nc → ℝ) (A : Fin nc → Fin nc → ℝ) (B : Fin (n + 2) → Fin nc → ℝ)
    (t : Fin (n + 1)) (i : Fin nc) :
    stateMass p A B t.succ i =
      stateMass (push A fun i => p i * B 0 i) A (Fin.tail B) t i := by
  simp only [stateMass, Finset.sum_filter]
  rw [sum_cons, Finset.sum_comm]
  refine Finset.sum_congr rfl fun z _ => ?_
  simp only [Fin.cons_succ, joint_cons]
  by_cases h : z t = i
  · simp only [h, if_true, joint_linear]; rfl
  · simp [h]

theorem likelihood_succ (p : Fin nc → ℝ) (A : Fin nc → Fin nc → ℝ) (B : Fin (n + 2) → Fin nc → ℝ) :
    likelihood p A B = likelihood (push A fun i => p i * B 0 i) A (Fin.tail B) := by
  rw [likelihood_eq_sum_stateMass p A B (Fin.succ 0), likelihood_eq_sum_stateMass _ _ _ 0]
  simp only [stateMass_succ]

theorem likelihood_one (p : Fin nc → ℝ) (A : Fin nc → Fin nc → ℝ) (B : Fin 1 → Fin nc → ℝ) :
    likelihood p A B = ∑ i, p i * B 0 i := by
  rw [likelihood_eq_sum_stateMass p A B 0]
  simp [stateMass_zero, beta]

theorem pairMass_zero (p : Fin nc → ℝ) (A : Fin nc → Fin nc → ℝ) (B : Fin (n + 2) → Fin nc → ℝ)
    (i j : Fin nc) :
    pairMass p A B 0 i j =
      p i * B 0 i * A i j * B 1 j * beta A (List.ofFn (Fin.tail (Fin.tail B))) j := by
  simp only [pairMass, Finset.sum_filter]
  rw [sum_cons]
  simp only [Fin.castSucc_zero, Fin.cons_zero, Fin.cons_succ, joint_cons]
  rw [Finset.sum_eq_single i (by intro k _ hk; simp [hk]) (by simp)]
  simp only [true_and]
  rw [← Finset.sum_filter]
  have := stateMass_zero (fun j => p i * B 0 i * A i j) A (Fin.tail B) j
  rw [stateMass] at this
  rw [this]; rfl

theorem pairMass_succ (p : Fin nc → ℝ) (A : Fin nc → Fin nc → ℝ) (B : Fin (n + 2) → Fin nc → ℝ)
    (t : Fin n) (i j : Fin nc) :
    pairMass p A B t.succ i j =
      pairMass (push A fun i => p i * B 0 i) A (Fin.tail B) t i j := by
  simp only [pairMass, Finset.sum_filter]
  rw [sum_cons, Finset.sum_comm]
  refine Finset.sum_congr rfl fun z _ => ?_
  simp only [← Fin.succ_castSucc, Fin.cons_succ, joint_cons]
  by_cases h : z t.castSucc = i ∧ z t.succ = j
  · simp only [h, and_self, if_true, joint_linear]; rfl
  · simp [h]

/-- `α_t(i) β_t(i)` is the mass of the paths through `(t, i)`. -/
theorem zip_fwd_bwd (p : Fin nc → ℝ) (A : Fin nc → Fin nc → ℝ) (B : Fin (n + 1) → Fin nc → ℝ) :
    List.zipWith (fun f w i => f i * w i) (rfwd A p (List.ofFn B)) (rbwd A (List.ofFn B)) =
      List.ofFn fun t => stateMass p A B t := by
  induction n generalizing p with
  | zero =>
    rw [List.ofFn_succ, List.ofFn_succ]
    simp only [rfwd, rbwd, List.zipWith_cons_cons, List.ofFn_zero, List.zipWith_nil_left]
    congr 1; funext i
    rw [stateMass_zero]; simp
  | succ n ih =>
    rw [List.ofFn_succ, List.ofFn_succ (f := fun t => stateMass p A B t)]
    simp only [rfwd, rbwd, List.zipWith_cons_cons]
    congr 1
    · funext i; rw [stateMass_zero]; rfl
    · rw [show (List.ofFn fun i => B (Fin.succ i)) = List.ofFn (Fin.tail B) from rfl, ih]
      congr 1; funext t i
      rw [stateMass_succ]

/-- `α_t(i) A_ij B_{t+1}(j) β_{t+1}(j)` is the mass of the paths through `i → j` at `t`. -/
theorem zip_pairs (p : Fin nc → ℝ) (A : Fin nc → Fin nc → ℝ) (B : Fin (n + 1) → Fin nc → ℝ)
    (i j : Fin nc) :
    ((rfwd A p (List.ofFn B)).zip ((List.ofFn B).tail.zip (rbwd A (List.ofFn B)).tail)).map
        (fun x => x.1 i * A i j * x.2.1 j * x.2.2 j) =
      List.ofFn fun t => pairMass p A B t i j := by
  induction n generalizing p with
  | zero => simp [List.ofFn_succ, rfwd, rbwd]
  | succ n ih =>
    have ih := ih (push A fun i => p i * B 0 i) (Fin.tail B)
    rw [List.ofFn_succ, List.ofFn_succ (f := fun t => pairMass p A B t i j)]
    rw [show (List.ofFn fun i => B (Fin.succ i)) = List.ofFn (Fin.tail B) from rfl]
    simp only [rfwd, rbwd, List.tail_cons]
    rw [List.ofFn_succ (f := Fin.tail B)] at ih ⊢
    simp only [rbwd, List.zip_cons_cons, List.map_cons, List.tail_cons] at ih ⊢
    congr 1
    · rw [pairMass_zero]; rfl
    · rw [ih]; congr 1; funext t; rw [pairMass_succ]

/-- Row sums of the forward lattice are the likelihoods of the prefixes. -/
theorem map_sum_rfwd (p : Fin nc → ℝ) (A : Fin nc → Fin nc → ℝ) (B : Fin (n + 1) → Fin nc → ℝ) :
    (rfwd A p (List.ofFn B)).map (fun r => ∑ i, r i) =
      List.ofFn fun t : Fin (n + 1) =>
        likelihood p A (fun s : Fin (t.val + 1) => B (Fin.castLE (by omega) s)) := by
  induction n generalizing p with
  | zero =>
    rw [List.ofFn_succ, List.ofFn_succ]
    simp only [List.ofFn_zero, rfwd, List.map_cons, List.map_nil, List.cons.injEq, and_true]
    rw [likelihood_one]; rfl
  | succ n ih =>
    rw [List.ofFn_succ, List.ofFn_succ (f := fun t : Fin (n + 2) => _)]
    simp only [rfwd, List.map_cons]
    congr 1
    · exact (likelihood_one p A (fun s : Fin 1 => B (Fin.castLE (by omega) s))).symm
    · rw [show (List.ofFn fun i => B (Fin.succ i)) = List.ofFn (Fin.tail B) from rfl, ih]
      congr 1; funext t
      exact (likelihood_succ p A (fun s : Fin (t.succ.val + 1) => B (Fin.castLE (by omega) s))).symm

theorem rfwd_getLast_sum (p : Fin nc → ℝ) (A : Fin nc → Fin nc → ℝ) (B : Fin (n + 1) → Fin nc → ℝ)
    (h : rfwd A p (List.ofFn B) ≠ []) :
    ∑ i, (rfwd A p (List.ofFn B)).getLast h i = likelihood p A B := by
  have h1 := map_sum_rfwd p A B
  have h2 : ((rfwd A p (List.ofFn B)).map (fun r => ∑ i, r i)).getLast (by simpa using h) =
      ∑ i, (rfwd A p (List.ofFn B)).getLast h i := by rw [List.getLast_map]
  rw [← h2]
  simp only [h1, List.getLast_ofFn]
  rfl

theorem joint_nonneg {p : Fin nc → ℝ} {A : Fin nc → Fin nc → ℝ} {B : Fin (n + 1) → Fin nc → ℝ}
    (hp : ∀ i, 0 ≤ p i) (hA : ∀ i j, 0 ≤ A i j) (hB : ∀ t i, 0 ≤ B t i)
    (z : Fin (n + 1) → Fin nc) : 0 ≤ joint p A B z :=
  mul_nonneg (mul_nonneg (hp _) (Finset.prod_nonneg fun _ _ => hA _ _))
    (Finset.prod_nonneg fun _ _ => hB _ _)

theorem likelihood_nonneg {p : Fin nc → ℝ} {A : Fin nc → Fin nc → ℝ} {B : Fin (n + 1) → Fin nc → ℝ}
    (hp : ∀ i, 0 ≤ p i) (hA : ∀ i j, 0 ≤ A i j) (hB : ∀ t i, 0 ≤ B t i) :
    0 ≤ likelihood p A B := Finset.sum_nonneg fun z _ => joint_nonneg hp hA hB z

theorem stateMass_nonneg {p : Fin nc → ℝ} {A : Fin nc → Fin nc → ℝ} {B : Fin (n + 1) → Fin nc → ℝ}
    (hp : ∀ i, 0 ≤ p i) (hA : ∀ i j, 0 ≤ A i j) (hB : ∀ t i, 0 ≤ B t i) (t : Fin (n + 1))
    (i : Fin nc) : 0 ≤ stateMass p A B t i := Finset.sum_nonneg fun z _ => joint_nonneg hp hA hB z

theorem pairMass_nonneg {p : Fin nc → ℝ} {A : Fin nc → Fin nc → ℝ} {B : Fin (n + 1) → Fin nc → ℝ}
    (hp : ∀ i, 0 ≤ p i) (hA : ∀ i j, 0 ≤ A i j) (hB : ∀ t i, 0 ≤ B t i) (t : Fin n)
    (i j : Fin nc) : 0 ≤ pairMass p A B t i j :=
  Finset.sum_nonneg fun z _ => joint_nonneg hp hA hB z

theorem sum_posterior {p : Fin nc → ℝ} {A : Fin nc → Fin nc → ℝ} {B : Fin (n + 1) → Fin nc → ℝ}
    (h : likelihood p A B ≠ 0) (t : Fin (n + 1)) : ∑ i, posterior p A B t i = 1 := by
  simp only [posterior]
  rw [← Finset.sum_div, ← likelihood_eq_sum_stateMass, div_self h]

theorem sum_pairMass_right (p : Fin nc → ℝ) (A : Fin nc → Fin nc → ℝ)
    (B : Fin (n + 1) → Fin nc → ℝ) (t : Fin n) (i : Fin nc) :
    ∑ j, pairMass p A B t i j = stateMass p A B t.castSucc i := by
  simp only [pairMass, stateMass]
  rw [← Finset.sum_fiberwise (Finset.univ.filter fun z : Fin (n + 1) → Fin nc => z t.castSucc = i)
    (fun z => z t.succ)]
  simp only [Finset.filter_filter]

theorem sum_pairMass_left (p : Fin nc → ℝ) (A : Fin nc → Fin nc → ℝ)
    (B : Fin (n + 1) → Fin nc → ℝ) (t : Fin n) (j : Fin nc) :
    ∑ i, pairMass p A B t i j = stateMass p A B t.succ j := by
  simp only [pairMass, stateMass]
  rw [← Finset.sum_fiberwise (Finset.univ.filter fun z : Fin (n + 1) → Fin nc => z t.succ = j)
    (fun z => z t.castSucc)]
  simp only [Finset.filter_filter, and_comm]

end Verif
