import Verif.Spec.Train
import Verif.Proofs.Paths
import Mathlib.Analysis.SpecialFunctions.Log.Basic
import Mathlib.Algebra.BigOperators.Field
import Mathlib.Tactic.Ring
import Mathlib.Tactic.FieldSimp

/-!
# The Baum-Welch inequality on the path specification

Everything here is about `Spec` (sums over hidden paths), not about the program.
-/

namespace Verif
open Spec Finset

variable {nc n : ℕ} {D : Type}

/-- Gibbs / Jensen: the expected log-ratio of two weights is at most the log-ratio of their
totals. -/
theorem sum_log_ratio_le {ι : Type*} [Fintype ι] {w w' : ι → ℝ} (hw : ∀ z, 0 ≤ w z)
    (hw' : ∀ z, 0 ≤ w' z) (hac : ∀ z, 0 < w z → 0 < w' z) (hL : 0 < ∑ z, w z) :
    (∑ z, w z * Real.log (w' z / w z)) ≤
      (∑ z, w z) * (Real.log (∑ z, w' z) - Real.log (∑ z, w z)) := by
  set L := ∑ z, w z with hLdef
  set L' := ∑ z, w' z with hL'def
  have hL' : 0 < L' := by
    obtain ⟨z, _, hz⟩ := Finset.exists_lt_of_sum_lt (s := univ) (f := fun _ => (0 : ℝ)) (g := w)
      (by simpa using hL)
    exact Finset.sum_pos' (fun z _ => hw' z) ⟨z, mem_univ z, hac z hz⟩
  have h1 : ∀ z, w z * Real.log (w' z / w z) ≤
      w z * (Real.log L' - Real.log L) + (w' z * L / L' - w z) := by
    intro z
    rcases (hw z).eq_or_lt with h0 | hz
    · rw [← h0]
      simp only [zero_mul, sub_zero, zero_add]
      have := hw' z
      positivity
    · have hz' := hac z hz
      have hr : 0 < w' z * L / (w z * L') := by positivity
      have := Real.log_le_sub_one_of_pos hr
      rw [Real.log_div (by positivity) (by positivity), Real.log_mul hz'.ne' hL.ne',
        Real.log_mul hz.ne' hL'.ne'] at this
      rw [Real.log_div hz'.ne' hz.ne']
      have e : w z * (w' z * L / (w z * L') - 1) = w' z * L / L' - w z := by
        field_simp
      have := mul_le_mul_of_nonneg_left this hz.le
      rw [e] at this
      nlinarith
  refine (Finset.sum_le_sum fun z _ => h1 z).trans (le_of_eq ?_)
  rw [Finset.sum_add_distrib, ← Finset.sum_mul, Finset.sum_sub_distrib, ← Finset.sum_div,
    ← Finset.sum_mul, ← hLdef, ← hL'def]
  field_simp
  ring

/-- Normalised counts beat every other (sub-)distribution. -/
theorem gibbs_counts {ι : Type*} [Fintype ι] {c p : ι → ℝ} (hc : ∀ i, 0 ≤ c i)
    (hp : ∀ i, 0 ≤ p i) (hac : ∀ i, 0 < c i → 0 < p i) (hp1 : ∑ i, p i ≤ 1) :
    0 ≤ ∑ i, c i * Real.log ((c i / ∑ j, c j) / p i) := by
  rcases (Finset.sum_nonneg fun i _ => hc i).eq_or_lt with h0 | hC
  · have : ∀ i, c i = 0 := fun i =>
      (Finset.sum_eq_zero_iff_of_nonneg fun i _ => hc i).1 h0.symm i (mem_univ i)
    simp [this]
  · have h := sum_log_ratio_le hc hp hac hC
    have hP : 0 < ∑ i, p i := by
      obtain ⟨z, _, hz⟩ := Finset.exists_lt_of_sum_lt (s := univ) (f := fun _ => (0 : ℝ)) (g := c)
        (by simpa using hC)
      exact Finset.sum_pos' (fun z _ => hp z) ⟨z, mem_univ z, hac z hz⟩
    have hlog : Real.log (∑ i, p i) ≤ 0 := Real.log_nonpos hP.le hp1
    have e : ∀ i, c i * Real.log ((c i / ∑ j, c j) / p i) =
        -(c i * Real.log (p i / c i)) - c i * Real.log (∑ j, c j) := by
      intro i
      rcases (hc i).eq_or_lt with h0 | hi
      · simp [← h0]
      · have := hac i hi
        rw [Real.log_div (by positivity) (by positivity), Real.log_div hi.ne' hC.ne',
          Real.log_div this.ne' hi.ne']
        ring
    simp only [e, Finset.sum_sub_distrib, Finset.sum_neg_distrib, ← Finset.sum_mul]
    nlinarith

theorem sum_joint_state (π : Fin nc → ℝ) (A : Fin nc → Fin nc → ℝ) (B : Fin (n + 1) → Fin nc → ℝ)
    (t : Fin (n + 1)) (f : Fin nc → ℝ) :
    ∑ z, joint π A B z * f (z t) = ∑ i, stateMass π A B t i * f i := by
  simp only [stateMass, Finset.sum_filter, Finset.sum_mul]
  rw [Finset.sum_comm]
  refine Finset.sum_congr rfl fun z _ => ?_
  rw [Finset.sum_eq_single (z t)]
  · simp
  · intro i _ hi; simp [Ne.symm hi]
  · simp

theorem sum_joint_pair (π : Fin nc → ℝ) (A : Fin nc → Fin nc → ℝ) (B : Fin (n + 1) → Fin nc → ℝ)
    (t : Fin n) (f : Fin nc → Fin nc → ℝ) :
    ∑ z, joint π A B z * f (z t.castSucc) (z t.succ) =
      ∑ i, ∑ j, pairMass π A B t i j * f i j := by
  simp only [pairMass, Finset.sum_filter, Finset.sum_mul]
  have : ∀ i, ∑ j, ∑ z, (if z t.castSucc = i ∧ z t.succ = j then joint π A B z else 0) * f i j =
      ∑ z, ∑ j, (if z t.castSucc = i ∧ z t.succ = j then joint π A B z else 0) * f i j :=
    fun i => Finset.sum_comm
  simp only [this]
  rw [Finset.sum_comm]
  refine Finset.sum_congr rfl fun z _ => ?_
  rw [Finset.sum_eq_single (z t.castSucc)]
  · rw [Finset.sum_eq_single (z t.succ)]
    · simp
    · intro j _ hj; simp [Ne.symm hj]
    · simp
  · intro i _ hi; simp [Ne.symm hi]
  · simp

/-- Joint weight positive iff every factor is. -/
theorem joint_pos_iff {π : Fin nc → ℝ} {A : Fin nc → Fin nc → ℝ} {B : Fin (n + 1) → Fin nc → ℝ}
    (hπ : ∀ i, 0 ≤ π i) (hA : ∀ i j, 0 ≤ A i j) (hB : ∀ t i, 0 ≤ B t i)
    (z : Fin (n + 1) → Fin nc) :
    0 < joint π A B z ↔ 0 < π (z 0) ∧ (∀ t : Fin n, 0 < A (z t.castSucc) (z t.succ)) ∧
      ∀ t, 0 < B t (z t) := by
  constructor
  · intro h
    have h := h.ne'
    simp only [joint, ne_eq, mul_eq_zero, not_or, Finset.prod_eq_zero_iff, not_exists,
      Finset.mem_univ, true_and] at h
    exact ⟨(hπ _).lt_of_ne' h.1.1, fun t => (hA _ _).lt_of_ne' (h.1.2 t),
      fun t => (hB _ _).lt_of_ne' (h.2 t)⟩
  · rintro ⟨h1, h2, h3⟩
    exact mul_pos (mul_pos h1 (Finset.prod_pos fun t _ => h2 t)) (Finset.prod_pos fun t _ => h3 t)

theorem joint_le_stateMass {π : Fin nc → ℝ} {A : Fin nc → Fin nc → ℝ}
    {B : Fin (n + 1) → Fin nc → ℝ} (hπ : ∀ i, 0 ≤ π i) (hA : ∀ i j, 0 ≤ A i j)
    (hB : ∀ t i, 0 ≤ B t i) (z : Fin (n + 1) → Fin nc) (t : Fin (n + 1)) :
    joint π A B z ≤ stateMass π A B t (z t) :=
  Finset.single_le_sum (f := joint π A B) (fun z _ => joint_nonneg hπ hA hB z) (by simp)

theorem joint_le_pairMass {π : Fin nc → ℝ} {A : Fin nc → Fin nc → ℝ}
    {B : Fin (n + 1) → Fin nc → ℝ} (hπ : ∀ i, 0 ≤ π i) (hA : ∀ i j, 0 ≤ A i j)
    (hB : ∀ t i, 0 ≤ B t i) (z : Fin (n + 1) → Fin nc) (t : Fin n) :
    joint π A B z ≤ pairMass π A B t (z t.castSucc) (z t.succ) :=
  Finset.single_le_sum (f := joint π A B) (fun z _ => joint_nonneg hπ hA hB z) (by simp)

/-- The Baum-Welch lower bound for one sequence. -/
theorem baumWelch_one {π π' : Fin nc → ℝ} {A A' : Fin nc → Fin nc → ℝ}
    {B B' : Fin (n + 1) → Fin nc → ℝ} (hπ : ∀ i, 0 ≤ π i) (hA : ∀ i j, 0 ≤ A i j)
    (hB : ∀ t i, 0 ≤ B t i) (hπ' : ∀ i, 0 ≤ π' i) (hA' : ∀ i j, 0 ≤ A' i j)
    (hB' : ∀ t i, 0 ≤ B' t i) (hL : 0 < likelihood π A B)
    (hac : ∀ z, 0 < joint π A B z → 0 < joint π' A' B' z) :
    0 < likelihood π' A' B' ∧
    (∑ i, posterior π A B 0 i * Real.log (π' i / π i)) +
      (∑ i, ∑ j, expectedTransitions π A B i j * Real.log (A' i j / A i j)) +
      (∑ t, ∑ i, posterior π A B t i * Real.log (B' t i / B t i)) ≤
    Real.log (likelihood π' A' B') - Real.log (likelihood π A B) := by
  have hJ := fun z => joint_nonneg hπ hA hB z
  have hJ' := fun z => joint_nonneg hπ' hA' hB' z
  have hpos : 0 < likelihood π' A' B' := by
    obtain ⟨z, _, hz⟩ := Finset.exists_lt_of_sum_lt (s := univ) (f := fun _ => (0 : ℝ))
      (g := joint π A B) (by rw [Finset.sum_const_zero]; exact hL)
    exact Finset.sum_pos' (fun z _ => hJ' z) ⟨z, mem_univ z, hac z hz⟩
  refine ⟨hpos, ?_⟩
  have key := sum_log_ratio_le hJ hJ' hac hL
  have hterm : ∀ z, joint π A B z * Real.log (joint π' A' B' z / joint π A B z) =
      joint π A B z * Real.log (π' (z 0) / π (z 0)) +
      (∑ t : Fin n, joint π A B z * Real.log (A' (z t.castSucc) (z t.succ) / A (z t.castSucc) (z t.succ)))
      + ∑ t, joint π A B z * Real.log (B' t (z t) / B t (z t)) := by
    intro z
    rcases (hJ z).eq_or_lt with h0 | hz
    · simp [← h0]
    · obtain ⟨a1, a2, a3⟩ := (joint_pos_iff hπ hA hB z).1 hz
      obtain ⟨b1, b2, b3⟩ := (joint_pos_iff hπ' hA' hB' z).1 (hac z hz)
      rw [← Finset.mul_sum, ← Finset.mul_sum, ← mul_add, ← mul_add]
      congr 1
      have e : joint π' A' B' z / joint π A B z = π' (z 0) / π (z 0) *
          (∏ t : Fin n, A' (z t.castSucc) (z t.succ) / A (z t.castSucc) (z t.succ)) *
          ∏ t, B' t (z t) / B t (z t) := by
        simp only [joint, Finset.prod_div_distrib]
        rw [div_mul_div_comm, div_mul_div_comm]
      have c1 : ∀ t : Fin n, 0 < A' (z t.castSucc) (z t.succ) / A (z t.castSucc) (z t.succ) :=
        fun t => div_pos (b2 t) (a2 t)
      have c2 : ∀ t, 0 < B' t (z t) / B t (z t) := fun t => div_pos (b3 t) (a3 t)
      rw [e, Real.log_mul (mul_pos (div_pos b1 a1) (Finset.prod_pos fun t _ => c1 t)).ne'
        (Finset.prod_pos fun t _ => c2 t).ne', Real.log_mul (div_pos b1 a1).ne'
        (Finset.prod_pos fun t _ => c1 t).ne', Real.log_prod fun t _ => (c1 t).ne',
        Real.log_prod fun t _ => (c2 t).ne']
  simp only [hterm, Finset.sum_add_distrib] at key
  have e1 : ∑ z, joint π A B z * Real.log (π' (z 0) / π (z 0)) =
      likelihood π A B * ∑ i, posterior π A B 0 i * Real.log (π' i / π i) := by
    rw [sum_joint_state π A B 0 (fun i => Real.log (π' i / π i)), Finset.mul_sum]
    refine Finset.sum_congr rfl fun i _ => ?_
    simp only [posterior]; field_simp
  have e2 : ∑ z, ∑ t : Fin n, joint π A B z *
        Real.log (A' (z t.castSucc) (z t.succ) / A (z t.castSucc) (z t.succ)) =
      likelihood π A B * ∑ i, ∑ j, expectedTransitions π A B i j * Real.log (A' i j / A i j) := by
    rw [Finset.sum_comm]
    simp only [fun t => sum_joint_pair π A B t (fun i j => Real.log (A' i j / A i j))]
    rw [Finset.sum_comm, Finset.mul_sum]
    refine Finset.sum_congr rfl fun i _ => ?_
    rw [Finset.sum_comm, Finset.mul_sum]
    refine Finset.sum_congr rfl fun j _ => ?_
    simp only [expectedTransitions, pairPosterior, Finset.sum_mul, Finset.mul_sum]
    refine Finset.sum_congr rfl fun t _ => ?_
    field_simp
  have e3 : ∑ z, ∑ t, joint π A B z * Real.log (B' t (z t) / B t (z t)) =
      likelihood π A B * ∑ t, ∑ i, posterior π A B t i * Real.log (B' t i / B t i) := by
    rw [Finset.sum_comm]
    simp only [fun t => sum_joint_state π A B t (fun i => Real.log (B' t i / B t i)),
      Finset.mul_sum]
    refine Finset.sum_congr rfl fun t _ => Finset.sum_congr rfl fun i _ => ?_
    simp only [posterior]; field_simp
  rw [e1, e2, e3, ← mul_add, ← mul_add] at key
  exact le_of_mul_le_mul_left key hL

/-! ## Data sets -/

theorem list_sum_le {ι : Type*} (l : List ι) {f g : ι → ℝ} (h : ∀ x ∈ l, f x ≤ g x) :
    (l.map f).sum ≤ (l.map g).sum := by
  induction l with
  | nil => simp
  | cons x l ih =>
    simp only [List.map_cons, List.sum_cons]
    exact add_le_add (h x List.mem_cons_self) (ih fun y hy => h y (List.mem_cons_of_mem _ hy))

theorem list_sum_nonneg {ι : Type*} (l : List ι) {f : ι → ℝ} (h : ∀ x ∈ l, 0 ≤ f x) :
    0 ≤ (l.map f).sum := by
  have := list_sum_le l (f := fun _ => 0) h
  simpa using this

theorem le_list_sum {ι : Type*} (l : List ι) {f : ι → ℝ} (h : ∀ x ∈ l, 0 ≤ f x) {x : ι} (hx : x ∈ l) :
    f x ≤ (l.map f).sum := by
  induction l with
  | nil => simp at hx
  | cons y l ih =>
    simp only [List.map_cons, List.sum_cons]
    have hn := list_sum_nonneg l fun z hz => h z (List.mem_cons_of_mem _ hz)
    have hy := h y List.mem_cons_self
    rcases List.mem_cons.1 hx with rfl | hx
    · linarith
    · have := ih (fun z hz => h z (List.mem_cons_of_mem _ hz)) hx
      linarith

theorem list_sum_fintype_comm {ι κ : Type*} [Fintype κ] (l : List ι) (f : ι → κ → ℝ) :
    (l.map fun x => ∑ k, f x k).sum = ∑ k, (l.map fun x => f x k).sum := by
  induction l with
  | nil => simp
  | cons x l ih => simp [Finset.sum_add_distrib, ih]

theorem list_sum_mul {ι : Type*} (l : List ι) (f : ι → ℝ) (c : ℝ) :
    (l.map fun x => f x * c).sum = (l.map f).sum * c := by
  induction l with
  | nil => simp
  | cons x l ih => simp [ih, add_mul]

theorem list_sum_add {ι : Type*} (l : List ι) (f g : ι → ℝ) :
    (l.map fun x => f x + g x).sum = (l.map f).sum + (l.map g).sum := by
  induction l with
  | nil => simp
  | cons x l ih => simp [ih]; ring

theorem log_dataLikelihood {π : Fin nc → ℝ} {A : Fin nc → Fin nc → ℝ} {b : D → Fin nc → ℝ}
    (ss : List (ObsSeq D)) (h : ∀ s ∈ ss, 0 < likelihood π A (s.weights b)) :
    0 < dataLikelihood π A b ss ∧
    Real.log (dataLikelihood π A b ss) =
      (ss.map fun s => Real.log (likelihood π A (s.weights b))).sum := by
  induction ss with
  | nil => simp [dataLikelihood]
  | cons s ss ih =>
    obtain ⟨i1, i2⟩ := ih fun s hs => h s (List.mem_cons_of_mem _ hs)
    have h1 := h s List.mem_cons_self
    simp only [dataLikelihood, List.map_cons, List.prod_cons, List.sum_cons] at *
    exact ⟨mul_pos h1 i1, by rw [Real.log_mul h1.ne' i1.ne', i2]⟩

/-- `Σ_s Σ_t Σ_i γ_t(i) log(b'(x_t)(i) / b(x_t)(i))`: the emission part of the Baum-Welch bound. -/
noncomputable def emissionGain (π : Fin nc → ℝ) (A : Fin nc → Fin nc → ℝ) (b b' : D → Fin nc → ℝ)
    (ss : List (ObsSeq D)) : ℝ :=
  (ss.map fun s => ∑ t, ∑ i, posterior π A (s.weights b) t i *
    Real.log (b' (s.x t) i / b (s.x t) i)).sum

/-- The Baum-Welch lower bound for a data set. -/
theorem baumWelch {π π' : Fin nc → ℝ} {A A' : Fin nc → Fin nc → ℝ} {b b' : D → Fin nc → ℝ}
    (hπ : ∀ i, 0 ≤ π i) (hA : ∀ i j, 0 ≤ A i j) (hb : ∀ o i, 0 ≤ b o i)
    (hπ' : ∀ i, 0 ≤ π' i) (hA' : ∀ i j, 0 ≤ A' i j) (hb' : ∀ o i, 0 ≤ b' o i)
    (ss : List (ObsSeq D)) (hL : ∀ s ∈ ss, 0 < likelihood π A (s.weights b))
    (acπ : ∀ i, 0 < startStat π A b ss i → 0 < π' i)
    (acA : ∀ i j, 0 < transStat π A b ss i j → 0 < A' i j)
    (acb : ∀ s ∈ ss, ∀ t i, 0 < posterior π A (s.weights b) t i → 0 < b' (s.x t) i) :
    (∀ s ∈ ss, 0 < likelihood π' A' (s.weights b')) ∧
    (∀ s ∈ ss, ∀ z, 0 < joint π A (s.weights b) z → 0 < joint π' A' (s.weights b') z) ∧
    (∑ i, startStat π A b ss i * Real.log (π' i / π i)) +
      (∑ i, ∑ j, transStat π A b ss i j * Real.log (A' i j / A i j)) +
      emissionGain π A b b' ss ≤
    Real.log (dataLikelihood π' A' b' ss) - Real.log (dataLikelihood π A b ss) := by
  have hB : ∀ (s : ObsSeq D) t i, 0 ≤ s.weights b t i := fun s t i => hb _ _
  have hB' : ∀ (s : ObsSeq D) t i, 0 ≤ s.weights b' t i := fun s t i => hb' _ _
  have pn : ∀ s ∈ ss, ∀ t i, 0 ≤ posterior π A (s.weights b) t i := fun s hs t i =>
    div_nonneg (stateMass_nonneg hπ hA (hB s) t i) (hL s hs).le
  have supp : ∀ s ∈ ss, ∀ z, 0 < joint π A (s.weights b) z → 0 < joint π' A' (s.weights b') z := by
      intro s hs z hz
      refine (joint_pos_iff hπ' hA' (hB' s) z).2 ⟨?_, ?_, ?_⟩
      · refine acπ _ (lt_of_lt_of_le ?_ (le_list_sum ss
          (f := fun s => posterior π A (s.weights b) 0 (z 0)) (fun s hs => pn s hs _ _) hs))
        exact div_pos (hz.trans_le (joint_le_stateMass hπ hA (hB s) z 0)) (hL s hs)
      · intro t
        refine acA _ _ (lt_of_lt_of_le ?_ (le_list_sum ss
          (f := fun s => expectedTransitions π A (s.weights b) (z t.castSucc) (z t.succ))
          (fun s hs => Finset.sum_nonneg fun t _ =>
            div_nonneg (pairMass_nonneg hπ hA (hB s) t _ _) (hL s hs).le) hs))
        refine lt_of_lt_of_le (div_pos (hz.trans_le (joint_le_pairMass hπ hA (hB s) z t)) (hL s hs))
          (Finset.single_le_sum (f := fun t' => pairPosterior π A (s.weights b) t' (z t.castSucc) (z t.succ))
            (fun t _ => div_nonneg (pairMass_nonneg hπ hA (hB s) t _ _) (hL s hs).le)
            (Finset.mem_univ t))
      · intro t
        exact acb s hs t _ (div_pos (hz.trans_le (joint_le_stateMass hπ hA (hB s) z t)) (hL s hs))
  have one : ∀ s ∈ ss, _ := fun s hs => baumWelch_one (B := s.weights b) (B' := s.weights b')
    hπ hA (hB s) hπ' hA' (hB' s) (hL s hs) (supp s hs)
  have hL' : ∀ s ∈ ss, 0 < likelihood π' A' (s.weights b') := fun s hs => (one s hs).1
  refine ⟨hL', supp, ?_⟩
  rw [(log_dataLikelihood ss hL).2, (log_dataLikelihood ss hL').2]
  have h := list_sum_le ss fun s hs => (one s hs).2
  rw [list_sum_add, list_sum_add] at h
  have e1 : (ss.map fun s => ∑ i, posterior π A (s.weights b) 0 i * Real.log (π' i / π i)).sum =
      ∑ i, startStat π A b ss i * Real.log (π' i / π i) := by
    rw [list_sum_fintype_comm]
    exact Finset.sum_congr rfl fun i _ => list_sum_mul ss
      (fun s => posterior π A (s.weights b) 0 i) _
  have e2 : (ss.map fun s => ∑ i, ∑ j, expectedTransitions π A (s.weights b) i j *
      Real.log (A' i j / A i j)).sum =
      ∑ i, ∑ j, transStat π A b ss i j * Real.log (A' i j / A i j) := by
    rw [list_sum_fintype_comm]
    refine Finset.sum_congr rfl fun i _ => ?_
    rw [list_sum_fintype_comm]
    exact Finset.sum_congr rfl fun j _ => list_sum_mul ss
      (fun s => expectedTransitions π A (s.weights b) i j) _
  rw [e1, e2] at h
  have e3 : (ss.map fun s => Real.log (likelihood π' A' (s.weights b')) -
      Real.log (likelihood π A (s.weights b))).sum =
      (ss.map fun s => Real.log (likelihood π' A' (s.weights b'))).sum -
      (ss.map fun s => Real.log (likelihood π A (s.weights b))).sum := by
    have := list_sum_add ss (fun s => Real.log (likelihood π' A' (s.weights b')))
      (fun s => -Real.log (likelihood π A (s.weights b)))
    simp only [← sub_eq_add_neg] at this
    rw [this]
    have := list_sum_mul ss (fun s => Real.log (likelihood π A (s.weights b))) (-1)
    simp only [mul_neg, mul_one] at this
    rw [this]; ring
  rw [e3] at h
  exact h

end Verif
