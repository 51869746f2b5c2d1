import Verif.Spec.GaussEvidence
import Verif.Proofs.Wishart
import Verif.Proofs.Evidence
import Verif.Proofs.VGaussian

/-!
# The evidence of a Gaussian model and the variational lower bound
-/

set_option autoImplicit false

namespace Verif
open MeasureTheory ProbabilityTheory Spec Matrix Gaussian VGaussian
open scoped ENNReal NNReal

variable {nc nf : ℕ}

/-! ## The likelihood as a sum over assignments -/

/-- How often each start and transition probability occurs in a product, and the samples of each state. -/
structure Assign (nc : ℕ) (D : Type) where
  s : Fin nc → ℕ
  t : Fin nc → Fin nc → ℕ
  e : Fin nc → List D

section Terms
variable {D : Type}

/-- The probabilities of an assignment. -/
def Assign.probs (c : Assign nc D) (π : Fin nc → ℝ) (A : Fin nc → Fin nc → ℝ) : ℝ :=
  (∏ i, π i ^ c.s i) * ∏ i, ∏ j, A i j ^ c.t i j

/-- The densities of the samples. -/
def emits (e : Fin nc → List D) (b : D → Fin nc → ℝ) : ℝ := ∏ i, ((e i).map fun x => b x i).prod

/-- The number of samples. -/
def Assign.size (c : Assign nc D) : ℕ := ∑ i, (c.e i).length

/-- A function of the parameters that is one product. -/
def IsTerm (k : ℕ) (f : (Fin nc → ℝ) → (Fin nc → Fin nc → ℝ) → (D → Fin nc → ℝ) → ℝ) : Prop :=
  ∃ c : Assign nc D, c.size = k ∧ ∀ π A b, f π A b = c.probs π A * emits c.e b

/-- A sum of products. -/
def IsTerms (k : ℕ) (f : (Fin nc → ℝ) → (Fin nc → Fin nc → ℝ) → (D → Fin nc → ℝ) → ℝ) : Prop :=
  ∃ l : List (Assign nc D), (∀ c ∈ l, c.size = k) ∧ ∀ π A b, f π A b = (l.map fun c => c.probs π A * emits c.e b).sum

/-- Both. -/
def Assign.mul (c d : Assign nc D) : Assign nc D :=
  ⟨fun i => c.s i + d.s i, fun i j => c.t i j + d.t i j, fun i => c.e i ++ d.e i⟩

theorem Assign.val_mul (c d : Assign nc D) (π : Fin nc → ℝ) (A : Fin nc → Fin nc → ℝ) (b : D → Fin nc → ℝ) :
    (c.mul d).probs π A * emits (c.mul d).e b = (c.probs π A * emits c.e b) * (d.probs π A * emits d.e b) := by
  simp only [Assign.mul, Assign.probs, emits, pow_add, Finset.prod_mul_distrib, List.map_append, List.prod_append]
  ring

theorem Assign.size_mul (c d : Assign nc D) : (c.mul d).size = c.size + d.size := by
  simp [Assign.mul, Assign.size, Finset.sum_add_distrib]

theorem IsTerm.one : IsTerm (nc := nc) (D := D) 0 (fun _ _ _ => 1) :=
  ⟨⟨0, 0, fun _ => []⟩, by simp [Assign.size], fun _ _ _ => by simp [Assign.probs, emits]⟩

theorem IsTerm.mul {k m : ℕ} {f g : (Fin nc → ℝ) → (Fin nc → Fin nc → ℝ) → (D → Fin nc → ℝ) → ℝ} (hf : IsTerm k f)
    (hg : IsTerm m g) : IsTerm (k + m) fun π A b => f π A b * g π A b := by
  obtain ⟨c, h1, h2⟩ := hf
  obtain ⟨d, h3, h4⟩ := hg
  exact ⟨c.mul d, by rw [Assign.size_mul, h1, h3], fun π A b => by simp only [Assign.val_mul, h2, h4]⟩

theorem IsTerm.prod {ι : Type} (u : Finset ι) {k : ℕ} {f : ι → (Fin nc → ℝ) → (Fin nc → Fin nc → ℝ) → (D → Fin nc → ℝ) → ℝ}
    (hf : ∀ t, IsTerm k (f t)) : IsTerm (u.card * k) fun π A b => ∏ t ∈ u, f t π A b := by
  classical
  induction u using Finset.induction_on with
  | empty => simpa using IsTerm.one
  | insert t u ht ih =>
    simp only [Finset.prod_insert ht, Finset.card_insert_of_notMem ht, add_mul, one_mul]
    rw [add_comm]
    exact (hf t).mul ih

theorem IsTerm.start (i : Fin nc) : IsTerm (nc := nc) (D := D) 0 fun π _ _ => π i := by
  classical
  refine ⟨⟨Pi.single i 1, 0, fun _ => []⟩, by simp [Assign.size], fun π A b => ?_⟩
  simp [Assign.probs, emits, Pi.single_apply, pow_ite, Finset.prod_ite_eq']

theorem IsTerm.trans (i j : Fin nc) : IsTerm (nc := nc) (D := D) 0 fun _ A _ => A i j := by
  classical
  refine ⟨⟨0, fun i' j' => if i' = i then if j' = j then 1 else 0 else 0, fun _ => []⟩, by simp [Assign.size],
    fun π A b => ?_⟩
  have : ∀ i', ∏ j', A i' j' ^ (if i' = i then if j' = j then 1 else 0 else 0) = if i' = i then A i j else 1 := by
    intro i'
    by_cases h : i' = i
    · subst h; simp [pow_ite, Finset.prod_ite_eq']
    · simp [h]
  simp only [Assign.probs, emits, this]
  simp [Finset.prod_ite_eq']

theorem IsTerm.emit (x : D) (i : Fin nc) : IsTerm (nc := nc) 1 fun _ _ b => b x i := by
  classical
  refine ⟨⟨0, 0, fun j => if j = i then [x] else []⟩, ?_, fun π A b => ?_⟩
  · have : ∀ j, (if j = i then [x] else []).length = if j = i then 1 else 0 := fun j => by split <;> rfl
    simp [Assign.size, this]
  · have : ∀ j, ((if j = i then [x] else []).map fun y => b y j).prod = if j = i then b x j else 1 := fun j => by
      split <;> simp
    simp [Assign.probs, emits, this, Finset.prod_ite_eq']

theorem IsTerm.isTerms {k : ℕ} {f : (Fin nc → ℝ) → (Fin nc → Fin nc → ℝ) → (D → Fin nc → ℝ) → ℝ} (hf : IsTerm k f) :
    IsTerms k f := by
  obtain ⟨c, h1, h2⟩ := hf
  exact ⟨[c], by simpa using h1, fun π A b => by simp [h2]⟩

theorem IsTerms.zero {k : ℕ} : IsTerms (nc := nc) (D := D) k (fun _ _ _ => 0) := ⟨[], by simp, fun _ _ _ => by simp⟩

theorem IsTerms.add {k : ℕ} {f g : (Fin nc → ℝ) → (Fin nc → Fin nc → ℝ) → (D → Fin nc → ℝ) → ℝ} (hf : IsTerms k f)
    (hg : IsTerms k g) : IsTerms k fun π A b => f π A b + g π A b := by
  obtain ⟨l, h1, h2⟩ := hf
  obtain ⟨m, h3, h4⟩ := hg
  refine ⟨l ++ m, fun c hc => ?_, fun π A b => by simp [h2, h4]⟩
  rcases List.mem_append.1 hc with h | h
  · exact h1 c h
  · exact h3 c h

theorem IsTerms.sum {ι : Type} (u : Finset ι) {k : ℕ} {f : ι → (Fin nc → ℝ) → (Fin nc → Fin nc → ℝ) → (D → Fin nc → ℝ) → ℝ}
    (hf : ∀ t, IsTerms k (f t)) : IsTerms k fun π A b => ∑ t ∈ u, f t π A b := by
  classical
  induction u using Finset.induction_on with
  | empty => simpa using IsTerms.zero
  | insert t u ht ih => simp only [Finset.sum_insert ht]; exact (hf t).add ih

theorem IsTerms.mul {k m : ℕ} {f g : (Fin nc → ℝ) → (Fin nc → Fin nc → ℝ) → (D → Fin nc → ℝ) → ℝ} (hf : IsTerms k f)
    (hg : IsTerms m g) : IsTerms (k + m) fun π A b => f π A b * g π A b := by
  obtain ⟨l, h1, h2⟩ := hf
  obtain ⟨q, h3, h4⟩ := hg
  refine ⟨q.flatMap fun d => l.map fun c => c.mul d, fun c hc => ?_, fun π A b => ?_⟩
  · obtain ⟨d, hd, hc⟩ := List.mem_flatMap.1 hc
    obtain ⟨c', hc', rfl⟩ := List.mem_map.1 hc
    rw [Assign.size_mul, h1 _ hc', h3 _ hd]
  · simp only [h2, h4]
    clear h1 h2 h3 h4
    induction q with
    | nil => simp
    | cons d q ih =>
      simp only [List.map_cons, List.sum_cons, List.flatMap_cons, List.map_append, List.sum_append, mul_add, ih,
        List.map_map, Function.comp_def, Assign.val_mul, List.sum_map_mul_right]

theorem isTerms_dataLikelihood (ss : List (ObsSeq D)) :
    IsTerms (numSamples ss) fun (π : Fin nc → ℝ) A b => dataLikelihood π A b ss := by
  induction ss with
  | nil => simpa [dataLikelihood, numSamples] using IsTerm.one.isTerms
  | cons s ss ih =>
    have h1 : IsTerms (s.n + 1) fun (π : Fin nc → ℝ) A b => likelihood π A (s.weights b) := by
      refine IsTerms.sum _ fun z => ?_
      have h := (((IsTerm.start (D := D) (z 0)).mul (IsTerm.prod (Finset.univ : Finset (Fin s.n)) fun t =>
        IsTerm.trans (D := D) (z t.castSucc) (z t.succ))).mul
        (IsTerm.prod (Finset.univ : Finset (Fin (s.n + 1))) fun t => IsTerm.emit (s.x t) (z t))).isTerms
      simpa [joint, ObsSeq.weights] using h
    simpa [dataLikelihood, numSamples] using h1.mul ih

end Terms

/-! ## Sums over the samples of a state -/

/-- `Σ_x f(x)` over the samples of state `i`. -/
def hard (e : Fin nc → List (Fin nf → ℝ)) (i : Fin nc) (f : (Fin nf → ℝ) → ℝ) : ℝ := ((e i).map f).sum

theorem hard_posLin (e : Fin nc → List (Fin nf → ℝ)) : PosLin (hard e) where
  nonneg i f hf := List.sum_nonneg fun x hx => by
    obtain ⟨y, -, rfl⟩ := List.mem_map.1 hx
    exact hf y
  add i f g := List.sum_map_add
  smul i c f := List.sum_map_mul_left _ _ _

theorem hard_one (e : Fin nc → List (Fin nf → ℝ)) (i : Fin nc) : hard e i (fun _ => 1) = (e i).length := by
  simp [hard]

/-! ## The gain over the prior -/

/-- The logarithm of `E[|Λ|^(N/2) exp(-½ tr(Λ C))]` for the Wishart law, up to the powers of 2. -/
noncomputable def logZ (ν₀ : ℝ) (S₀ : Matrix (Fin nf) (Fin nf) ℝ) (N : ℝ) (C : Matrix (Fin nf) (Fin nf) ℝ) : ℝ :=
  ∑ i : Fin nf, lnGamma ((ν₀ + N - i) / 2) - ∑ i : Fin nf, lnGamma ((ν₀ - i) / 2) + ν₀ / 2 * Real.log S₀.det -
    (ν₀ + N) / 2 * Real.log (S₀ + C).det

theorem wishartObj_le [NeZero nf] {N ν ν₀ : ℝ} {C S S₀ : Matrix (Fin nf) (Fin nf) ℝ} (hN : 0 ≤ N)
    (hν : (nf : ℝ) - 1 < ν) (hν₀ : (nf : ℝ) - 1 < ν₀) (hS : S.PosDef) (hS₀ : S₀.PosDef) (hS' : (S₀ + C).PosDef) :
    wishartObj N C ν S ν₀ S₀ ≤ logZ ν₀ S₀ N C := by
  have hn : (1 : ℝ) ≤ nf := by exact_mod_cast NeZero.one_le
  have key : wishartObj N C ν S ν₀ S₀ = -klWishart ν S (ν₀ + N) (S₀ + C) + logZ ν₀ S₀ N C := by
    simp only [wishartObj, klWishart, logZ]
    rw [Real.log_div (det_pos hS).ne' (det_pos hS₀).ne', Real.log_div (det_pos hS).ne' (det_pos hS').ne',
      Matrix.add_mul, Matrix.trace_add, Matrix.trace_mul_comm C]
    simp only [Finset.sum_add_distrib, Finset.sum_sub_distrib, ← Finset.mul_sum]
    ring
  rw [key]
  have := klWishart_nonneg hS hS' hν (by linarith : (nf : ℝ) - 1 < ν₀ + N) (by linarith) (by linarith)
  linarith

section Gain
variable {T : Fin nc → ((Fin nf → ℝ) → ℝ) → ℝ}

/-- What does not depend on the Wishart law. -/
noncomputable def meanConst (p₀ : Fin nc → NW nf) (T : Fin nc → ((Fin nf → ℝ) → ℝ) → ℝ) (i : Fin nc) : ℝ :=
  nf / 2 * (Real.log (p₀ i).β - Real.log (βNext p₀ T i))

theorem stateObj_le [NeZero nf] (hT : PosLin T) {p₀ : Fin nc → NW nf} (h₀ : ∀ i, (p₀ i).Proper) (i : Fin nc) {p : NW nf}
    (hp : p.Proper) :
    stateObj p₀ T i p ≤ (T i fun _ => 1) / 2 * (∑ k : Fin nf, digamma ((p.ν - k) / 2) - Real.log p.S.det) -
      1 / 2 * (p.ν * (p.S⁻¹ * CNext p₀ T i).trace) + ((T i fun _ => 1) * (nf / 2 * Real.log 2) + meanConst p₀ T i) := by
  have hβ := βNext_pos hT h₀ i
  refine (mean_gain hT h₀ i hp).trans (le_of_eq ?_)
  rw [stateObj_eq hT h₀ i (p := ⟨βNext p₀ T i, mNext p₀ T i, p.ν, p.S⟩) ⟨hβ, hp.ν, hp.S⟩, CNext, meanConst]
  simp only [div_self hβ.ne']
  ring

/-- The logarithm of the mean of `∏ |Λ_i|^(N_i/2) exp(-½ tr(Λ_i C_i))`. -/
noncomputable def logZs [NeZero nc] (ty : CovType) (p₀ : Fin nc → NW nf) (T : Fin nc → ((Fin nf → ℝ) → ℝ) → ℝ) : ℝ :=
  if ty = .tied then logZ (p₀ 0).ν (p₀ 0).S (∑ j, T j fun _ => 1) (∑ j, CNext p₀ T j)
  else ∑ i, logZ (p₀ i).ν (p₀ i).S (T i fun _ => 1) (CNext p₀ T i)

theorem gaussObj_le [NeZero nc] [NeZero nf] {ty : CovType} (hT : PosLin T) {p₀ p : Fin nc → NW nf}
    (h₀ : ∀ i, (p₀ i).Proper) (hp : ∀ i, (p i).Proper) (hA : Allowed ty p) :
    gaussObj ty p₀ T p ≤ logZs ty p₀ T + ∑ i, ((T i fun _ => 1) * (nf / 2 * Real.log 2) + meanConst p₀ T i) := by
  have hCp := CNext_psd hT h₀
  have h1 := Finset.sum_le_sum fun (i : Fin nc) (_ : i ∈ Finset.univ) => stateObj_le hT h₀ i (hp i)
  unfold gaussObj
  by_cases ht : ty = .tied
  · subst ht
    have hA' : ∀ i, (p i).ν = (p 0).ν ∧ (p i).S = (p 0).S := hA
    have g := wishartObj_le (N := ∑ j, T j fun _ => 1) (C := ∑ j, CNext p₀ T j)
      (Finset.sum_nonneg fun j _ => T_one_nonneg hT j) (hp 0).ν (h₀ 0).ν (hp 0).S (h₀ 0).S
      ((h₀ 0).S.add_posSemidef (Matrix.posSemidef_sum _ fun j _ => hCp j))
    simp only [fun i => (hA' i).1, fun i => (hA' i).2] at h1
    simp only [wishartObj] at g
    rw [Finset.sum_add_distrib, Finset.sum_sub_distrib, ← Finset.sum_mul, ← Finset.sum_div, ← Finset.mul_sum,
      ← Finset.mul_sum, ← Matrix.trace_sum, ← Matrix.mul_sum] at h1
    simp only [klPrecisions, logZs, if_true]
    linarith
  · simp only [klPrecisions, logZs, if_neg ht]
    have h2 := Finset.sum_le_sum fun (i : Fin nc) (_ : i ∈ Finset.univ) =>
      wishartObj_le (N := T i fun _ => 1) (C := CNext p₀ T i) (T_one_nonneg hT i) (hp i).ν (h₀ i).ν (hp i).S (h₀ i).S
        ((h₀ i).S.add_posSemidef (hCp i))
    simp only [wishartObj] at h2
    rw [Finset.sum_sub_distrib] at h2
    rw [Finset.sum_add_distrib] at h1
    linarith

end Gain

/-! ## The means -/

theorem exp_hard (e : Fin nc → List (Fin nf → ℝ)) (i : Fin nc) {f : (Fin nf → ℝ) → ℝ} (hf : ∀ x, 0 < f x) :
    ((e i).map f).prod = Real.exp (hard e i fun x => Real.log (f x)) := by
  unfold hard
  induction e i with
  | nil => simp
  | cons x l ih =>
    simp only [List.map_cons, List.prod_cons, List.sum_cons, Real.exp_add, ih, Real.exp_log (hf x)]

section Means
variable {T : Fin nc → ((Fin nf → ℝ) → ℝ) → ℝ}

theorem CNext_mean (hT : PosLin T) {p₀ : Fin nc → NW nf} (h₀ : ∀ i, (p₀ i).Proper) (i : Fin nc) (μ : Fin nf → ℝ) :
    (p₀ i).β • Matrix.vecMulVec (μ - (p₀ i).m) (μ - (p₀ i).m) + scat T i μ =
      CNext p₀ T i + βNext p₀ T i • Matrix.vecMulVec (μ - mNext p₀ T i) (μ - mNext p₀ T i) := by
  let g : GaussPrior nc nf := ⟨fun j => (p₀ j).m, (p₀ i).β, 0⟩
  have h := SM_mean (g := g) (ps := ['m']) (by simp) hT (i := i) (βNext_pos hT h₀ i) (fun _ => μ) μ
  have e : muNext g ['m'] (fun _ => μ) T i = mNext p₀ T i := by
    funext k; simp [muNext, mNext, βNext, g]
  rw [e] at h
  exact h

theorem log_det_inv_smul {b : ℝ} (hb : 0 < b) {Λ : Matrix (Fin nf) (Fin nf) ℝ} (hΛ : Λ.PosDef) :
    Real.log ((b • Λ)⁻¹).det = -(nf * Real.log b + Real.log Λ.det) := by
  rw [Matrix.det_nonsing_inv, Ring.inverse_eq_inv', Real.log_inv, Matrix.det_smul, Fintype.card_fin,
    Real.log_mul (pow_pos hb _).ne' (det_pos hΛ).ne', Real.log_pow]

theorem mahalanobis_inv {Λ : Matrix (Fin nf) (Fin nf) ℝ} (hΛ : Λ.PosDef) (μ x : Fin nf → ℝ) :
    mahalanobis μ Λ⁻¹ x = (Λ * Matrix.vecMulVec (x - μ) (x - μ)).trace := by
  rw [mahalanobis, Matrix.nonsing_inv_nonsing_inv _ (det_pos hΛ).ne'.isUnit, trace_outer]

/-- Completing the square. -/
theorem means_pointwise (e : Fin nc → List (Fin nf → ℝ)) {p₀ : Fin nc → NW nf} (h₀ : ∀ i, (p₀ i).Proper) (i : Fin nc)
    {Λ : Matrix (Fin nf) (Fin nf) ℝ} (hΛ : Λ.PosDef) (μ : Fin nf → ℝ) :
    mvnPdf (p₀ i).m ((p₀ i).β • Λ)⁻¹ μ * ((e i).map fun x => mvnPdf μ Λ⁻¹ x).prod =
      Real.exp (-((e i).length * (nf / 2 * Real.log (2 * Real.pi))) + meanConst p₀ (hard e) i) *
        (Λ.det ^ (((e i).length : ℝ) / 2) * Real.exp (-(1 / 2) * (Λ * CNext p₀ (hard e) i).trace)) *
        mvnPdf (mNext p₀ (hard e) i) (βNext p₀ (hard e) i • Λ)⁻¹ μ := by
  have hT := hard_posLin e
  have hβ := (h₀ i).β
  have hβ' := βNext_pos hT h₀ i
  have hd := det_pos hΛ
  have q1 : ((p₀ i).β • Λ).PosDef := hΛ.smul hβ
  have q2 : (βNext p₀ (hard e) i • Λ).PosDef := hΛ.smul hβ'
  rw [exp_hard e i (fun x => mvnPdf_pos hΛ.inv μ x)]
  refine Real.log_injOn_pos (Set.mem_Ioi.2 (mul_pos (mvnPdf_pos q1.inv _ _) (Real.exp_pos _)))
    (Set.mem_Ioi.2 (mul_pos (mul_pos (Real.exp_pos _) (mul_pos (Real.rpow_pos_of_pos hd _) (Real.exp_pos _)))
      (mvnPdf_pos q2.inv _ _))) ?_
  have r := (Real.rpow_pos_of_pos hd (((e i).length : ℝ) / 2)).ne'
  rw [Real.log_mul (mvnPdf_pos q1.inv _ _).ne' (Real.exp_pos _).ne',
    Real.log_mul (mul_pos (Real.exp_pos _) (mul_pos (Real.rpow_pos_of_pos hd _) (Real.exp_pos _))).ne'
      (mvnPdf_pos q2.inv _ _).ne', Real.log_mul (Real.exp_pos _).ne' (mul_pos (Real.rpow_pos_of_pos hd _) (Real.exp_pos _)).ne',
    Real.log_mul r (Real.exp_pos _).ne', Real.log_exp, Real.log_exp, Real.log_exp, Real.log_rpow hd,
    log_mvnPdf q1.inv, log_mvnPdf q2.inv, log_det_inv_smul hβ hΛ, log_det_inv_smul hβ' hΛ, mahalanobis_inv q1, mahalanobis_inv q2]
  have e1 : (fun x => Real.log (mvnPdf μ Λ⁻¹ x)) = fun x => -(1 / 2) * (nf * Real.log (2 * Real.pi) - Real.log Λ.det) -
      (1 / 2) * ((x - μ) ⬝ᵥ (Λ *ᵥ (x - μ))) := by
    funext x
    have := log_det_inv_smul one_pos hΛ
    rw [one_smul] at this
    rw [log_mvnPdf hΛ.inv, this, mahalanobis_inv hΛ, trace_outer, Real.log_one]
    ring
  rw [e1, hT.sub, hT.const, hT.smul, T_quad hT, hard_one, meanConst]
  have h := congrArg (fun M => (Λ * M).trace) (CNext_mean hT h₀ i μ)
  simp only [Matrix.mul_add, Matrix.trace_add, Matrix.mul_smul, Matrix.trace_smul, smul_eq_mul] at h
  simp only [Matrix.smul_mul, Matrix.trace_smul, smul_eq_mul]
  linear_combination (-(1 / 2) : ℝ) * h

theorem measurable_mvnPdf_mean (S : Matrix (Fin nf) (Fin nf) ℝ) (x : Fin nf → ℝ) :
    Measurable fun μ : Fin nf → ℝ => mvnPdf μ S x := by
  unfold mvnPdf mahalanobis
  simp only [Matrix.mulVec, dotProduct, Pi.sub_apply]
  fun_prop

theorem measurable_list_prod {X ι : Type} [MeasurableSpace X] {f : ι → X → ℝ} (hf : ∀ t, Measurable (f t)) (l : List ι) :
    Measurable fun x => (l.map fun t => f t x).prod := by
  induction l with
  | nil => simp
  | cons t l ih => simp only [List.map_cons, List.prod_cons]; exact (hf t).mul ih

theorem lintegral_mvnPdf (m : Fin nf → ℝ) {S : Matrix (Fin nf) (Fin nf) ℝ} (hS : S.PosDef) :
    ∫⁻ x, ENNReal.ofReal (mvnPdf m S x) = 1 := by
  have h : mvnLaw m S Set.univ = 1 := measure_univ
  rw [mvnLaw_density m hS, withDensity_apply _ MeasurableSet.univ, Measure.restrict_univ] at h
  exact h

theorem measurable_mvnPdf (m : Fin nf → ℝ) (S : Matrix (Fin nf) (Fin nf) ℝ) : Measurable fun x => mvnPdf m S x := by
  unfold mvnPdf mahalanobis
  simp only [Matrix.mulVec, dotProduct, Pi.sub_apply]
  fun_prop

/-- What remains of the samples of one state, as a function of its precision matrix. -/
noncomputable def stateZ (e : Fin nc → List (Fin nf → ℝ)) (p₀ : Fin nc → NW nf) (i : Fin nc)
    (Λ : Fin nf → Fin nf → ℝ) : ℝ :=
  Real.exp (-((e i).length * (nf / 2 * Real.log (2 * Real.pi))) + meanConst p₀ (hard e) i) *
    ((Matrix.of Λ).det ^ (((e i).length : ℝ) / 2) * Real.exp (-(1 / 2) * (Matrix.of Λ * CNext p₀ (hard e) i).trace))

theorem measurable_stateZ (e : Fin nc → List (Fin nf → ℝ)) (p₀ : Fin nc → NW nf) (i : Fin nc) :
    Measurable (stateZ e p₀ i) := by
  have hd : Continuous fun Λ : Fin nf → Fin nf → ℝ => (Matrix.of Λ).det := Continuous.matrix_det continuous_id
  have htr : Continuous fun Λ : Fin nf → Fin nf → ℝ => (Matrix.of Λ * CNext p₀ (hard e) i).trace := by
    simp only [Matrix.trace, Matrix.diag, Matrix.mul_apply, Matrix.of_apply]
    fun_prop
  have h1 := hd.measurable
  have h2 := htr.measurable
  unfold stateZ
  fun_prop

theorem stateZ_nonneg (e : Fin nc → List (Fin nf → ℝ)) (p₀ : Fin nc → NW nf) (i : Fin nc) {Λ : Fin nf → Fin nf → ℝ}
    (hΛ : (Matrix.of Λ).PosDef) : 0 ≤ stateZ e p₀ i Λ :=
  mul_nonneg (Real.exp_pos _).le (mul_nonneg (Real.rpow_nonneg (det_pos hΛ).le _) (Real.exp_pos _).le)

/-- Integrating out the mean of one state. -/
theorem lintegral_mean (e : Fin nc → List (Fin nf → ℝ)) {p₀ : Fin nc → NW nf} (h₀ : ∀ i, (p₀ i).Proper) (i : Fin nc)
    {Λ : Fin nf → Fin nf → ℝ} (hΛ : (Matrix.of Λ).PosDef) :
    ∫⁻ μ, ENNReal.ofReal ((e i).map fun x => mvnPdf μ (Matrix.of Λ)⁻¹ x).prod ∂mvnLaw (p₀ i).m ((p₀ i).β • Matrix.of Λ)⁻¹ =
      ENNReal.ofReal (stateZ e p₀ i Λ) := by
  have hβ := (h₀ i).β
  have hβ' := βNext_pos (hard_posLin e) h₀ i
  have q1 : ((p₀ i).β • Matrix.of Λ).PosDef := hΛ.smul hβ
  have q2 : (βNext p₀ (hard e) i • Matrix.of Λ).PosDef := hΛ.smul hβ'
  have hm : Measurable fun μ : Fin nf → ℝ => ((e i).map fun x => mvnPdf μ (Matrix.of Λ)⁻¹ x).prod :=
    measurable_list_prod (fun x => measurable_mvnPdf_mean _ x) (e i)
  rw [mvnLaw_density _ q1.inv, lintegral_withDensity_eq_lintegral_mul _ (measurable_mvnPdf _ _).ennreal_ofReal hm.ennreal_ofReal]
  have e1 : ∀ μ, ((fun μ => ENNReal.ofReal (mvnPdf (p₀ i).m ((p₀ i).β • Matrix.of Λ)⁻¹ μ)) *
      fun μ => ENNReal.ofReal ((e i).map fun x => mvnPdf μ (Matrix.of Λ)⁻¹ x).prod) μ = ENNReal.ofReal (stateZ e p₀ i Λ) *
      ENNReal.ofReal (mvnPdf (mNext p₀ (hard e) i) (βNext p₀ (hard e) i • Matrix.of Λ)⁻¹ μ) := by
    intro μ
    rw [Pi.mul_apply, ← ENNReal.ofReal_mul (mvnPdf_pos q1.inv _ _).le, means_pointwise e h₀ i hΛ μ,
      ← ENNReal.ofReal_mul (stateZ_nonneg e p₀ i hΛ)]
    rfl
  simp only [e1]
  rw [lintegral_const_mul _ (measurable_mvnPdf _ _).ennreal_ofReal, lintegral_mvnPdf _ q2.inv, mul_one]

/-- Integrating out all means. -/
theorem lintegral_means (e : Fin nc → List (Fin nf → ℝ)) {p₀ : Fin nc → NW nf} (h₀ : ∀ i, (p₀ i).Proper)
    {Λ : Fin nc → Fin nf → Fin nf → ℝ} (hΛ : ∀ i, (Matrix.of (Λ i)).PosDef) :
    ∫⁻ μ, ENNReal.ofReal (emits e (mvnB μ fun i => (Matrix.of (Λ i))⁻¹)) ∂meanPrior p₀ (fun i => Matrix.of (Λ i)) =
      ∏ i, ENNReal.ofReal (stateZ e p₀ i (Λ i)) := by
  have e1 : ∀ μ : Fin nc → Fin nf → ℝ, ENNReal.ofReal (emits e (mvnB μ fun i => (Matrix.of (Λ i))⁻¹)) =
      ∏ i, ENNReal.ofReal ((e i).map fun x => mvnPdf (μ i) (Matrix.of (Λ i))⁻¹ x).prod := by
    intro μ
    rw [emits, ENNReal.ofReal_prod_of_nonneg]
    · rfl
    · intro i _
      refine List.prod_nonneg fun y hy => ?_
      obtain ⟨x, -, rfl⟩ := List.mem_map.1 hy
      exact (mvnPdf_pos (hΛ i).inv _ _).le
  simp only [e1]
  have e2 : meanPrior p₀ (fun i => Matrix.of (Λ i)) = Measure.pi fun i => mvnLaw (p₀ i).m ((p₀ i).β • Matrix.of (Λ i))⁻¹ := rfl
  rw [e2, lintegral_fin_prod (fun i => mvnLaw (p₀ i).m ((p₀ i).β • Matrix.of (Λ i))⁻¹)
    (fun i μ => ENNReal.ofReal ((e i).map fun x => mvnPdf μ (Matrix.of (Λ i))⁻¹ x).prod)
    (fun i => (measurable_list_prod (fun x => measurable_mvnPdf_mean _ x) (e i)).ennreal_ofReal)]
  exact Finset.prod_congr rfl fun i _ => lintegral_mean e h₀ i (hΛ i)

end Means

end Verif
