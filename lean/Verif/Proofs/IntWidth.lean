import Verif.Spec.IntWidth
import Verif.Proofs.Recode
import Verif.Props.GaussianEM

/-!
# Training on integer arrays of bounded width
-/
set_option autoImplicit false

namespace Verif.Gaussian
open FloatLike XF Hmmc Spec
open scoped Classical
variable {nc nf : ℕ} [NeZero nc] {g : GaussPrior nc nf} {cp : Fin nc → Fin nf → ℝ} {ps : List Char}

/-- Expected counts of functions of the real samples. -/
noncomputable def realT (T : Fin nc → ((Fin nf → ℤ) → ℝ) → ℝ) : Fin nc → ((Fin nf → ℝ) → ℝ) → ℝ :=
  fun i f => T i fun x => f (realRow x)

/-- Statistics of an integer array. -/
noncomputable def statInts (ty : IntType) (ps : List Char) (T : Fin nc → ((Fin nf → ℤ) → ℝ) → ℝ) : DiagStats XF nc nf :=
  ⟨fun i => fin (gate ps 'm' (T i fun _ => 1)), fun i k => fin (gate ps 'm' (T i fun x => x k)),
    fun i k => fin (gate ps 'c' (T i fun x => ty.wrap (x k * x k)))⟩

theorem accDiagInts_stat (ty : IntType) (T : Fin nc → ((Fin nf → ℤ) → ℝ) → ℝ)
    (π : Fin nc → ℝ) (A : Fin nc → Fin nc → ℝ) (b : (Fin nf → ℤ) → Fin nc → ℝ) (s : ObsSeq (Fin nf → ℤ)) :
    accDiagInts ty ps (statInts ty ps T) (s.rows id) (postRows π A (s.weights b)) =
      statInts ty ps fun i f => T i f + ∑ t, posterior π A (s.weights b) t i * f (s.x t) := by
  simp only [accDiagInts, statInts, gate, memo_eq, postRows, ObsSeq.rows, id_eq]
  congr 1
  · by_cases hm : 'm' ∈ ps
    · simp only [hm, if_true]
      funext i
      rw [sumPost_ofFn]; simp
    · simp [hm]
  · by_cases hm : 'm' ∈ ps
    · simp only [hm, if_true]
      funext i k
      rw [dotPost_ofFn _ _ (fun x : Fin nf → ℤ => ofInt' (x k)) (fun t => (s.x t k : ℝ)) (fun t => ofInt'_def _)]; simp
    · simp [hm]
  · by_cases hc : 'c' ∈ ps
    · simp only [hc, if_true]
      funext i k
      rw [dotPost_ofFn _ _ (fun x : Fin nf → ℤ => ofInt' (ty.wrap (x k * x k))) (fun t => ((ty.wrap (s.x t k * s.x t k) : ℤ) : ℝ)) (fun t => ofInt'_def _)]; simp
    · simp [hc]

/-- New variances, `diag`. -/
noncomputable def varInts (ty : IntType) (g : GaussPrior nc nf) (cp : Fin nc → Fin nf → ℝ) (ps : List Char)
    (mu : Fin nc → Fin nf → ℝ) (T : Fin nc → ((Fin nf → ℤ) → ℝ) → ℝ) (i : Fin nc) (k : Fin nf) : ℝ :=
  (cp i k + (g.mw * (mu i k - g.mp i k) ^ 2 + (T i fun x => ty.wrap (x k * x k)) -
      2 * mu i k * gate ps 'm' (T i fun x => x k) + mu i k ^ 2 * gate ps 'm' (T i fun _ => 1))) /
    max (max (g.cw - 1) 0 + gate ps 'm' (T i fun _ => 1)) (1 / 10 ^ 5)

theorem floatRows (X : List (Fin nf → ℤ)) : (X.map id).map (floatRow (α := XF)) = (X.map realRow).map row := by
  rw [List.map_id, List.map_map]
  refine List.map_congr_left fun x _ => ?_
  funext k
  exact ofInt'_def _

theorem meansInts (ty : IntType) (q : Fin nc → Fin nf → ℝ) (T : Fin nc → ((Fin nf → ℤ) → ℝ) → ℝ)
    (hg : 'm' ∈ ps → ∀ i, g.mw + T i (fun _ => 1) ≠ 0) :
    (if 'm' ∈ ps then mstepMeans (prior g) (statInts ty ps T).post (statInts ty ps T).obs else
        fun i k => fin (q i k)) = fun i k => fin (muNext g ps q (realT T) i k) := by
  by_cases hm : 'm' ∈ ps
  · simp only [hm, if_true, statInts, gate, muNext]
    exact mstepMeans_fin g _ _ (hg hm)
  · simp only [hm, if_false, muNext]

theorem covarsInts (ty : IntType) (hc : 'c' ∈ ps) (mu : Fin nc → Fin nf → ℝ) (T : Fin nc → ((Fin nf → ℤ) → ℝ) → ℝ) :
    mstepCovarsDiag (prior g) (fun i k => fin (cp i k)) (fun i k => fin (mu i k)) (statInts ty ps T) =
      fun i k => fin (varInts ty g cp ps mu T i k) := by
  simp only [statInts, mstepCovarsDiag_fin]
  funext i k
  simp [varInts, gate, hc]

/-- `diag` on integer arrays. -/
noncomputable def diagIntsFamily (ty : IntType) (g : GaussPrior nc nf) (cp : Fin nc → Fin nf → ℝ) (ps : List Char) :
    Family (emissionDiagInts ty (prior g) fun i k => fin (cp i k)) id ps (RDiag nc nf) where
  embed q := ⟨fun i k => fin (q.mu i k), fun i k => fin (q.v i k)⟩
  b q x := diagB q.mu q.v (realRow x)
  b_nonneg q x i := (diagB_pos _ _ _ _).le
  lik_eq q X := by
    simp only [emissionDiagInts, floatRows, loglikDiag_fin]
    rw [expRows_log _ fun o i => (diagB_pos _ _ _ _).le, List.map_map]; rfl
  loglik_eq q X := by
    simp only [emissionDiagInts, floatRows, loglikDiag_fin]
    rw [List.map_map]; rfl
  stat q T := statInts ty ps T
  emFold_eq q π A ss := by
    refine emFold_of_acc (statInts ty ps) ?_ ?_ ss
    · simp [emissionDiagInts, DiagStats.zero, statInts, gate]
    · intro T s
      simp only [emissionDiagInts, accDiagInts_stat]
  next q T :=
    let mu := muNext g ps q.mu (realT T)
    ⟨mu, if 'c' ∈ ps then varInts ty g cp ps mu T else q.v⟩
  Good q T := 'm' ∈ ps → ∀ i, g.mw + T i (fun _ => 1) ≠ 0
  mstep_eq q T hT hg := by
    simp only [emissionDiagInts, mstepDiag, meansInts ty q.mu T hg]
    by_cases hc : 'c' ∈ ps
    · simp only [hc, if_true, covarsInts ty hc]
    · simp only [hc, if_false]

/-- `spherical` on integer arrays. -/
noncomputable def sphIntsFamily [NeZero nf] (ty : IntType) (g : GaussPrior nc nf) (cp : Fin nc → Fin nf → ℝ) (ps : List Char) :
    Family (emissionSphericalInts ty (prior g) fun i k => fin (cp i k)) id ps (RSph nc nf) where
  embed q := ⟨fun i k => fin (q.mu i k), fun i _ => fin (q.v i)⟩
  b q x := diagB q.mu (fun i _ => q.v i) (realRow x)
  b_nonneg q x i := (diagB_pos _ _ _ _).le
  lik_eq q X := by
    have := loglikDiag_fin q.mu (fun i _ => q.v i) (X.map realRow)
    simp only [emissionSphericalInts, floatRows, this]
    rw [expRows_log _ fun o i => (diagB_pos _ _ _ _).le, List.map_map]; rfl
  loglik_eq q X := by
    have := loglikDiag_fin q.mu (fun i _ => q.v i) (X.map realRow)
    simp only [emissionSphericalInts, floatRows, this]
    rw [List.map_map]; rfl
  stat q T := statInts ty ps T
  emFold_eq q π A ss := by
    refine emFold_of_acc (statInts ty ps) ?_ ?_ ss
    · simp [emissionSphericalInts, DiagStats.zero, statInts, gate]
    · intro T s
      simp only [emissionSphericalInts, accDiagInts_stat]
  next q T :=
    let mu := muNext g ps q.mu (realT T)
    ⟨mu, if 'c' ∈ ps then fun i => (∑ k, varInts ty g cp ps mu T i k) / nf else q.v⟩
  Good q T := 'm' ∈ ps → ∀ i, g.mw + T i (fun _ => 1) ≠ 0
  mstep_eq q T hT hg := by
    simp only [emissionSphericalInts, mstepSpherical, meansInts ty q.mu T hg]
    by_cases hc : 'c' ∈ ps
    · simp only [hc, if_true, covarsInts ty hc, tileMean, memo_eq, sumF_fin, ofNat'_def]
      congr 1
      funext i _
      rw [fin_div _ _ (Nat.cast_ne_zero.2 (NeZero.ne nf))]
    · simp only [hc, if_false]

/-- The denominator of the M-step. -/
theorem den_pos (w N : ℝ) : 0 < max (max (w - 1) 0 + N) (1 / 10 ^ 5) := lt_max_of_lt_right (by norm_num)

/-- Without prior on the means, and if every square counts at most `-1`. -/
theorem numerator_le {cp O O2 N : ℝ} (mp : ℝ) (hN : 0 < N) (h2 : O2 ≤ -N) :
    cp + (0 * ((0 * mp + O) / (0 + N) - mp) ^ 2 + O2 - 2 * ((0 * mp + O) / (0 + N)) * O + ((0 * mp + O) / (0 + N)) ^ 2 * N) ≤ cp - N := by
  have : 2 * ((0 * mp + O) / (0 + N)) * O - ((0 * mp + O) / (0 + N)) ^ 2 * N = O ^ 2 / N := by
    field_simp
    ring
  have h3 : 0 ≤ O ^ 2 / N := by positivity
  linarith

theorem wrap_loud {b : ℕ} {x : ℤ} (h : LoudFor b x) : (IntType.signed b).wrap (x * x) ≤ -1 := by
  obtain ⟨h1, h2⟩ := h
  have hx : x * x = x ^ 2 := by ring
  have h0 : (0 : ℤ) < 2 ^ b := by positivity
  show Int.bmod (x * x) (2 ^ b) ≤ -1
  have hc : ((2 ^ b : ℕ) : ℤ) = 2 ^ b := by push_cast; rfl
  rw [hx, Int.bmod_def, hc, Int.emod_eq_of_lt (by positivity) h2]
  split
  · next h => omega
  · omega

end Verif.Gaussian
