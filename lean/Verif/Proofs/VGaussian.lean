import Verif.Spec.VGaussian
import Verif.Proofs.Kl
import Verif.Proofs.GaussianFull

/-!
# The conjugate update of a normal–Wishart posterior is the best one
-/

set_option autoImplicit false

namespace Verif.VGaussian
open Spec Gaussian
open scoped Matrix Classical

variable {nc nf : ℕ}

theorem weight_pos (p : NW nf) (x : Fin nf → ℝ) : 0 < p.weight x := Real.exp_pos _

/-- Expected log-weight plus minus the Wishart divergence, in terms of the count `N` and of the scatter
matrix `C`. -/
noncomputable def wishartObj (N : ℝ) (C : Matrix (Fin nf) (Fin nf) ℝ) (ν : ℝ) (S : Matrix (Fin nf) (Fin nf) ℝ)
    (ν₀ : ℝ) (S₀ : Matrix (Fin nf) (Fin nf) ℝ) : ℝ :=
  N / 2 * (∑ k : Fin nf, digamma ((ν - k) / 2) - Real.log S.det) - 1 / 2 * (ν * (S⁻¹ * C).trace) -
    klWishart ν S ν₀ S₀

/-- The conjugate update of degrees of freedom and scale is the best. -/
theorem wishart_gain [NeZero nf] {N ν ν₀ : ℝ} {C S S₀ : Matrix (Fin nf) (Fin nf) ℝ} (hN : 0 ≤ N)
    (hν : (nf : ℝ) - 1 < ν) (hν₀ : (nf : ℝ) - 1 < ν₀) (hS : S.PosDef) (hS₀ : S₀.PosDef)
    (hS' : (S₀ + C).PosDef) :
    wishartObj N C ν S ν₀ S₀ ≤ wishartObj N C (ν₀ + N) (S₀ + C) ν₀ S₀ := by
  have hn : (1 : ℝ) ≤ nf := by exact_mod_cast NeZero.one_le
  have key : ∀ (ν : ℝ) (S : Matrix (Fin nf) (Fin nf) ℝ), S.PosDef →
      wishartObj N C ν S ν₀ S₀ = -klWishart ν S (ν₀ + N) (S₀ + C) +
        (∑ i : Fin nf, lnGamma ((ν₀ + N - i) / 2) - ∑ i : Fin nf, lnGamma ((ν₀ - i) / 2) +
          ν₀ / 2 * Real.log S₀.det - (ν₀ + N) / 2 * Real.log (S₀ + C).det) := by
    intro ν S hS
    simp only [wishartObj, klWishart]
    rw [Real.log_div (det_pos hS).ne' (det_pos hS₀).ne', Real.log_div (det_pos hS).ne' (det_pos hS').ne',
      Matrix.add_mul, Matrix.trace_add, Matrix.trace_mul_comm C]
    simp only [Finset.sum_add_distrib, Finset.sum_sub_distrib, ← Finset.mul_sum]
    ring
  rw [key ν S hS, key _ _ hS', klWishart_self hS']
  have := klWishart_nonneg hS hS' hν (by linarith : (nf : ℝ) - 1 < ν₀ + N) (by linarith) (by linarith)
  linarith

/-- `a / b + ln b` is smallest at `b = a`. -/
theorem log_add_div {a b : ℝ} (ha : 0 < a) (hb : 0 < b) : Real.log a + 1 ≤ Real.log b + a / b := by
  have h := Real.log_le_sub_one_of_pos (div_pos ha hb)
  rw [Real.log_div ha.ne' hb.ne'] at h
  linarith

variable {T : Fin nc → ((Fin nf → ℝ) → ℝ) → ℝ}

/-- Expected log-weight. -/
theorem T_log_weight (hT : PosLin T) (i : Fin nc) (p : NW nf) :
    T i (fun x => Real.log (p.weight x)) =
      (T i fun _ => 1) * (1 / 2 * (∑ k : Fin nf, digamma ((p.ν - k) / 2) + nf * Real.log 2 - Real.log p.S.det) -
        1 / 2 * (nf / p.β)) - 1 / 2 * (p.ν * (p.S⁻¹ * scat T i p.m).trace) := by
  have e : (fun x => Real.log (p.weight x)) = fun x =>
      (1 / 2 * (∑ k : Fin nf, digamma ((p.ν - k) / 2) + nf * Real.log 2 - Real.log p.S.det) -
        1 / 2 * (nf / p.β)) - (1 / 2 * p.ν) * ((x - p.m) ⬝ᵥ (p.S⁻¹ *ᵥ (x - p.m))) := by
    funext x
    rw [NW.weight, Real.log_exp]; ring
  rw [e, hT.sub, hT.const, hT.smul, T_quad hT]
  ring

/-- New precision and mean. -/
noncomputable def βNext (p₀ : Fin nc → NW nf) (T : Fin nc → ((Fin nf → ℝ) → ℝ) → ℝ) (i : Fin nc) : ℝ :=
  (p₀ i).β + T i fun _ => 1

/-- New mean. -/
noncomputable def mNext (p₀ : Fin nc → NW nf) (T : Fin nc → ((Fin nf → ℝ) → ℝ) → ℝ) (i : Fin nc)
    (k : Fin nf) : ℝ := ((p₀ i).β * (p₀ i).m k + T i fun x => x k) / βNext p₀ T i

/-- The scatter the update adds. -/
noncomputable def CNext (p₀ : Fin nc → NW nf) (T : Fin nc → ((Fin nf → ℝ) → ℝ) → ℝ) (i : Fin nc) :
    Matrix (Fin nf) (Fin nf) ℝ :=
  (p₀ i).β • Matrix.vecMulVec (mNext p₀ T i - (p₀ i).m) (mNext p₀ T i - (p₀ i).m) + scat T i (mNext p₀ T i)

theorem nwUpdate_eq (ty : CovType) (ps : List Char) (p₀ p : Fin nc → NW nf) (i : Fin nc) :
    nwUpdate ty ps p₀ p T i =
      { β := if 'm' ∈ ps then βNext p₀ T i else (p i).β
        m := if 'm' ∈ ps then mNext p₀ T i else (p i).m
        ν := if 'c' ∈ ps then (p₀ i).ν + shareCount ty (fun j => T j fun _ => 1) i else (p i).ν
        S := if 'c' ∈ ps then (p₀ i).S + shareScatter ty (CNext p₀ T) i else (p i).S } := rfl

theorem T_one_nonneg (hT : PosLin T) (i : Fin nc) : 0 ≤ T i fun _ => 1 := hT.nonneg i _ fun _ => zero_le_one

theorem βNext_pos (hT : PosLin T) {p₀ : Fin nc → NW nf} (h₀ : ∀ i, (p₀ i).Proper) (i : Fin nc) :
    0 < βNext p₀ T i := add_pos_of_pos_of_nonneg (h₀ i).β (T_one_nonneg hT i)

theorem CNext_psd (hT : PosLin T) {p₀ : Fin nc → NW nf} (h₀ : ∀ i, (p₀ i).Proper) (i : Fin nc) :
    (CNext p₀ T i).PosSemidef := ((posSemidef_outer _).smul (h₀ i).β.le).add (scat_psd hT i _)

/-- What the lower bound gains from state `i`, without the Wishart divergence. -/
noncomputable def stateObj (p₀ : Fin nc → NW nf) (T : Fin nc → ((Fin nf → ℝ) → ℝ) → ℝ) (i : Fin nc)
    (p : NW nf) : ℝ := T i (fun x => Real.log (p.weight x)) - p.klMean (p₀ i)

theorem stateObj_eq (hT : PosLin T) {p₀ : Fin nc → NW nf} (h₀ : ∀ i, (p₀ i).Proper) (i : Fin nc) {p : NW nf}
    (hp : p.Proper) :
    stateObj p₀ T i p = (T i fun _ => 1) * (1 / 2 * (∑ k : Fin nf, digamma ((p.ν - k) / 2) +
        nf * Real.log 2 - Real.log p.S.det)) - nf / 2 * (Real.log p.β + βNext p₀ T i / p.β) +
        nf / 2 * (Real.log (p₀ i).β + 1) -
      1 / 2 * (p.ν * (p.S⁻¹ * ((p₀ i).β • Matrix.vecMulVec (p.m - (p₀ i).m) (p.m - (p₀ i).m) +
        scat T i p.m)).trace) := by
  have hβ := hp.β.ne'
  rw [stateObj, T_log_weight hT, NW.klMean, Matrix.mul_add, Matrix.trace_add, Matrix.mul_smul, Matrix.trace_smul,
    trace_outer, Real.log_div hβ (h₀ i).β.ne', βNext, smul_eq_mul]
  field_simp
  ring

/-- The conjugate update of precision and mean is the best. -/
theorem mean_gain [NeZero nf] (hT : PosLin T) {p₀ : Fin nc → NW nf} (h₀ : ∀ i, (p₀ i).Proper) (i : Fin nc) {p : NW nf}
    (hp : p.Proper) :
    stateObj p₀ T i p ≤ stateObj p₀ T i ⟨βNext p₀ T i, mNext p₀ T i, p.ν, p.S⟩ := by
  have hn : (1 : ℝ) ≤ nf := by exact_mod_cast NeZero.one_le
  have hβ := βNext_pos hT h₀ i
  rw [stateObj_eq hT h₀ i hp, stateObj_eq hT h₀ i (p := ⟨βNext p₀ T i, mNext p₀ T i, p.ν, p.S⟩) ⟨hβ, hp.ν, hp.S⟩]
  have h1 := log_add_div hβ hp.β
  let g : GaussPrior nc nf := ⟨fun j => (p₀ j).m, (p₀ i).β, 0⟩
  have h2 := trace_SM_le (g := g) (ps := ['m']) (by simp) hT (i := i) hβ (fun _ => p.m) p.m (inv_psd hp.S)
  have e : muNext g ['m'] (fun _ => p.m) T i = mNext p₀ T i := by
    funext k; simp [muNext, mNext, βNext, g]
  rw [e] at h2
  simp only [SM, g] at h2
  have hν : 0 < p.ν := by linarith [hp.ν]
  have h3 := mul_le_mul_of_nonneg_left h2 hν.le
  have h4 := mul_le_mul_of_nonneg_left h1 (by positivity : (0:ℝ) ≤ nf / 2)
  simp only [div_self hβ.ne']
  linarith

/-! ## The covariance types -/

theorem diagonal_inv {d : Fin nf → ℝ} (hd : (Matrix.diagonal d).PosDef) :
    (Matrix.diagonal d)⁻¹ = Matrix.diagonal fun k => (d k)⁻¹ := by
  have h := Matrix.posDef_diagonal_iff.1 hd
  refine Matrix.inv_eq_left_inv ?_
  rw [Matrix.diagonal_mul_diagonal, ← Matrix.diagonal_one]
  congr 1; funext k; exact inv_mul_cancel₀ (h k).ne'

theorem trace_diagonal_mul (d : Fin nf → ℝ) (C : Matrix (Fin nf) (Fin nf) ℝ) :
    (Matrix.diagonal d * C).trace = (Matrix.diagonal d * Matrix.diagonal C.diag).trace := by
  simp [Matrix.trace, Matrix.diagonal_mul]

theorem smul_one_inv (c : ℝ) : (c • (1 : Matrix (Fin nf) (Fin nf) ℝ))⁻¹ = c⁻¹ • (1 : Matrix (Fin nf) (Fin nf) ℝ) := by
  by_cases hc : c = 0
  · subst hc; simp
  · exact Matrix.inv_eq_left_inv (by simp [smul_smul, mul_inv_cancel₀ hc])

theorem trace_scalar_mul [NeZero nf] (c : ℝ) (C : Matrix (Fin nf) (Fin nf) ℝ) :
    (c • (1 : Matrix (Fin nf) (Fin nf) ℝ) * C).trace =
      (c • (1 : Matrix (Fin nf) (Fin nf) ℝ) * (C.trace / nf) • (1 : Matrix (Fin nf) (Fin nf) ℝ)).trace := by
  have : (nf : ℝ) ≠ 0 := by exact_mod_cast NeZero.ne nf
  simp
  field_simp

theorem share_psd (ty : CovType) {C : Fin nc → Matrix (Fin nf) (Fin nf) ℝ} (hC : ∀ i, (C i).PosSemidef)
    (i : Fin nc) : (shareScatter ty C i).PosSemidef := by
  have hd : ∀ k, 0 ≤ (C i) k k := fun k => (hC i).diag_nonneg
  cases ty with
  | full => exact hC i
  | tied => exact Matrix.posSemidef_sum _ fun j _ => hC j
  | diag => exact Matrix.posSemidef_diagonal_iff.2 fun k => hd k
  | spherical =>
    exact Matrix.PosSemidef.one.smul (div_nonneg (Finset.sum_nonneg fun k _ => hd k) (Nat.cast_nonneg _))

theorem shareCount_nonneg (ty : CovType) {N : Fin nc → ℝ} (hN : ∀ i, 0 ≤ N i) (i : Fin nc) :
    0 ≤ shareCount ty N i := by
  unfold shareCount; split
  · exact Finset.sum_nonneg fun j _ => hN j
  · exact hN i

theorem nwUpdate_proper (ty : CovType) (ps : List Char) (hT : PosLin T) {p₀ p : Fin nc → NW nf}
    (h₀ : ∀ i, (p₀ i).Proper) (hp : ∀ i, (p i).Proper) (i : Fin nc) : (nwUpdate ty ps p₀ p T i).Proper := by
  rw [nwUpdate_eq]
  refine ⟨?_, ?_, ?_⟩
  · simp only; split
    · exact βNext_pos hT h₀ i
    · exact (hp i).β
  · simp only; split
    · have := shareCount_nonneg ty (T_one_nonneg hT) i
      linarith [(h₀ i).ν]
    · exact (hp i).ν
  · simp only; split
    · exact (h₀ i).S.add_posSemidef (share_psd ty (CNext_psd hT h₀) i)
    · exact (hp i).S

theorem nwUpdate_allowed [NeZero nc] (ty : CovType) (ps : List Char) {p₀ p : Fin nc → NW nf}
    (h₀ : Allowed ty p₀) (hp : Allowed ty p) : Allowed ty (nwUpdate ty ps p₀ p T) := by
  cases ty with
  | full => trivial
  | tied =>
    intro i
    simp only [nwUpdate_eq]
    refine ⟨?_, ?_⟩
    · split
      · rw [(h₀ i).1]; simp [shareCount]
      · exact (hp i).1
    · split
      · rw [(h₀ i).2]; rfl
      · exact (hp i).2
  | diag =>
    intro i
    simp only [nwUpdate_eq]
    split
    · simp only [shareScatter]
      rw [h₀ i, Matrix.diagonal_add]
      simp
    · exact hp i
  | spherical =>
    intro i
    simp only [nwUpdate_eq]
    split
    · obtain ⟨c, hc⟩ := h₀ i
      exact ⟨c + (CNext p₀ T i).trace / nf, by rw [hc]; simp only [shareScatter, add_smul]⟩
    · exact hp i

/-- The trace against an allowed scale only sees the shared part of the scatter. -/
theorem trace_share [NeZero nc] [NeZero nf] {ty : CovType} (ht : ty ≠ .tied) {p : Fin nc → NW nf}
    (hA : Allowed ty p) (hp : ∀ i, (p i).Proper) (C : Fin nc → Matrix (Fin nf) (Fin nf) ℝ) (i : Fin nc) :
    ((p i).S⁻¹ * C i).trace = ((p i).S⁻¹ * shareScatter ty C i).trace := by
  cases ty with
  | full => rfl
  | tied => exact absurd rfl ht
  | diag =>
    have h := (hp i).S
    have hd : (p i).S = Matrix.diagonal (p i).S.diag := hA i
    rw [hd] at h ⊢
    rw [diagonal_inv h]
    exact trace_diagonal_mul _ _
  | spherical =>
    obtain ⟨c, hc⟩ := hA i
    rw [hc, smul_one_inv]
    exact trace_scalar_mul _ _

/-- What the lower bound gains from the emissions. -/
noncomputable def gaussObj [NeZero nc] (ty : CovType) (p₀ : Fin nc → NW nf)
    (T : Fin nc → ((Fin nf → ℝ) → ℝ) → ℝ) (p : Fin nc → NW nf) : ℝ :=
  ∑ i, stateObj p₀ T i (p i) - klPrecisions ty p p₀

/-- Replacing degrees of freedom and scale at the new precision and mean. -/
theorem scale_gain [NeZero nc] [NeZero nf] {ty : CovType} (hT : PosLin T) {p₀ p : Fin nc → NW nf}
    (h₀ : ∀ i, (p₀ i).Proper) (hp : ∀ i, (p i).Proper) (hA₀ : Allowed ty p₀) (hA : Allowed ty p) :
    gaussObj ty p₀ T (fun i => ⟨βNext p₀ T i, mNext p₀ T i, (p i).ν, (p i).S⟩) ≤
      gaussObj ty p₀ T (fun i => ⟨βNext p₀ T i, mNext p₀ T i,
        (p₀ i).ν + shareCount ty (fun j => T j fun _ => 1) i, (p₀ i).S + shareScatter ty (CNext p₀ T) i⟩) := by
  set N : Fin nc → ℝ := fun j => T j fun _ => 1 with hN
  set C := CNext p₀ T with hC
  have hCp := CNext_psd hT h₀
  have hS' : ∀ i, ((p₀ i).S + shareScatter ty C i).PosDef := fun i => (h₀ i).S.add_posSemidef (share_psd ty hCp i)
  have hν' : ∀ i, (nf : ℝ) - 1 < (p₀ i).ν + shareCount ty N i := fun i => by
    have := shareCount_nonneg ty (T_one_nonneg hT) i
    linarith [(h₀ i).ν]
  -- the objective of a state as a function of degrees of freedom and scale
  obtain ⟨K, obj⟩ : ∃ K : Fin nc → ℝ, ∀ i (ν : ℝ) (S : Matrix (Fin nf) (Fin nf) ℝ), (nf : ℝ) - 1 < ν → S.PosDef →
      stateObj p₀ T i ⟨βNext p₀ T i, mNext p₀ T i, ν, S⟩ =
        (N i / 2 * (∑ k : Fin nf, digamma ((ν - k) / 2) - Real.log S.det) - 1 / 2 * (ν * (S⁻¹ * C i).trace)) +
          K i := by
    refine ⟨fun i => N i * (nf / 2 * Real.log 2) -
      nf / 2 * (Real.log (βNext p₀ T i) + βNext p₀ T i / βNext p₀ T i) + nf / 2 * (Real.log (p₀ i).β + 1), ?_⟩
    intro i ν S hν hS
    rw [stateObj_eq hT h₀ i (p := ⟨βNext p₀ T i, mNext p₀ T i, ν, S⟩) ⟨βNext_pos hT h₀ i, hν, hS⟩, hC, CNext]
    ring
  unfold gaussObj
  simp only [fun i => obj i _ _ (hp i).ν (hp i).S, fun i => obj i _ _ (hν' i) (hS' i)]
  by_cases ht : ty = .tied
  · subst ht
    have hA' : ∀ i, (p i).ν = (p 0).ν ∧ (p i).S = (p 0).S := hA
    have hA₀' : ∀ i, (p₀ i).ν = (p₀ 0).ν ∧ (p₀ i).S = (p₀ 0).S := hA₀
    have g := wishart_gain (N := ∑ j, N j) (C := ∑ j, C j) (Finset.sum_nonneg fun j _ => T_one_nonneg hT j)
      (hp 0).ν (h₀ 0).ν (hp 0).S (h₀ 0).S (hS' 0)
    have e : ∀ (ν : ℝ) (S : Matrix (Fin nf) (Fin nf) ℝ),
        ∑ i, ((N i / 2 * (∑ k : Fin nf, digamma ((ν - k) / 2) - Real.log S.det) -
          1 / 2 * (ν * (S⁻¹ * C i).trace)) + K i) = ((∑ j, N j) / 2 * (∑ k : Fin nf, digamma ((ν - k) / 2) -
          Real.log S.det) - 1 / 2 * (ν * (S⁻¹ * ∑ j, C j).trace)) + ∑ i, K i := by
      intro ν S
      rw [Finset.sum_add_distrib, Finset.sum_sub_distrib, ← Finset.sum_mul, ← Finset.sum_div, Matrix.mul_sum,
        Matrix.trace_sum, Finset.mul_sum, Finset.mul_sum]
    simp only [fun i => (hA' i).1, fun i => (hA' i).2, fun i => (hA₀' i).1, fun i => (hA₀' i).2,
      shareScatter, shareCount, if_true, klPrecisions, e]
    simp only [wishartObj] at g
    linarith
  · have hk : ∀ q : Fin nc → NW nf, klPrecisions ty q p₀ =
        ∑ i, klWishart (q i).ν (q i).S (p₀ i).ν (p₀ i).S := fun q => if_neg ht
    have hn : ∀ i, shareCount ty N i = N i := fun i => if_neg ht
    rw [hk, hk, ← Finset.sum_sub_distrib, ← Finset.sum_sub_distrib]
    refine Finset.sum_le_sum fun i _ => ?_
    have g := wishart_gain (N := N i) (C := shareScatter ty C i) (T_one_nonneg hT i) (hp i).ν (h₀ i).ν (hp i).S
      (h₀ i).S (hS' i)
    have t1 := trace_share ht hA hp C i
    have hp' : ∀ i, (NW.mk (βNext p₀ T i) (mNext p₀ T i) ((p₀ i).ν + shareCount ty N i)
        ((p₀ i).S + shareScatter ty C i)).Proper := fun i => ⟨βNext_pos hT h₀ i, hν' i, hS' i⟩
    have hA' : Allowed ty fun i => (NW.mk (βNext p₀ T i) (mNext p₀ T i) ((p₀ i).ν + shareCount ty N i)
        ((p₀ i).S + shareScatter ty C i)) := by
      have := nwUpdate_allowed (T := T) ty ['m', 'c'] hA₀ hA
      have e : nwUpdate ty ['m', 'c'] p₀ p T = fun i => (NW.mk (βNext p₀ T i) (mNext p₀ T i)
          ((p₀ i).ν + shareCount ty N i) ((p₀ i).S + shareScatter ty C i)) := by
        funext i; rw [nwUpdate_eq]; simp [hN, hC]
      rwa [e] at this
    have t2 := trace_share ht hA' hp' C i
    simp only [wishartObj] at g
    rw [t1]
    simp only [hn] at t2 ⊢
    rw [t2]
    linarith

/-- **The conjugate update is the best posterior.** -/
theorem gauss_gain [NeZero nc] [NeZero nf] {ty : CovType} {ps : List Char} (hcm : 'c' ∈ ps → 'm' ∈ ps)
    (hT : PosLin T) {p₀ p : Fin nc → NW nf} (h₀ : ∀ i, (p₀ i).Proper) (hp : ∀ i, (p i).Proper)
    (hA₀ : Allowed ty p₀) (hA : Allowed ty p) :
    gaussObj ty p₀ T p ≤ gaussObj ty p₀ T (nwUpdate ty ps p₀ p T) := by
  by_cases hm : 'm' ∈ ps
  · have h1 : gaussObj ty p₀ T p ≤
        gaussObj ty p₀ T (fun i => ⟨βNext p₀ T i, mNext p₀ T i, (p i).ν, (p i).S⟩) := by
      unfold gaussObj
      have e : klPrecisions ty (fun i => (⟨βNext p₀ T i, mNext p₀ T i, (p i).ν, (p i).S⟩ : NW nf)) p₀ =
        klPrecisions ty p p₀ := rfl
      rw [e]
      have := Finset.sum_le_sum fun (i : Fin nc) (_ : i ∈ Finset.univ) => mean_gain hT h₀ i (hp i)
      linarith
    by_cases hc : 'c' ∈ ps
    · refine h1.trans ((scale_gain hT h₀ hp hA₀ hA).trans (le_of_eq ?_))
      congr 1
      funext i
      rw [nwUpdate_eq]; simp only [hm, hc, if_true]
    · refine h1.trans (le_of_eq ?_)
      congr 1
      funext i
      rw [nwUpdate_eq]; simp only [hm, hc, if_true, if_false]
  · have hc : 'c' ∉ ps := fun h => hm (hcm h)
    refine le_of_eq ?_
    congr 1
    funext i
    rw [nwUpdate_eq]; simp only [hm, hc, if_false]

end Verif.VGaussian
