import Verif.Props.GaussEvidence

/-!
# Models with one component: the conjugate update is the exact posterior
-/

set_option autoImplicit false

namespace Verif
open FloatLike XF Hmmc Spec MeasureTheory Gaussian VGaussian
open scoped Classical

section Any
variable {D : Type}

theorem joint_one {n : ℕ} (π : Fin 1 → ℝ) (A : Fin 1 → Fin 1 → ℝ) (B : Fin (n + 1) → Fin 1 → ℝ) (z : Fin (n + 1) → Fin 1) :
    joint π A B z = π 0 * A 0 0 ^ n * ∏ t, B t 0 := by
  obtain rfl : z = fun _ => 0 := Subsingleton.elim _ _
  simp [joint]

theorem likelihood_single {n : ℕ} (π : Fin 1 → ℝ) (A : Fin 1 → Fin 1 → ℝ) (B : Fin (n + 1) → Fin 1 → ℝ) :
    likelihood π A B = π 0 * A 0 0 ^ n * ∏ t, B t 0 := by
  simp only [likelihood, joint_one]
  simp

theorem posterior_single {n : ℕ} {π : Fin 1 → ℝ} {A : Fin 1 → Fin 1 → ℝ} {B : Fin (n + 1) → Fin 1 → ℝ}
    (h : likelihood π A B ≠ 0) (t : Fin (n + 1)) (i : Fin 1) : posterior π A B t i = 1 := by
  have e : stateMass π A B t i = likelihood π A B := by
    rw [stateMass, likelihood]
    refine Finset.sum_congr ?_ fun _ _ => rfl
    ext z
    simp [Subsingleton.elim (z t) i]
  rw [posterior, e, div_self h]

theorem obsStat_single {π : Fin 1 → ℝ} {A : Fin 1 → Fin 1 → ℝ} {b : D → Fin 1 → ℝ} {ss : List (ObsSeq D)}
    (h : ∀ s ∈ ss, likelihood π A (s.weights b) ≠ 0) (i : Fin 1) (f : D → ℝ) :
    obsStat π A b ss i f = ((samples ss).map f).sum := by
  induction ss with
  | nil => rfl
  | cons s ss ih =>
    have h1 : ∑ t, posterior π A (s.weights b) t i * f (s.x t) = ((List.ofFn s.x).map f).sum := by
      rw [List.map_ofFn, List.sum_ofFn]
      exact Finset.sum_congr rfl fun t _ => by
        rw [posterior_single (h s (List.mem_cons_self ..)), one_mul]; rfl
    have e : obsStat π A b (s :: ss) i f = ∑ t, posterior π A (s.weights b) t i * f (s.x t) + obsStat π A b ss i f := by
      simp [obsStat]
    rw [e, h1, ih fun s hs => h s (List.mem_cons_of_mem _ hs), samples, samples, List.map_cons, List.flatten_cons,
      List.map_append, List.sum_append]

/-- The one assignment of the samples to the states. -/
def oneAssign (ss : List (ObsSeq D)) : Assign 1 D :=
  ⟨fun _ => ss.length, fun _ _ => (ss.map fun s => s.n).sum, fun _ => samples ss⟩

theorem dataLikelihood_single (π : Fin 1 → ℝ) (A : Fin 1 → Fin 1 → ℝ) (b : D → Fin 1 → ℝ) (ss : List (ObsSeq D)) :
    dataLikelihood π A b ss = (oneAssign ss).probs π A * emits (oneAssign ss).e b := by
  simp only [oneAssign, Assign.probs, emits, Fin.prod_univ_one, Fin.isValue]
  induction ss with
  | nil => simp [dataLikelihood, samples]
  | cons s ss ih =>
    have e : dataLikelihood π A b (s :: ss) = likelihood π A (s.weights b) * dataLikelihood π A b ss := by
      simp [dataLikelihood]
    have h1 : ∏ t, s.weights b t 0 = ((List.ofFn s.x).map fun x => b x 0).prod := by
      rw [List.map_ofFn, List.prod_ofFn]; rfl
    have h2 : ((samples (s :: ss)).map fun x => b x 0).prod =
        ((List.ofFn s.x).map fun x => b x 0).prod * ((samples ss).map fun x => b x 0).prod := by
      rw [samples, samples, List.map_cons, List.flatten_cons, List.map_append, List.prod_append]
    rw [e, ih, likelihood_single, h1, h2]
    simp only [List.length_cons, List.map_cons, List.sum_cons, pow_add, pow_one]
    ring

theorem expWeight_one (a : Fin 1 → ℝ) (i : Fin 1) : expWeight a i = 1 := by
  obtain rfl : i = 0 := Subsingleton.elim _ _
  simp [expWeight]

theorem klDirichlet_one (q p : Fin 1 → ℝ) : klDirichlet q p = 0 := by simp [klDirichlet]

theorem moment_one {a : Fin 1 → ℝ} (ha : ∀ i, 0 < a i) (k : Fin 1 → ℕ) : ∫ x, ∏ i, x i ^ k i ∂dirichlet a = 1 := by
  rw [integral_dirichlet ha]
  have h1 := (Real.Gamma_pos_of_pos (ha 0)).ne'
  have h2 : Real.Gamma (a 0 + k 0) ≠ 0 := (Real.Gamma_pos_of_pos (by have := ha 0; positivity)).ne'
  simp only [Fin.prod_univ_one, Fin.sum_univ_one, Fin.isValue]
  field_simp

end Any

/-! ## Normal emissions -/

section Gauss
variable {nf : ℕ} [NeZero nf] {ty : CovType} {p₀ : Fin 1 → NW nf}

/-- The types for which the posterior of one component is in the family. -/
theorem share_single (h : ty = .full ∨ ty = .tied ∨ nf = 1) (C : Fin 1 → Matrix (Fin nf) (Fin nf) ℝ) (i : Fin 1) :
    shareScatter ty C i = C i := by
  obtain rfl : i = 0 := Subsingleton.elim _ _
  rcases h with rfl | rfl | rfl
  · rfl
  · simp [shareScatter]
  · cases ty with
    | full => rfl
    | tied => simp [shareScatter]
    | diag =>
      ext k l
      obtain rfl : k = 0 := Subsingleton.elim _ _
      obtain rfl : l = 0 := Subsingleton.elim _ _
      simp [shareScatter]
    | spherical =>
      ext k l
      obtain rfl : k = 0 := Subsingleton.elim _ _
      obtain rfl : l = 0 := Subsingleton.elim _ _
      simp [shareScatter, Matrix.trace]

theorem gaussObj_single (h : ty = .full ∨ ty = .tied ∨ nf = 1) {T : Fin 1 → ((Fin nf → ℝ) → ℝ) → ℝ} (hT : PosLin T)
    (h₀ : ∀ i, (p₀ i).Proper) {ps : List Char} (hm : 'm' ∈ ps) (hc : 'c' ∈ ps) (p : Fin 1 → NW nf) :
    gaussObj ty p₀ T (nwUpdate ty ps p₀ p T) =
      logZs ty p₀ T + ∑ i, ((T i fun _ => 1) * (nf / 2 * Real.log 2) + meanConst p₀ T i) := by
  have hβ := βNext_pos hT h₀ 0
  have hN := T_one_nonneg hT 0
  have hS : ((p₀ 0).S + CNext p₀ T 0).PosDef := (h₀ 0).S.add_posSemidef (CNext_psd hT h₀ 0)
  have hk : ∀ q : Fin 1 → NW nf, klPrecisions ty q p₀ = klWishart (q 0).ν (q 0).S (p₀ 0).ν (p₀ 0).S := fun q => by
    simp [klPrecisions]
  have hz : logZs ty p₀ T = logZ (p₀ 0).ν (p₀ 0).S (T 0 fun _ => 1) (CNext p₀ T 0) := by simp [logZs]
  have hu : nwUpdate ty ps p₀ p T 0 = ⟨βNext p₀ T 0, mNext p₀ T 0, (p₀ 0).ν + T 0 fun _ => 1, (p₀ 0).S + CNext p₀ T 0⟩ := by
    rw [nwUpdate_eq]
    simp [hm, hc, share_single h, shareCount]
  have hp : (⟨βNext p₀ T 0, mNext p₀ T 0, (p₀ 0).ν + T 0 fun _ => 1, (p₀ 0).S + CNext p₀ T 0⟩ : NW nf).Proper :=
    ⟨hβ, by have := (h₀ 0).ν; simp only; linarith, hS⟩
  rw [gaussObj, hk, hz, Fin.sum_univ_one, Fin.sum_univ_one, hu, stateObj_eq hT h₀ 0 hp]
  simp only [div_self hβ.ne']
  have hC : (p₀ 0).β • Matrix.vecMulVec (mNext p₀ T 0 - (p₀ 0).m) (mNext p₀ T 0 - (p₀ 0).m) + scat T 0 (mNext p₀ T 0) =
    CNext p₀ T 0 := rfl
  have ht : ((p₀ 0).S * ((p₀ 0).S + CNext p₀ T 0)⁻¹).trace = nf - (((p₀ 0).S + CNext p₀ T 0)⁻¹ * CNext p₀ T 0).trace := by
    rw [eq_sub_iff_add_eq, Matrix.trace_mul_comm _ (CNext p₀ T 0), ← Matrix.trace_add, ← Matrix.add_mul,
      Matrix.mul_nonsing_inv _ (det_pos hS).ne'.isUnit, Matrix.trace_one, Fintype.card_fin]
  rw [hC]
  simp only [klWishart, logZ, meanConst]
  rw [Real.log_div (det_pos hS).ne' (det_pos (h₀ 0).S).ne', ht]
  simp only [Finset.sum_add_distrib, Finset.sum_sub_distrib, ← Finset.mul_sum]
  ring

variable {sp : Fin 1 → ℝ} {tp : Fin 1 → Fin 1 → ℝ}

omit [NeZero nf] in
theorem gaussBoundary_single (hsp : ∀ i, 0 < sp i) (htp : ∀ i j, 0 < tp i j) (h₀ : ∀ i, (p₀ i).Proper)
    (ss : List (ObsSeq (Fin nf → ℝ))) :
    gaussBoundary ty sp tp p₀ ss = logEmits ty p₀ (oneAssign ss).e + (samples ss).length * (nf / 2 * Real.log (2 * Real.pi)) := by
  have he := gaussEvidence_eq hsp htp h₀ (l := [oneAssign ss]) (ss := ss)
    (fun π A b => by rw [dataLikelihood_single]; simp) ty
  have hm : meanProbs sp tp (oneAssign ss) = 1 := by
    rw [meanProbs, moment_one hsp]
    simp only [fun i => moment_one (htp i) ((oneAssign ss).t i), Finset.prod_const_one, mul_one]
  have hn : numSamples ss = (samples ss).length := by
    simp [numSamples, samples, Function.comp_def]
  rw [gaussBoundary, he]
  simp only [List.map_cons, List.map_nil, List.sum_cons, List.sum_nil, add_zero, hm, one_mul]
  rw [ENNReal.toReal_ofReal (Real.exp_pos _).le, Real.log_exp, hn]

omit [NeZero nf] in
theorem gaussLowerBound_single (s : Fin 1 → ℝ) (t : Fin 1 → Fin 1 → ℝ) (p : Fin 1 → NW nf) (ss : List (ObsSeq (Fin nf → ℝ))) :
    gaussLowerBound ty sp tp p₀ ss s t p = gaussObj ty p₀ (hard (oneAssign ss).e) p := by
  have h1 : dataLikelihood (expWeight s) (fun i => expWeight (t i)) (nwB p) ss =
      Real.exp (hard (oneAssign ss).e 0 fun x => Real.log ((p 0).weight x)) := by
    rw [dataLikelihood_single, ← exp_hard (oneAssign ss).e 0 fun x => weight_pos _ _]
    simp [Assign.probs, expWeight_one, emits, nwB]
  rw [gaussLowerBound, lowerBound, h1, Real.log_exp]
  simp only [klDirichlet_one, gaussObj, stateObj, klGauss, Fin.sum_univ_one, Fin.isValue]
  ring

omit [NeZero nf] in
theorem obsStat_hard (s : Fin 1 → ℝ) (t : Fin 1 → Fin 1 → ℝ) (p : Fin 1 → NW nf) (ss : List (ObsSeq (Fin nf → ℝ))) :
    obsStat (expWeight s) (fun i => expWeight (t i)) (nwB p) ss = hard (oneAssign ss).e := by
  funext i f
  rw [obsStat_single]
  · rfl
  · intro s' _
    exact (likelihood_pos_of_pos (b := nwB p) (expWeight_pos _) (fun i j => expWeight_pos _ _) (fun _ _ => weight_pos _ _) s').ne'

/-- After an update of means and covariances the lower bound is the log evidence. -/
theorem gaussLowerBound_exact (h : ty = .full ∨ ty = .tied ∨ nf = 1) (hsp : ∀ i, 0 < sp i) (htp : ∀ i j, 0 < tp i j)
    (h₀ : ∀ i, (p₀ i).Proper) {ps : List Char} (hm : 'm' ∈ ps) (hc : 'c' ∈ ps) (ss : List (ObsSeq (Fin nf → ℝ)))
    (s' : Fin 1 → ℝ) (t' : Fin 1 → Fin 1 → ℝ) (p : Fin 1 → NW nf) :
    gaussLowerBound ty sp tp p₀ ss s' t' (nwUpdate ty ps p₀ p (hard (oneAssign ss).e)) = gaussBoundary ty sp tp p₀ ss := by
  rw [gaussLowerBound_single, gaussObj_single h (hard_posLin _) h₀ hm hc, gaussBoundary_single hsp htp h₀, logEmits]
  simp only [Fin.sum_univ_one, Fin.isValue, hard_one]
  simp only [oneAssign]
  ring

end Gauss

/-! ## Symbols -/

section Cat
variable {nf : ℕ}

theorem sum_indicator (l : List (Fin nf)) (v : Fin nf) : (l.map fun x => if x = v then (1 : ℝ) else 0).sum = l.count v := by
  induction l with
  | nil => simp
  | cons a l ih =>
    rw [List.map_cons, List.sum_cons, ih, List.count_cons]
    by_cases h : a = v
    · simp [h, add_comm]
    · simp [h]

theorem emitCount_single (s : Fin 1 → ℝ) (t : Fin 1 → Fin 1 → ℝ) (e : Fin 1 → Fin nf → ℝ) (ss : List (ObsSeq (Fin nf)))
    (i : Fin 1) (v : Fin nf) :
    emitCount (expWeight s) (expWeights t) (expWeights e) ss i v = (samples ss).count v := by
  rw [← sum_indicator, ← obsStat_single (π := expWeight s) (A := expWeights t) (b := catB (expWeights e)) (i := i)]
  · simp only [emitCount, obsStat, mul_ite, mul_one, mul_zero]
  · intro s' _
    exact (likelihood_pos_of_pos (expWeight_pos _) (fun i j => expWeight_pos _ _) (fun _ _ => expWeight_pos _ _) s').ne'

/-- How often each parameter occurs. -/
def oneExps (ss : List (ObsSeq (Fin nf))) : Exps 1 nf :=
  ⟨(oneAssign ss).s, (oneAssign ss).t, fun _ v => (samples ss).count v⟩

theorem dataLikelihood_exps (θ : CatTheta 1 nf) (ss : List (ObsSeq (Fin nf))) :
    dataLikelihood θ.1 θ.2.1 (catB θ.2.2) ss = (oneExps ss).val θ := by
  have h : ((samples ss).map fun x => θ.2.2 0 x).prod = ∏ v, θ.2.2 0 v ^ (samples ss).count v := by
    rw [Finset.prod_list_map_count]
    refine Finset.prod_subset (Finset.subset_univ _) fun v _ hv => ?_
    rw [List.mem_toFinset] at hv
    rw [List.count_eq_zero_of_not_mem hv, pow_zero]
  rw [dataLikelihood_single, Assign.probs, emits, Exps.val]
  simp only [Fin.prod_univ_one, Fin.isValue, oneExps, catB, ← h, mul_assoc]
  rfl

/-- Prior plus counts: the lower bound is the log evidence. -/
theorem catLowerBound_exact [NeZero nf] {sp : Fin 1 → ℝ} {tp : Fin 1 → Fin 1 → ℝ} {ep : Fin 1 → Fin nf → ℝ}
    (hsp : ∀ i, 0 < sp i) (htp : ∀ i j, 0 < tp i j) (hep : ∀ i k, 0 < ep i k) (ss : List (ObsSeq (Fin nf)))
    (s' : Fin 1 → ℝ) (t' : Fin 1 → Fin 1 → ℝ) :
    catLowerBound sp tp ep ss s' t' (fun i v => ep i v + ((samples ss).count v : ℝ)) = Real.log (catEvidence sp tp ep ss) := by
  have hp := hep 0
  have hs : ∀ v, 0 < ep 0 v + ((samples ss).count v : ℝ) := fun v => add_pos_of_pos_of_nonneg (hp v) (Nat.cast_nonneg _)
  have hP : 0 < ∑ i, ep 0 i := Finset.sum_pos (fun i _ => hp i) Finset.univ_nonempty
  have hB : 0 < ∑ i, (ep 0 i + ((samples ss).count i : ℝ)) := Finset.sum_pos (fun i _ => hs i) Finset.univ_nonempty
  have e1 : catEvidence sp tp ep ss = (∏ v, Real.Gamma (ep 0 v + ((samples ss).count v : ℝ)) / Real.Gamma (ep 0 v)) *
      (Real.Gamma (∑ v, ep 0 v) / Real.Gamma (∑ v, (ep 0 v + ((samples ss).count v : ℝ)))) := by
    rw [catEvidence]
    simp only [dataLikelihood_exps]
    rw [integral_mono hsp htp hep, moment_one hsp, one_mul, Finset.prod_congr rfl fun i _ => moment_one (htp i) ((oneExps ss).t i),
      Finset.prod_const_one, one_mul, Fin.prod_univ_one, integral_dirichlet (hep 0)]
    rfl
  have e2 : dataLikelihood (expWeight s') (fun i => expWeight (t' i))
      (catB (expWeights fun i v => ep i v + ((samples ss).count v : ℝ))) ss =
      Real.exp (∑ v, ((samples ss).count v : ℝ) * (digamma (ep 0 v + ((samples ss).count v : ℝ)) -
        digamma (∑ k, (ep 0 k + ((samples ss).count k : ℝ))))) := by
    rw [dataLikelihood_exps (expWeight s', (fun i => expWeight (t' i)), (expWeights fun i v => ep i v + ((samples ss).count v : ℝ))),
      Exps.val, Real.exp_sum]
    simp only [expWeight_one, one_pow, Finset.prod_const_one, one_mul, Fin.prod_univ_one, Fin.isValue, oneExps, expWeights]
    exact Finset.prod_congr rfl fun v _ => by rw [expWeight, ← Real.exp_nat_mul]
  have hc : 0 < ∏ v, Real.Gamma (ep 0 v + ((samples ss).count v : ℝ)) / Real.Gamma (ep 0 v) :=
    Finset.prod_pos fun i _ => div_pos (Real.Gamma_pos_of_pos (hs i)) (Real.Gamma_pos_of_pos (hp i))
  rw [catLowerBound, lowerBound, e2, Real.log_exp, e1, Real.log_mul hc.ne' (div_pos (Real.Gamma_pos_of_pos hP)
    (Real.Gamma_pos_of_pos hB)).ne', Real.log_div (Real.Gamma_pos_of_pos hP).ne' (Real.Gamma_pos_of_pos hB).ne',
    Real.log_prod fun i _ => (div_pos (Real.Gamma_pos_of_pos (hs i)) (Real.Gamma_pos_of_pos (hp i))).ne']
  have e3 : ∀ v, Real.log (Real.Gamma (ep 0 v + ((samples ss).count v : ℝ)) / Real.Gamma (ep 0 v)) =
      lnGamma (ep 0 v + ((samples ss).count v : ℝ)) - lnGamma (ep 0 v) :=
    fun i => Real.log_div (Real.Gamma_pos_of_pos (hs i)).ne' (Real.Gamma_pos_of_pos (hp i)).ne'
  simp only [e3, klDirichlet_one, Fin.sum_univ_one, Fin.isValue, klDirichlet, lnGamma, add_sub_cancel_left]
  simp only [Finset.sum_sub_distrib]
  ring

end Cat

end Verif
