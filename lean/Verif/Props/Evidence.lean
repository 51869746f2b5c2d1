import Verif.Proofs.Evidence
import Verif.Props.VObjectFit

/-!
# C84: the values in `monitor_.history` of a variational model are lower bounds of the log evidence
-/

set_option autoImplicit false

namespace Verif
open FloatLike XF Hmmc Spec MeasureTheory
open scoped Classical

variable {nc nf : ℕ}

/-! ## The evidence is a probability -/

theorem likelihood_le_sum {n : ℕ} {p : Fin nc → ℝ} {A : Fin nc → Fin nc → ℝ} {B : Fin (n + 1) → Fin nc → ℝ}
    (hp : ∀ i, 0 ≤ p i) (hA : ∀ i j, 0 ≤ A i j) (hs : ∀ i, ∑ j, A i j ≤ 1) (h0 : ∀ t i, 0 ≤ B t i)
    (h1 : ∀ t i, B t i ≤ 1) : likelihood p A B ≤ ∑ i, p i := by
  induction n generalizing p with
  | zero =>
    rw [likelihood_one]
    exact Finset.sum_le_sum fun i _ => mul_le_of_le_one_right (hp i) (h1 0 i)
  | succ n ih =>
    rw [likelihood_succ]
    have hq : ∀ i, 0 ≤ p i * B 0 i := fun i => mul_nonneg (hp i) (h0 0 i)
    refine (ih (p := push A fun i => p i * B 0 i) (fun j => Finset.sum_nonneg fun i _ => mul_nonneg (hq i) (hA i j))
      (fun t i => h0 t.succ i) fun t i => h1 t.succ i).trans ?_
    have e : ∑ j, push A (fun i => p i * B 0 i) j ≤ ∑ i, p i * B 0 i := by
      simp only [push]
      rw [Finset.sum_comm]
      exact Finset.sum_le_sum fun i _ => by
        rw [← Finset.mul_sum]; exact mul_le_of_le_one_right (hq i) (hs i)
    refine e.trans ?_
    exact Finset.sum_le_sum fun i _ => mul_le_of_le_one_right (hp i) (h1 0 i)

theorem dataLikelihood_le_one {D : Type} {p : Fin nc → ℝ} {A : Fin nc → Fin nc → ℝ} {b : D → Fin nc → ℝ}
    (hp : ∀ i, 0 ≤ p i) (hp1 : ∑ i, p i ≤ 1) (hA : ∀ i j, 0 ≤ A i j) (hs : ∀ i, ∑ j, A i j ≤ 1)
    (h0 : ∀ o i, 0 ≤ b o i) (h1 : ∀ o i, b o i ≤ 1) (ss : List (ObsSeq D)) : dataLikelihood p A b ss ≤ 1 := by
  induction ss with
  | nil => simp [dataLikelihood]
  | cons s ss ih =>
    have e : dataLikelihood p A b (s :: ss) = likelihood p A (s.weights b) * dataLikelihood p A b ss := by
      simp [dataLikelihood]
    rw [e]
    refine mul_le_one₀ ((likelihood_le_sum hp hA hs (fun t i => h0 _ _) fun t i => h1 _ _).trans hp1) ?_ ih
    exact List.prod_nonneg fun x hx => by
      obtain ⟨s, -, rfl⟩ := List.mem_map.1 hx
      exact likelihood_nonneg hp hA fun t i => h0 _ _

section
variable [NeZero nc] [NeZero nf] {sp : Fin nc → ℝ} {tp : Fin nc → Fin nc → ℝ} {ep : Fin nc → Fin nf → ℝ}
  (hsp : ∀ i, 0 < sp i) (htp : ∀ i j, 0 < tp i j) (hep : ∀ i k, 0 < ep i k)
include hsp htp hep

/-- Parameters drawn from the prior are those of a model. -/
theorem ae_catPrior : ∀ᵐ θ ∂catPrior sp tp ep, CatModel θ.1 θ.2.1 θ.2.2 := by
  have := isProbabilityMeasure_dirichlet hsp
  have := fun i => isProbabilityMeasure_dirichlet (htp i)
  have := fun i => isProbabilityMeasure_dirichlet (hep i)
  have h1 : ∀ᵐ θ ∂catPrior sp tp ep, (∀ i, 0 < θ.1 i) ∧ ∑ i, θ.1 i = 1 :=
    Measure.quasiMeasurePreserving_fst.ae (ae_dirichlet hsp)
  have h2 : ∀ᵐ θ ∂catPrior sp tp ep, ∀ i, (∀ j, 0 < θ.2.1 i j) ∧ ∑ j, θ.2.1 i j = 1 := by
    refine ae_all_iff.2 fun i => ?_
    exact Measure.quasiMeasurePreserving_snd.ae (Measure.quasiMeasurePreserving_fst.ae
      ((measurePreserving_eval (fun i => dirichlet (tp i)) i).quasiMeasurePreserving.ae (ae_dirichlet (htp i))))
  have h3 : ∀ᵐ θ ∂catPrior sp tp ep, ∀ i, (∀ k, 0 < θ.2.2 i k) ∧ ∑ k, θ.2.2 i k = 1 := by
    refine ae_all_iff.2 fun i => ?_
    exact Measure.quasiMeasurePreserving_snd.ae (Measure.quasiMeasurePreserving_snd.ae
      ((measurePreserving_eval (fun i => dirichlet (ep i)) i).quasiMeasurePreserving.ae (ae_dirichlet (hep i))))
  filter_upwards [h1, h2, h3] with θ h1 h2 h3
  exact ⟨fun i => (h1.1 i).le, fun i j => ((h2 i).1 j).le, fun i k => ((h3 i).1 k).le, h1.2.le, fun i => (h2 i).2.le,
    fun i => (h3 i).2.le⟩

/-- **C84** The evidence is a positive probability. -/
theorem C84_probability (ss : List (ObsSeq (Fin nf))) :
    0 < catEvidence sp tp ep ss ∧ catEvidence sp tp ep ss ≤ 1 := by
  have := isProbabilityMeasure_dirichlet hsp
  have := fun i => isProbabilityMeasure_dirichlet (htp i)
  have := fun i => isProbabilityMeasure_dirichlet (hep i)
  have : IsProbabilityMeasure (catPrior sp tp ep) := by unfold catPrior; infer_instance
  constructor
  · refine lt_of_lt_of_le ?_ (likelihood_le_evidence hsp htp hep hsp htp hep ss)
    exact mul_pos (dataLikelihood_pos (expWeight_pos _) (fun i j => expWeight_pos _ _)
      (fun o i => expWeight_pos _ _) ss) (Real.exp_pos _)
  · have h : ∀ᵐ θ ∂catPrior sp tp ep, dataLikelihood θ.1 θ.2.1 (catB θ.2.2) ss ≤ 1 := by
      filter_upwards [ae_catPrior hsp htp hep] with θ h
      refine dataLikelihood_le_one h.π_nonneg h.π_sum h.A_nonneg h.A_sum (fun o i => h.e_nonneg _ _)
        (fun o i => ?_) ss
      exact (Finset.single_le_sum (fun k _ => h.e_nonneg i k) (Finset.mem_univ o)).trans (h.e_sum i)
    by_cases hi : Integrable (fun θ : CatTheta nc nf => dataLikelihood θ.1 θ.2.1 (catB θ.2.2) ss) (catPrior sp tp ep)
    · refine (integral_mono_ae hi (integrable_const 1) h).trans ?_
      simp
    · rw [catEvidence, integral_undef hi]; exact zero_le_one

/-- The lower bound of any posteriors is at most the log evidence. -/
theorem catLowerBound_le {s : Fin nc → ℝ} {t : Fin nc → Fin nc → ℝ} {e : Fin nc → Fin nf → ℝ}
    (hs : ∀ i, 0 < s i) (ht : ∀ i j, 0 < t i j) (he : ∀ i k, 0 < e i k) (ss : List (ObsSeq (Fin nf))) :
    catLowerBound sp tp ep ss s t e ≤ Real.log (catEvidence sp tp ep ss) := by
  have hpos : 0 < dataLikelihood (expWeight s) (expWeights t) (catB (expWeights e)) ss :=
    dataLikelihood_pos (expWeight_pos _) (fun i j => expWeight_pos _ _) (fun o i => expWeight_pos _ _) ss
  have h := Real.log_le_log (mul_pos hpos (Real.exp_pos _)) (likelihood_le_evidence hsp htp hep hs ht he ss)
  rw [Real.log_mul hpos.ne' (Real.exp_pos _).ne', Real.log_exp] at h
  refine le_trans (le_of_eq ?_) h
  show Real.log (dataLikelihood (expWeight s) (expWeights t) (catB (expWeights e)) ss) - klDirichlet s sp
    - ∑ i, klDirichlet (t i) (tp i) - ∑ i, klDirichlet (e i) (ep i) = _
  ring

end

/-! ## What `fit` reports -/

section Run
variable [NeZero nc] [NeZero nf] {sci : Sci XF} (hsci : sci.Exact)
  {sp : Fin nc → ℝ} {tp : Fin nc → Fin nc → ℝ} {ep : Fin nc → Fin nf → ℝ}
  (hsp : ∀ i, 0 < sp i) (htp : ∀ i j, 0 < tp i j) (hep : ∀ i k, 0 < ep i k)
  (params : List Char) (impl : Impl) (nIter : ℕ) {ss : List (ObsSeq (Fin nf))} (hne : ss ≠ [])
  {s : Fin nc → ℝ} {t : Fin nc → Fin nc → ℝ} {e : Fin nc → Fin nf → ℝ}
  (hs : ∀ i, 0 < s i) (ht : ∀ i j, 0 < t i j) (he : ∀ i k, 0 < e i k)
  (sP : Option (Fin nc → ℝ)) (tP : Option (Fin nc → Fin nc → ℝ)) (eP : Option (Fin nc → Fin nf → ℝ))
  (mon : Monitor XF)
include hsci hsp htp hep hne hs ht he

/-- **C84** Every value in the history of a `fit`, whatever `params`, the implementation, the data and the
starting concentrations, is at most the logarithm of the evidence: the probability of the training data when
the parameters are drawn from the prior. In particular none is positive. -/
theorem C84_evidence :
    ∀ v ∈ (vcatFit sci sp tp ep params impl nIter ss (vcatTheta s t e sP tP eP) mon).monitor.history,
      ∃ x : ℝ, v = fin x ∧ x ≤ Real.log (catEvidence sp tp ep ss) ∧ x ≤ 0 := by
  obtain ⟨σ, τ, ε, h1, h2, h3, hup, -, -, -, hh⟩ := C53_conjugate hsci hsp htp hep params impl nIter hne hs ht he
    sP tP eP mon
  intro v hv
  rw [hh] at hv
  obtain ⟨k, -, rfl⟩ := List.mem_map.1 hv
  obtain ⟨p1, p2, p3⟩ := C53_pos hup hsp htp hep (h1 ▸ hs) (h2 ▸ ht) (h3 ▸ he) k
  have hle := catLowerBound_le hsp htp hep p1 p2 p3 ss
  obtain ⟨q1, q2⟩ := C84_probability hsp htp hep ss
  exact ⟨_, rfl, hle, hle.trans (Real.log_nonpos q1.le q2)⟩

end Run

/-- **C84** The same for `fit` called on an object: the priors are those the object has (or those the
constructor arguments stand for), the data and lengths those of the call. -/
theorem C84_object {G : Type} {R : RandomLib XF G} {sci : Sci XF} (hsci : sci.Exact) (hR : PositiveDraws R) {nf : ℕ}
    {impl : Impl} {w : World XF G (VAttrs XF (VCatAttrs XF))} (hset : VSettings w.est impl)
    (hp : ∀ c ∈ w.est.params, c ∈ ['s', 't', 'e']) (hg : VGivenCat w.est nf) {ss : List (ObsSeq (Fin nf))} (hne : ss ≠ [])
    (hnf : SymbolCount w.est ss) {ls : Option (List Int)} (hl : LengthsFor ss ls) :
    ∃ p m₀ : CatPost w.est.nComponents nf, VStartsCat w.est ss.length (samples ss).length p m₀ ∧
      ∀ v ∈ ((vcatSub sci).fit R (symbolsX (samples ss)) ls w).2.est.monitor.history,
        ∃ x : ℝ, v = fin x ∧ x ≤ Real.log (catEvidence p.s p.t p.e ss) := by
  obtain ⟨p, m₀, hm, hT⟩ := C78_categorical (sci := sci) hsci hR hset hp hg hne hnf hl
  refine ⟨p, m₀, hm, fun v hv => ?_⟩
  obtain ⟨n, m, h0, -, -, hup, -, hh, -⟩ := hT.run
  have hnc : NeZero w.est.nComponents := ⟨hset.nComponents⟩
  have hf : NeZero nf := ⟨by
    rintro rfl
    obtain ⟨o, -⟩ := List.exists_mem_of_ne_nil _ (samples_ne hne)
    exact o.elim0⟩
  rw [hh] at hv
  obtain ⟨k, -, rfl⟩ := List.mem_map.1 hv
  obtain ⟨p1, p2, p3⟩ := C53_pos hup hm.chain.sp_pos hm.chain.tp_pos hm.ep_pos (by rw [h0]; exact hm.chain.s_pos)
    (by rw [h0]; exact hm.chain.t_pos) (by rw [h0]; exact hm.e_pos) k
  exact ⟨_, rfl, catLowerBound_le hm.chain.sp_pos hm.chain.tp_pos hm.ep_pos p1 p2 p3 ss⟩

/-- **C84** (for C57)  The weights `_estep_begin` computes are `exp E[ln p_i]`, the expectation taken under the
Dirichlet distribution of the posterior. -/
theorem C84_weights {sci : Sci XF} (hsci : sci.Exact) {n : ℕ} [NeZero n] {a : Fin n → ℝ} (ha : ∀ i, 0 < a i) (i : Fin n) :
    FloatLike.exp (logSubnorm sci (fun i => fin (a i)) i) =
      fin (Real.exp (∫ p, Real.log (p i) ∂dirichlet a)) := by
  rw [logSubnorm_fin hsci ha, integral_log_dirichlet ha]
  rfl

/-- **C84** (for C54)  The point parameters are the means of the posteriors. -/
theorem C84_mean {n : ℕ} [NeZero n] {a : Fin n → ℝ} (ha : ∀ i, 0 < a i) (i : Fin n) :
    dirMean a i = ∫ p, p i ∂dirichlet a := by
  have h := integral_dirichlet ha (Pi.single i 1)
  have hA : 0 < ∑ i, a i := Finset.sum_pos (fun i _ => ha i) Finset.univ_nonempty
  have e1 : ∀ p : Fin n → ℝ, ∏ k, p k ^ (Pi.single i 1 : Fin n → ℕ) k = p i := by
    intro p
    simp [Pi.single_apply, pow_ite, Finset.prod_ite_eq']
  simp only [e1] at h
  rw [h, Finset.sum_add_distrib]
  have e2 : ∏ k, Real.Gamma (a k + ((Pi.single i 1 : Fin n → ℕ) k : ℕ)) / Real.Gamma (a k) = a i := by
    rw [Finset.prod_eq_single i]
    · simp only [Pi.single_eq_same, Nat.cast_one]
      rw [Real.Gamma_add_one (ha i).ne', mul_div_assoc, div_self (Real.Gamma_pos_of_pos (ha i)).ne', mul_one]
    · intro k _ hk
      simp [hk, (Real.Gamma_pos_of_pos (ha k)).ne']
    · simp
  have e3 : ∑ k, (((Pi.single i 1 : Fin n → ℕ) k : ℕ) : ℝ) = 1 := by
    rw [Finset.sum_eq_single i]
    · simp
    · intro k _ hk; simp [hk]
    · simp
  rw [e2, e3, Real.Gamma_add_one hA.ne', dirMean]
  have := (Real.Gamma_pos_of_pos hA).ne'
  field_simp

/-- The evidence of a single sample of symbol `k`: `Σ_i E[π_i] E[e_ik]`. -/
theorem catEvidence_single [NeZero nc] [NeZero nf] {sp : Fin nc → ℝ} {tp : Fin nc → Fin nc → ℝ}
    {ep : Fin nc → Fin nf → ℝ} (hsp : ∀ i, 0 < sp i) (htp : ∀ i j, 0 < tp i j) (hep : ∀ i k, 0 < ep i k) (k : Fin nf) :
    catEvidence sp tp ep [⟨0, fun _ => k⟩] = ∑ i, dirMean sp i * dirMean (ep i) k := by
  have := isProbabilityMeasure_dirichlet hsp
  have := fun i => isProbabilityMeasure_dirichlet (htp i)
  have := fun i => isProbabilityMeasure_dirichlet (hep i)
  have e : ∀ θ : CatTheta nc nf, dataLikelihood θ.1 θ.2.1 (catB θ.2.2) [⟨0, fun _ => k⟩] = ∑ i, θ.1 i * θ.2.2 i k := by
    intro θ
    simp only [dataLikelihood, List.map_cons, List.map_nil, List.prod_cons, List.prod_nil, mul_one]
    exact likelihood_one _ _ _
  unfold catEvidence
  simp only [e]
  rw [integral_finsetSum]
  · refine Finset.sum_congr rfl fun i _ => ?_
    unfold catPrior
    rw [integral_prod_mul (fun x : Fin nc → ℝ => x i) fun x : (Fin nc → Fin nc → ℝ) × (Fin nc → Fin nf → ℝ) => x.2 i k,
      C84_mean hsp, C84_mean (hep i)]
    congr 1
    rw [integral_fun_snd fun x : Fin nc → Fin nf → ℝ => x i k]
    simp only [probReal_univ, one_smul]
    rw [← (measurePreserving_eval (fun i => dirichlet (ep i)) i).map_eq]
    have hm : AEStronglyMeasurable (fun x : Fin nf → ℝ => x k)
        ((Measure.pi fun i => dirichlet (ep i)).map fun x : Fin nc → Fin nf → ℝ => x i) :=
      (measurable_pi_apply k).aestronglyMeasurable
    have ha : AEMeasurable (fun x : Fin nc → Fin nf → ℝ => x i) (Measure.pi fun i => dirichlet (ep i)) :=
      (measurable_pi_apply i).aemeasurable
    exact (integral_map ha hm).symm
  · intro i _
    obtain ⟨c, hc⟩ := (IsMono.start (nf := nf) i).mul (IsMono.emit i k)
    rw [hc]
    exact integrable_mono hsp htp hep c

/-! ## Concrete cases -/

/-- Two states, two symbols, priors `(1, 1)`, `(1, 3)` for the symbols of the first and `(1, 1)` for those of the
second: the first symbol has evidence `3/8`. -/
example : catEvidence (fun _ : Fin 2 => 1) (fun _ _ => 1) ![![1, 3], ![1, 1]] [⟨0, fun _ => 0⟩] = 3 / 8 := by
  rw [catEvidence_single (fun _ => one_pos) (fun _ _ => one_pos)
    (by intro i k; fin_cases i <;> fin_cases k <;> norm_num)]
  norm_num [Fin.sum_univ_succ, dirMean]

example (mon : Monitor XF) : ∀ v ∈ (VDemo.out ['s', 't', 'e'] .log mon).monitor.history, ∃ x : ℝ, v = fin x ∧
    x ≤ Real.log (catEvidence (fun _ : Fin 2 => 1/2) (fun _ _ => 1/2) (fun _ (_ : Fin 3) => 1/3) VDemo.data) ∧ x ≤ 0 :=
  C84_evidence Sci.real_exact (fun _ => by norm_num) (fun _ _ => by norm_num) (fun _ _ => by norm_num) _ _ _
    (by simp [VDemo.data]) VDemo.s_pos VDemo.t_pos VDemo.e_pos _ _ _ _

example : FloatLike.exp (logSubnorm Sci.real (fun i => fin ((![1/2, 3] : Fin 2 → ℝ) i)) 1) =
    fin (Real.exp (∫ p, Real.log (p 1) ∂dirichlet ![1/2, 3])) :=
  C84_weights Sci.real_exact (by intro i; fin_cases i <;> norm_num) 1

example : ∫ p, p 1 ∂dirichlet ![(1/2 : ℝ), 3/2] = 3 / 4 := by
  rw [← C84_mean (by intro i; fin_cases i <;> norm_num)]
  norm_num [Fin.sum_univ_succ, dirMean]

end Verif
