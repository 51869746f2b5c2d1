import Verif.Proofs.SampleScore
import Verif.Props.GmmObjects

/-!
# C87: `sample` draws from the law whose density `score` evaluates
-/

set_option autoImplicit false

namespace Verif
open FloatLike XF MeasureTheory Spec
open scoped ENNReal

namespace Spec

/-- A generator whose state has the law `P`: `rand` returns numbers uniform on `[0, 1)` and a state with the
law `P` independent of the number. -/
structure IdealRand {G : Type} [MeasurableSpace G] (P : Measure G) (R : RandomLib XF G) (u : G → ℝ) (nx : G → G) : Prop where
  rand : ∀ g, R.rand g = (.fin (u g), nx g)
  law : Draws P (fun g => (u g, nx g)) uniform

/-- The object of the claim: its probabilities add up to exactly one, it uses the logarithmic implementation
and the global generator. -/
structure Exact {G Q : Type} (e : Est XF G Q) (π : Fin e.nComponents → ℝ) (A : Fin e.nComponents → Fin e.nComponents → ℝ) :
    Prop where
  π_sum : ∑ i, π i = 1
  A_sum : ∀ i, ∑ j, A i j = 1
  impl : e.implementation = "log"
  global : e.randomState = .none

/-- `multivariate_normal` draws from the normal distribution. -/
def DrawsNormal {G : Type} [MeasurableSpace G] {nf : ℕ} [MeasurableSpace (Fin nf → XF)] (P : Measure G)
    (R : RandomLib XF G) (m : Fin nf → ℝ) (S : Matrix (Fin nf) (Fin nf) ℝ) : Prop :=
  Draws P (R.normal (fun k => fin (m k)) fun k l => fin (S k l)) ((mvnLaw m S).map Gaussian.row)

end Spec

/-! ## Discrete laws -/

theorem eq_count_density {D : Type} [MeasurableSpace D] [MeasurableSingletonClass D] [Countable D] {μ : Measure D}
    {f : D → ℝ≥0∞} (h : ∀ x, μ {x} = f x) : μ = Measure.count.withDensity f := by
  refine Measure.ext_of_singleton fun x => ?_
  rw [withDensity_apply _ (measurableSet_singleton x), Measure.restrict_singleton, lintegral_smul_measure, lintegral_dirac,
    Measure.count_singleton, one_smul, h]

theorem prob_of_map {D O : Type} [MeasurableSpace D] [MeasurableSpace O] {μ : Measure D} {f : D → O} (hf : Measurable f)
    (h : IsProbabilityMeasure (μ.map f)) : IsProbabilityMeasure μ := by
  refine ⟨?_⟩
  have := h.measure_univ
  rwa [Measure.map_apply hf MeasurableSet.univ, Set.preimage_univ] at this

theorem IdealSampler.congr {G Obs : Type} [MeasurableSpace G] [MeasurableSpace Obs] {P : Measure G} {R : RandomLib XF G} {nc : ℕ}
    {em : Fin nc → G → Except PyErr Obs × G} {u : G → ℝ} {nx : G → G} {xo : Fin nc → G → Obs} {gx : Fin nc → G → G}
    {μ μ' : Fin nc → Measure Obs} (h : IdealSampler P R em u nx xo gx μ) (e : ∀ i, μ' i = μ i) :
    IdealSampler P R em u nx xo gx μ' := by rwa [funext e]

theorem embedding_discrete {D O : Type} [MeasurableSpace D] [MeasurableSpace O] [MeasurableSingletonClass D]
    [MeasurableSingletonClass O] [Countable D] {f : D → O} (hf : Function.Injective f) : MeasurableEmbedding f :=
  ⟨hf, measurable_of_countable f, fun s _ => (s.to_countable.image f).measurableSet⟩

variable {G : Type} [MeasurableSpace G] {P : Measure G} [IsProbabilityMeasure P] {R : RandomLib XF G} {u : G → ℝ}
  {nx : G → G} {nf : ℕ}

instance : MeasurableSpace ((catSub (α := XF) (G := G)).Obs nf) := inferInstanceAs (MeasurableSpace ℤ)
instance : MeasurableSpace ((multiSub (α := XF) (G := G)).Obs nf) := inferInstanceAs (MeasurableSpace (Fin nf → ℤ))
instance : MeasurableSpace ((poisSub (α := XF) (G := G)).Obs nf) := inferInstanceAs (MeasurableSpace (Fin nf → ℤ))

/-- **C87** `CategoricalHMM`. -/
theorem C87_categorical (hR : IdealRand P R u nx) (e : Est XF G (CatAttrs XF)) (π : Fin e.nComponents → ℝ)
    (A : Fin e.nComponents → Fin e.nComponents → ℝ) (B : Fin e.nComponents → Fin nf → ℝ) (h : HoldsCat e π A B)
    (hx : Exact e π A) (hB : ∀ i, ∑ k, B i k = 1) :
    SampleMatchesScore P (fun n g => rowsOf (O := (catSub (α := XF) (G := G)).Obs) nf (catSub.sample R n none none ⟨e, g⟩).1)
      (fun l => (catSub.score (symbolsX l) none e).1) (Categorical.sym (nf := nf)) Measure.count := by
  have h0 := nc_pos h.chain.π_sum
  have : NeZero e.nComponents := ⟨h0⟩
  have : NeZero nf := ⟨by
    rintro rfl
    have := hB ⟨0, Nat.pos_of_ne_zero h0⟩
    simp at this⟩
  have hs : e.startprob.isSome := by rw [h.chain.startprob]; rfl
  obtain ⟨h1, h2, -⟩ := C30_categorical e B h.chain.base hs h.emissionprob
  have hok := h1.2 ⟨rfl, by
    cases hn : e.nFeatures with
    | none => rfl
    | some n => exact (h.features n hn).symm, h.sum⟩
  have : ∀ i, IsProbabilityMeasure (uniform.map (pick (B i))) := fun i =>
    Measure.isProbabilityMeasure_map (measurable_pick _).aemeasurable
  refine matches_of (S := catSub) h.chain hx.π_sum hx.A_sum hx.impl hx.global
    (h.chain.fitted.symm.trans (Prod.ext hok (h2 hok))) (asMat_mat B) (C71_categorical e π A B h) (u := u) (nx := nx)
    (law := fun i => uniform.map (pick (B i)))
    (xo := fun z g => ((pick (B z) (u g)).val : ℤ)) (gx := fun _ => nx) ?_
    (embedding_discrete (O := ℤ) fun a b hab => Fin.ext (by simpa [Categorical.sym] using hab)) (fun x i => h.nonneg i x)
    (fun i => measurable_of_countable _) fun i => eq_count_density fun k => ?_
  · exact IdealSampler.congr (Obs := ℤ) (cat_ideal hR.rand hR.law _ B) fun i =>
      Measure.map_map (measurable_of_countable _) (measurable_pick _)
  · rw [Measure.map_apply (measurable_pick _) (measurableSet_singleton _)]
    exact uniform_pick (h.nonneg i) (hB i) k

/-! ## Counts -/

/-- The Poisson distribution on the natural numbers. -/
noncomputable def poissonNat (l : ℝ) : Measure ℕ := Measure.sum fun k : ℕ => ENNReal.ofReal (poissonPmf l k) • Measure.dirac k

theorem poissonNat_map (l : ℝ) : (poissonNat l).map (fun k : ℕ => (k : ℤ)) = poissonLaw l := by
  ext s hs
  rw [Measure.map_apply (measurable_of_countable _) hs]
  unfold poissonNat poissonLaw
  rw [Measure.sum_apply _ hs, Measure.sum_apply _ (hs.preimage (measurable_of_countable _))]
  refine tsum_congr fun k => ?_
  simp only [Measure.smul_apply]
  rw [Measure.dirac_apply' _ hs, Measure.dirac_apply' _ (hs.preimage (measurable_of_countable _))]
  rfl

theorem poissonNat_prob {l : ℝ} (hl : 0 ≤ l) : IsProbabilityMeasure (poissonNat l) := by
  have := poissonLaw_univ hl
  rw [← poissonNat_map] at this
  exact prob_of_map (measurable_of_countable _) this

theorem poissonNat_singleton (l : ℝ) (k : ℕ) : poissonNat l {k} = ENNReal.ofReal (poissonPmf l k) := by
  rw [← poissonLaw_singleton, ← poissonNat_map, Measure.map_apply (measurable_of_countable _) (measurableSet_singleton _)]
  congr 1
  ext j
  simp

/-- **C87** `PoissonHMM`. -/
theorem C87_poisson (hR : IdealRand P R u nx) (hP : ∀ l : ℝ, 0 ≤ l → Draws P (R.poisson (fin l)) (poissonLaw l)) (hf : nf ≠ 0)
    (e : Est XF G (PoisAttrs XF)) (π : Fin e.nComponents → ℝ) (A : Fin e.nComponents → Fin e.nComponents → ℝ)
    (l : Fin e.nComponents → Fin nf → ℝ) (h : HoldsPois e π A l) (hx : Exact e π A) :
    SampleMatchesScore P (fun n g => rowsOf (O := (poisSub (α := XF) (G := G)).Obs) nf (poisSub.sample R n none none ⟨e, g⟩).1)
      (fun l => (poisSub.score (countsX l) none e).1) (Poisson.row (nf := nf)) Measure.count := by
  have : NeZero e.nComponents := ⟨nc_pos h.chain.π_sum⟩
  have hc : poisSub.checkSub e = (.ok (), { e with nFeatures := some nf, sub := { e.sub with lambdas := some (mat l) } }) := by
    have hn : e.nFeatures.getD nf = nf := by
      cases hn : e.nFeatures with
      | none => rfl
      | some n => exact h.features n hn
    have hsh : (mat l).shape = [e.nComponents, nf] := rfl
    have ha : atleast2d (mat l) = mat l := rfl
    simp [poisSub, poisCheck, h.lambdas, ha, hsh, hn]
  have : ∀ i k, IsProbabilityMeasure (poissonNat (l i k)) := fun i k => poissonNat_prob (h.nonneg i k)
  have : ∀ i k, IsProbabilityMeasure (poissonLaw (l i k)) := fun i k => poissonLaw_univ (h.nonneg i k)
  have h0 : ∀ (l : ℝ) (k : ℕ), 0 ≤ l → 0 ≤ poissonPmf l k := fun l k h => by unfold poissonPmf; positivity
  refine matches_of (S := poisSub) h.chain hx.π_sum hx.A_sum hx.impl hx.global hc (asMat_mat l) (C71_poisson hf e π A l h)
    (u := u) (nx := nx) (law := fun i => Measure.pi fun k => poissonNat (l i k))
    (xo := fun i g => (poissonVec R (fun k => XF.fin (l i k)) g).1)
    (gx := fun i g => (poissonVec R (fun k => XF.fin (l i k)) g).2) ?_
    (embedding_discrete (O := Fin nf → ℤ) fun a b hab => funext fun k => by simpa [Poisson.row] using congrFun hab k)
    (fun x i => Finset.prod_nonneg fun k _ => h0 _ _ (h.nonneg i k)) (fun i => measurable_of_countable _)
    fun i => eq_count_density fun x => ?_
  · refine IdealSampler.congr (Obs := Fin nf → ℤ) (μ := fun i => Measure.pi fun k => poissonLaw (l i k))
      { rand_eq := hR.rand, rand_law := hR.law, em_eq := fun _ _ => rfl
        em_law := fun i => poissonVec_law hP (l i) (h.nonneg i) } fun i => ?_
    simp only [← poissonNat_map]
    rw [← Measure.pi_map_pi fun k => (measurable_of_countable _).aemeasurable]
    rfl
  · rw [Measure.pi_singleton]
    simp only [poissonNat_singleton]
    rw [← ENNReal.ofReal_prod_of_nonneg fun k _ => h0 _ _ (h.nonneg i k)]
    rfl

/-- The multinomial distribution on vectors of natural numbers. -/
noncomputable def multinomialNat (N : ℕ) (p : Fin nf → ℝ) : Measure (Fin nf → ℕ) :=
  Measure.sum fun x : Fin nf → ℕ => (if ∑ k, x k = N then ENNReal.ofReal (multinomialPmf p x) else 0) • Measure.dirac x

theorem multinomialNat_map (N : ℕ) (p : Fin nf → ℝ) : (multinomialNat N p).map Multinomial.row = multinomialLaw N p := by
  ext s hs
  rw [Measure.map_apply (measurable_of_countable _) hs]
  unfold multinomialNat multinomialLaw
  rw [Measure.sum_apply _ hs, Measure.sum_apply _ (hs.preimage (measurable_of_countable _))]
  refine tsum_congr fun k => ?_
  simp only [Measure.smul_apply]
  rw [Measure.dirac_apply' _ hs, Measure.dirac_apply' _ (hs.preimage (measurable_of_countable _))]
  rfl

theorem multinomialRow_injective : Function.Injective (Multinomial.row (nf := nf)) :=
  fun a b hab => funext fun k => by simpa [Multinomial.row] using congrFun hab k

theorem multinomialNat_singleton (N : ℕ) (p : Fin nf → ℝ) (x : Fin nf → ℕ) :
    multinomialNat N p {x} = if ∑ k, x k = N then ENNReal.ofReal (multinomialPmf p x) else 0 := by
  rw [← multinomialLaw_singleton, ← multinomialNat_map, Measure.map_apply (measurable_of_countable _) (measurableSet_singleton _)]
  congr 1
  ext y
  exact ⟨fun h => by rw [Set.mem_singleton_iff.1 h]; rfl, fun h => multinomialRow_injective h⟩

/-- **C87** `MultinomialHMM`; the samples are the count vectors with total `n_trials`. -/
theorem C87_multinomial (hR : IdealRand P R u nx) {N : ℕ} (e : Est XF G (MultiAttrs XF)) (π : Fin e.nComponents → ℝ)
    (A : Fin e.nComponents → Fin e.nComponents → ℝ) (B : Fin e.nComponents → Fin nf → ℝ) (h : HoldsMulti e π A B)
    (hx : Exact e π A) (hN : e.sub.nTrials = some (.scalar N))
    (hmul : ∀ i, Draws P (R.multinomial N fun k => fin (B i k)) (multinomialLaw N (B i))) :
    SampleMatchesScore P (fun n g => rowsOf (O := (multiSub (α := XF) (G := G)).Obs) nf (multiSub.sample R n none none ⟨e, g⟩).1)
      (fun l => (multiSub.score (countsX l) none e).1) (Multinomial.row (nf := nf))
      (Measure.count.restrict {x | ∑ k, x k = N}) := by
  have : NeZero e.nComponents := ⟨nc_pos h.chain.π_sum⟩
  have hc : multiSub.checkSub e = (.ok (), { e with nFeatures := some nf, sub := { e.sub with emissionprob := some (mat B) } }) := by
    have hn : e.nFeatures.getD nf = nf := by
      cases hn : e.nFeatures with
      | none => rfl
      | some n => exact h.features n hn
    have hsh : (mat B).shape = [e.nComponents, nf] := rfl
    have ha : atleast2d (mat B) = mat B := rfl
    have ht := h.trials
    rw [Option.isSome_iff_ne_none] at ht
    simp [multiSub, multiCheck, h.emissionprob, ha, hsh, hn, Option.isNone_iff_eq_none, ht]
  have hu' : uniqueTrials e.sub.nTrials = some (N : ℤ) := by rw [hN]; rfl
  have : ∀ i, IsProbabilityMeasure (multinomialNat N (B i)) := fun i => by
    have := multinomialLaw_univ N (h.nonneg i) (h.sum i)
    rw [← multinomialNat_map] at this
    exact prob_of_map (measurable_of_countable _) this
  have h0 : ∀ i (x : Fin nf → ℕ), 0 ≤ multinomialPmf (B i) x := fun i x =>
    mul_nonneg (Nat.cast_nonneg _) (Finset.prod_nonneg fun k _ => div_nonneg (pow_nonneg (h.nonneg i k) _) (Nat.cast_nonneg _))
  refine matches_of (S := multiSub) h.chain hx.π_sum hx.A_sum hx.impl hx.global hc (asMat_mat B) (C71_multinomial e π A B h)
    (u := u) (nx := nx) (law := fun i => multinomialNat N (B i))
    (xo := fun i g => (R.multinomial N (fun k => XF.fin (B i k)) g).1)
    (gx := fun i g => (R.multinomial N (fun k => XF.fin (B i k)) g).2) ?_
    (embedding_discrete (O := Fin nf → ℤ) multinomialRow_injective)
    (fun x i => h0 i x) (fun i => measurable_of_countable _) fun i => ?_
  · exact IdealSampler.congr (Obs := Fin nf → ℤ) (μ := fun i => multinomialLaw N (B i))
      { rand_eq := hR.rand, rand_law := hR.law, em_law := hmul
        em_eq := by intro i g; simp only [multiSub, hu', Int.toNat_natCast] } fun i => multinomialNat_map N (B i)
  · rw [← restrict_withDensity (Set.to_countable _).measurableSet]
    refine Measure.ext_of_singleton fun x => ?_
    rw [multinomialNat_singleton, Measure.restrict_apply (measurableSet_singleton x)]
    by_cases hx : ∑ k, x k = N
    · rw [if_pos hx, Set.inter_eq_left.2 (by simpa using hx), withDensity_apply _ (measurableSet_singleton x),
        Measure.restrict_singleton, lintegral_smul_measure, lintegral_dirac, Measure.count_singleton, one_smul]
      rfl
    · rw [if_neg hx, Set.singleton_inter_eq_empty.2 (by simpa using hx), measure_empty]

/-! ## Normal distributions -/

section gaussian
variable [MeasurableSpace (Fin nf → XF)] {eig : Eigvalsh XF} (e : Est XF G (GaussAttrs XF)) (π : Fin e.nComponents → ℝ)
  (A : Fin e.nComponents → Fin e.nComponents → ℝ) (mu : Fin e.nComponents → Fin nf → ℝ)

omit [MeasurableSpace (Fin nf → XF)] in
theorem measurable_mvnPdf (m : Fin nf → ℝ) (S : Matrix (Fin nf) (Fin nf) ℝ) : Measurable fun x => mvnPdf m S x := by
  unfold mvnPdf mahalanobis
  simp only [Matrix.mulVec, dotProduct]
  fun_prop

/-- **C87** `GaussianHMM(covariance_type="full")`. -/
theorem C87_gaussian_full (hR : IdealRand P R u nx) (he : MeasurableEmbedding (Gaussian.row (nf := nf))) (hf : nf ≠ 0)
    (C : Fin e.nComponents → Matrix (Fin nf) (Fin nf) ℝ) (hC : ∀ i, (C i).PosDef) (h : HoldsGauss e π A mu (cube C))
    (hx : Exact e π A) (hN : ∀ i, DrawsNormal P R (mu i) (C i)) :
    SampleMatchesScore P (fun n g => rowsOf (O := (gaussFullSub (α := XF) (G := G) eig).Obs) nf
        ((gaussFullSub eig).sample R n none none ⟨e, g⟩).1)
      (fun l => ((gaussFullSub eig).score (realsX l) none e).1) (Gaussian.row (nf := nf)) volume := by
  have : NeZero e.nComponents := ⟨nc_pos h.chain.π_sum⟩
  refine matches_of (S := gaussFullSub eig) h.chain hx.π_sum hx.A_sum hx.impl hx.global h.check
    (θ := ⟨fun i k => fin (mu i k), fun i k l => fin (C i k l)⟩) ?_ (C71_gaussian_full hf e π A mu C hC h)
    (law := fun i => mvnLaw (mu i) (C i))
    (gauss_ideal (N := fun m S => (mvnLaw m S).map Gaussian.row) (ty := .full) hR.rand hR.law h.covars (fun i => C i)
      (C61_ok.1 fun i k l => XF.fin (C i k l)).2 hN) he (fun x i => (Gaussian.mvnPdf_pos (hC i) _ _).le)
    (fun i => measurable_mvnPdf _ _) fun i => mvnLaw_density _ (hC i)
  have : asCube e.nComponents nf nf (cube C) = some fun i k l => fin (C i k l) := asCube_cube C
  simp only [gaussFullSub, h.means, h.covars, Option.bind_eq_bind, Option.bind_some, asMat_mat, this]
  rfl

/-- **C87** `GaussianHMM(covariance_type="tied")`. -/
theorem C87_gaussian_tied (hR : IdealRand P R u nx) (he : MeasurableEmbedding (Gaussian.row (nf := nf))) (hf : nf ≠ 0)
    (C : Matrix (Fin nf) (Fin nf) ℝ) (hC : C.PosDef) (h : HoldsGauss e π A mu (mat C))
    (hx : Exact e π A) (hN : ∀ i, DrawsNormal P R (mu i) C) :
    SampleMatchesScore P (fun n g => rowsOf (O := (gaussTiedSub (α := XF) (G := G) eig).Obs) nf
        ((gaussTiedSub eig).sample R n none none ⟨e, g⟩).1)
      (fun l => ((gaussTiedSub eig).score (realsX l) none e).1) (Gaussian.row (nf := nf)) volume := by
  have : NeZero e.nComponents := ⟨nc_pos h.chain.π_sum⟩
  refine matches_of (S := gaussTiedSub eig) h.chain hx.π_sum hx.A_sum hx.impl hx.global h.check
    (θ := ⟨fun i k => fin (mu i k), fun k l => fin (C k l)⟩) ?_ (C71_gaussian_tied hf e π A mu C hC h)
    (law := fun i => mvnLaw (mu i) C)
    (gauss_ideal (N := fun m S => (mvnLaw m S).map Gaussian.row) (ty := .tied) hR.rand hR.law h.covars (fun _ => C)
      (C61_ok.2.1 fun k l => XF.fin (C k l)).2 hN) he (fun x i => (Gaussian.mvnPdf_pos hC _ _).le)
    (fun i => measurable_mvnPdf _ _) fun i => mvnLaw_density _ hC
  have : asMat nf nf (mat C) = some fun k l => fin (C k l) := asMat_mat C
  simp only [gaussTiedSub, h.means, h.covars, Option.bind_eq_bind, Option.bind_some, asMat_mat, this]
  rfl

omit [MeasurableSpace (Fin nf → XF)] in
theorem diagonal_density (m : Fin nf → ℝ) {v : Fin nf → ℝ} (hv : ∀ k, 0 < v k) :
    mvnLaw m (Matrix.diagonal v) = volume.withDensity fun x => ENNReal.ofReal (∏ k, normalPdf (m k) (v k) (x k)) := by
  rw [mvnLaw_density _ (Matrix.PosDef.diagonal hv)]
  simp only [mvnPdf_diagonal _ _ _ hv]

omit [MeasurableSpace (Fin nf → XF)] in
theorem measurable_normalPdfs (m v : Fin nf → ℝ) : Measurable fun x : Fin nf → ℝ => ∏ k, normalPdf (m k) (v k) (x k) := by
  unfold normalPdf
  fun_prop

/-- **C87** `GaussianHMM(covariance_type="diag")`. -/
theorem C87_gaussian_diag (hR : IdealRand P R u nx) (he : MeasurableEmbedding (Gaussian.row (nf := nf))) (hf : nf ≠ 0)
    (v : Fin e.nComponents → Fin nf → ℝ) (hv : ∀ i k, tinyVar ≤ v i k) (h : HoldsGauss e π A mu (mat v))
    (hx : Exact e π A) (hN : ∀ i, DrawsNormal P R (mu i) (Matrix.diagonal (v i))) :
    SampleMatchesScore P (fun n g => rowsOf (O := (gaussDiagSub (α := XF) (G := G) eig).Obs) nf
        ((gaussDiagSub eig).sample R n none none ⟨e, g⟩).1)
      (fun l => ((gaussDiagSub eig).score (realsX l) none e).1) (Gaussian.row (nf := nf)) volume := by
  have hp : ∀ i k, 0 < v i k := fun i k => tinyVar_pos.trans_le (hv i k)
  have : NeZero e.nComponents := ⟨nc_pos h.chain.π_sum⟩
  refine matches_of (S := gaussDiagSub eig) h.chain hx.π_sum hx.A_sum hx.impl hx.global h.check
    (θ := ⟨fun i k => fin (mu i k), fun i k => fin (v i k)⟩) ?_ (C71_gaussian_diag hf e π A mu v hv h)
    (law := fun i => mvnLaw (mu i) (Matrix.diagonal (v i)))
    (gauss_ideal (N := fun m S => (mvnLaw m S).map Gaussian.row) (ty := .diag) hR.rand hR.law h.covars
      (fun i => Matrix.diagonal (v i)) (C61_ok.2.2.1 v).2 hN) he
    (fun x i => Finset.prod_nonneg fun k _ => (normalPdf_pos (hp i k) _ _).le)
    (fun i => measurable_normalPdfs _ _) fun i => diagonal_density _ (hp i)
  simp only [gaussDiagSub, h.means, h.covars, Option.bind_eq_bind, Option.bind_some, asMat_mat]
  rfl

/-- **C87** `GaussianHMM(covariance_type="spherical")`, the variances stored one per state. -/
theorem C87_gaussian_spherical (hR : IdealRand P R u nx) (he : MeasurableEmbedding (Gaussian.row (nf := nf))) (hf : nf ≠ 0)
    (s : Fin e.nComponents → ℝ) (hv : ∀ i, tinyVar ≤ s i) (h : HoldsGauss e π A mu (vec s))
    (hx : Exact e π A) (hN : ∀ i, DrawsNormal P R (mu i) (Matrix.diagonal fun _ => s i)) :
    SampleMatchesScore P (fun n g => rowsOf (O := (gaussSphericalSub (α := XF) (G := G) eig).Obs) nf
        ((gaussSphericalSub eig).sample R n none none ⟨e, g⟩).1)
      (fun l => ((gaussSphericalSub eig).score (realsX l) none e).1) (Gaussian.row (nf := nf)) volume := by
  have hp : ∀ i, 0 < s i := fun i => tinyVar_pos.trans_le (hv i)
  have : NeZero e.nComponents := ⟨nc_pos h.chain.π_sum⟩
  refine matches_of (S := gaussSphericalSub eig) h.chain hx.π_sum hx.A_sum hx.impl hx.global h.check
    (θ := ⟨fun i k => fin (mu i k), fun i _ => fin (s i)⟩) ?_ (C71_gaussian_spherical hf e π A mu s hv .scalar h)
    (law := fun i => mvnLaw (mu i) (Matrix.diagonal fun _ => s i))
    (gauss_ideal (N := fun m S => (mvnLaw m S).map Gaussian.row) (ty := .spherical) hR.rand hR.law h.covars
      (fun i => Matrix.diagonal fun _ => s i) (C61_ok.2.2.2 s).2 hN) he
    (fun x i => Finset.prod_nonneg fun k _ => (normalPdf_pos (hp i) _ _).le)
    (fun i => measurable_normalPdfs _ _) fun i => diagonal_density _ fun _ => hp i
  have : asSpherical e.nComponents nf (vec s) = some fun i _ => fin (s i) := by simp [asSpherical, asMat, asRow, vec]
  simp only [gaussSphericalSub, h.means, h.covars, Option.bind_eq_bind, Option.bind_some, asMat_mat, this]
  rfl

end gaussian

/-! ## Mixtures -/

namespace Spec

/-- The covariance matrix of component `k` of state `i`, read off the array `covars_`. -/
def gmmCov (nf : ℕ) (ty : CovType) (fc : List ℕ → ℝ) (i k : ℕ) : Matrix (Fin nf) (Fin nf) ℝ :=
  match ty with
  | .spherical => Matrix.diagonal fun _ => fc [i, k]
  | .diag => Matrix.diagonal fun l => fc [i, k, l]
  | .full => Matrix.of fun a b => fc [i, k, a, b]
  | .tied => Matrix.of fun a b => fc [i, a, b]

end Spec

section gmm
variable {nm : ℕ}

theorem gmmCov_posDef {ty : CovType} {nc : ℕ} {fc : List ℕ → ℝ} (h : gmmCovProper ty nc nm nf fc) (i : Fin nc) (k : Fin nm) :
    (gmmCov nf ty fc i k).PosDef := by
  cases ty with
  | spherical => exact Matrix.PosDef.diagonal fun _ => tinyVar_pos.trans_le (h i k)
  | diag => exact Matrix.PosDef.diagonal fun l => tinyVar_pos.trans_le (h i k l)
  | full => exact h i k
  | tied => exact h i

theorem gmmComp_eq {ty : CovType} {nc : ℕ} {fm fc : List ℕ → ℝ} (h : gmmCovProper ty nc nm nf fc) (i : Fin nc) (k : Fin nm)
    (x : Fin nf → ℝ) : gmmComp ty fm fc x i k = mvnPdf (fun l : Fin nf => fm [i, k, l]) (gmmCov nf ty fc i k) x := by
  cases ty with
  | spherical => exact (mvnPdf_diagonal _ _ _ fun _ => tinyVar_pos.trans_le (h i k)).symm
  | diag => exact (mvnPdf_diagonal _ _ _ fun l => tinyVar_pos.trans_le (h i k l)).symm
  | full => rfl
  | tied => rfl

/-- The matrix passed to `multivariate_normal` is the covariance matrix of the component. -/
def GmmType.Cov (T : GmmType XF nm) : Prop :=
  ∀ (nc nf : ℕ) (s : List ℕ) (fc : List ℕ → ℝ) (i : Fin nc) (k : Fin nm),
    T.cov (T.read nc nf (rT s fc)) i k = fun a b => fin (gmmCov nf T.ty fc i k a b)

theorem gmmSpherical_cov : (gmmSpherical (α := XF) (nm := nm)).Cov := fun _ _ _ fc i k => scaledEye_fin (fc [i, k])
theorem gmmDiag_cov : (gmmDiag (α := XF) (nm := nm)).Cov := fun _ _ _ fc i k => npDiag_fin fun l => fc [i, k, l]
theorem gmmFull_cov (eig : Eigvalsh XF) : (gmmFull (nm := nm) eig).Cov := fun _ _ _ _ _ _ => rfl
theorem gmmTied_cov (eig : Eigvalsh XF) : (gmmTied (nm := nm) eig).Cov := fun _ _ _ _ _ _ => rfl

/-- The mixture of normal distributions. -/
noncomputable def mixNormal (w : Fin nm → ℝ) (m : Fin nm → Fin nf → ℝ) (S : Fin nm → Matrix (Fin nf) (Fin nf) ℝ) :
    Measure (Fin nf → ℝ) := mixtureLaw w fun k => mvnLaw (m k) (S k)

theorem mixNormal_prob {w : Fin nm → ℝ} (hw : ∀ k, 0 ≤ w k) (hs : ∑ k, w k = 1) (m : Fin nm → Fin nf → ℝ)
    (S : Fin nm → Matrix (Fin nf) (Fin nf) ℝ) : IsProbabilityMeasure (mixNormal w m S) := by
  refine ⟨?_⟩
  unfold mixNormal mixtureLaw
  rw [Measure.sum_apply _ MeasurableSet.univ, tsum_fintype]
  simp only [Measure.smul_apply, measure_univ, smul_eq_mul, mul_one]
  rw [← ENNReal.ofReal_sum_of_nonneg fun k _ => hw k, hs, ENNReal.ofReal_one]

theorem mixNormal_density {w : Fin nm → ℝ} (hw : ∀ k, 0 ≤ w k) (m : Fin nm → Fin nf → ℝ)
    {S : Fin nm → Matrix (Fin nf) (Fin nf) ℝ} (hS : ∀ k, (S k).PosDef) :
    mixNormal w m S = volume.withDensity fun x => ENNReal.ofReal (∑ k, w k * mvnPdf (m k) (S k) x) := by
  ext s hs
  unfold mixNormal mixtureLaw
  rw [Measure.sum_apply _ hs, tsum_fintype, withDensity_apply _ hs]
  simp only [Measure.smul_apply, smul_eq_mul]
  have e : ∀ x, ENNReal.ofReal (∑ k, w k * mvnPdf (m k) (S k) x) =
      ∑ k, ENNReal.ofReal (w k) * ENNReal.ofReal (mvnPdf (m k) (S k) x) := fun x => by
    rw [ENNReal.ofReal_sum_of_nonneg fun k _ => mul_nonneg (hw k) (Gaussian.mvnPdf_pos (hS k) _ _).le]
    exact Finset.sum_congr rfl fun k _ => ENNReal.ofReal_mul (hw k)
  simp only [e]
  rw [lintegral_finsetSum _ fun k _ => ((measurable_mvnPdf _ _).ennreal_ofReal).const_mul _]
  refine Finset.sum_congr rfl fun k _ => ?_
  rw [lintegral_const_mul _ (measurable_mvnPdf _ _).ennreal_ofReal, mvnLaw_density _ (hS k), withDensity_apply _ hs]

theorem mixtureLaw_map {D O : Type} [MeasurableSpace D] [MeasurableSpace O] {f : D → O} (hf : Measurable f) (w : Fin nm → ℝ)
    (μ : Fin nm → Measure D) : (mixtureLaw w μ).map f = mixtureLaw w fun k => (μ k).map f := by
  ext s hs
  unfold mixtureLaw
  rw [Measure.map_apply hf hs, Measure.sum_apply _ hs, Measure.sum_apply _ (hs.preimage hf)]
  simp only [Measure.smul_apply, Measure.map_apply hf hs]

variable [NeZero nm] [MeasurableSpace (Fin nf → XF)]

/-- **C87** `GMMHMM`, any covariance type. -/
theorem C87_gmm {T : GmmType XF nm} (hT : T.Checks) (hM : T.Mixes) (hcov : T.Cov) (hR : IdealRand P R u nx)
    (he : MeasurableEmbedding (Gaussian.row (nf := nf))) (hf : nf ≠ 0) (e : Est XF G (GmmAttrs XF)) (π : Fin e.nComponents → ℝ)
    (A : Fin e.nComponents → Fin e.nComponents → ℝ) (fw fm fc : List ℕ → ℝ) (h : HoldsGmm T.ty nm nf e π A fw fm fc)
    (hx : Exact e π A) (hw : ∀ i : Fin e.nComponents, ∑ k : Fin nm, fw [i, k] = 1)
    (hN : ∀ (i : Fin e.nComponents) (k : Fin nm), DrawsNormal P R (fun l : Fin nf => fm [i, k, l]) (gmmCov nf T.ty fc i k)) :
    SampleMatchesScore P (fun n g => rowsOf (O := (gmmSub (G := G) T).Obs) nf ((gmmSub T).sample R n none none ⟨e, g⟩).1)
      (fun l => ((gmmSub T).score (realsX l) none e).1) (Gaussian.row (nf := nf)) volume := by
  have : NeZero e.nComponents := ⟨nc_pos h.chain.π_sum⟩
  have hs : e.startprob.isSome := by rw [h.chain.startprob]; rfl
  have hnf : (e.nFeatures <|> [e.nComponents, nm, nf][2]?) = some nf := by
    cases hn : e.nFeatures with
    | none => rfl
    | some n => rw [h.features n hn]; rfl
  obtain ⟨h1, h2⟩ := C30_gmm hT e h.chain.base hs h.weights h.means h.covars
  have hok := h1.2 ⟨nf, hnf, h.priors, rfl, h.w_sum, rfl, rfl, gmmCov_ok h.cov⟩
  obtain ⟨nf', p, hn', hp, -, pw, pm, pc⟩ := h2 hok
  obtain rfl : nf' = nf := by rw [hnf] at hn'; exact (Option.some.inj hn').symm
  have : ∀ i : Fin e.nComponents, IsProbabilityMeasure (mixNormal (fun k : Fin nm => fw [i, k])
      (fun k (l : Fin nf') => fm [i, k, l]) fun k => gmmCov nf' T.ty fc i k) := fun i =>
    mixNormal_prob (fun k => h.w_nonneg i k) (hw i) _ _
  have hch : ∀ i : Fin e.nComponents, ChoiceOk fun k : Fin nm => fw [i, k] := fun i =>
    ⟨fun k => h.w_nonneg i k, by rw [hw, sub_self, abs_zero]; positivity⟩
  let em : Fin e.nComponents → Fin nm → G → (Fin nf' → XF) × G := fun i k =>
    R.normal (fun l => fin (fm [i, k, l])) fun a b => fin (gmmCov nf' T.ty fc i k a b)
  have hb : ∀ (x : Fin nf' → ℝ) (i : Fin e.nComponents), gmmB T.ty nm fw fm fc x i =
      ∑ k : Fin nm, fw [i, k] * mvnPdf (fun l : Fin nf' => fm [i, k, l]) (gmmCov nf' T.ty fc i k) x := fun x i =>
    Finset.sum_congr rfl fun k _ => by rw [gmmComp_eq h.cov]
  refine matches_of (S := gmmSub T) h.chain hx.π_sum hx.A_sum hx.impl hx.global
    (h.chain.fitted.symm.trans (Prod.ext hok hp))
    (θ := ⟨fun i k => fin (fw [i, k]), fun i k l => fin (fm [i, k, l]),
      T.read _ _ (rT (gmmCovShape T.ty e.nComponents nm nf') fc)⟩) ?_ (C71_gmm hT hM hf e π A fw fm fc h)
    (u := u) (nx := nx) (xo := fun i g => (em i (pick (fun k : Fin nm => fw [i, k]) (u g)) (nx g)).1)
    (gx := fun i g => (em i (pick (fun k : Fin nm => fw [i, k]) (u g)) (nx g)).2)
    (law := fun i => mixNormal (fun k : Fin nm => fw [i, k]) (fun k (l : Fin nf') => fm [i, k, l])
      fun k => gmmCov nf' T.ty fc i k) ?_ he ?_ ?_ fun i => ?_
  · simp only [gmmSub, pw, pm, pc, h.weights, h.means, h.covars, Option.bind_eq_bind, Option.bind_some]
    rw [if_pos ⟨rfl, rfl, (hT.shape _ _).symm⟩]
    rfl
  · refine IdealSampler.congr (Obs := Fin nf' → XF) (μ := fun i => mixtureLaw (fun k : Fin nm => fw [i, k]) fun k =>
      (mvnLaw (fun l : Fin nf' => fm [i, k, l]) (gmmCov nf' T.ty fc i k)).map Gaussian.row) ?_
      fun i => mixtureLaw_map he.measurable _ _
    have : ∀ (i : Fin e.nComponents) (k : Fin nm), SFinite
        ((mvnLaw (fun l : Fin nf' => fm [i, k, l]) (gmmCov nf' T.ty fc i k)).map Gaussian.row) := fun i k => inferInstance
    refine ⟨hR.rand, hR.law, fun i g => ?_, fun i => ?_⟩
    · show gmmSample T R _ i g = _
      unfold gmmSample
      rw [npChoice_ok (hch i) (hR.rand g)]
      have hc := hcov e.nComponents nf' (gmmCovShape T.ty e.nComponents nm nf') fc i
      simp only [hw, div_one, hc]
      rfl
    · exact hR.law.mix (measurable_pick _) (uniform_pick (fun k => h.w_nonneg i k) (hw i)) fun k => hN i k
  · intro x i
    rw [hb]
    exact Finset.sum_nonneg fun k _ => mul_nonneg (h.w_nonneg i k) (Gaussian.mvnPdf_pos (gmmCov_posDef h.cov i k) _ _).le
  · intro i
    simp only [hb]
    exact Finset.measurable_sum _ fun k _ => (measurable_mvnPdf _ _).const_mul _
  · simp only [hb]
    exact mixNormal_density (fun k => h.w_nonneg i k) _ fun k => gmmCov_posDef h.cov i k

end gmm

end Verif
