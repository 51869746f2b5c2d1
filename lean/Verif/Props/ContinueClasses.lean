import Verif.Props.Continue

/-!
# C103: continuing a sample, the classes
-/

set_option autoImplicit false

namespace Verif
open FloatLike XF MeasureTheory Spec
open scoped ENNReal

variable {G : Type} [MeasurableSpace G] {P : Measure G} [IsProbabilityMeasure P] {R : RandomLib XF G} {u : G → ℝ}
  {nx : G → G} {nf : ℕ}

/-- **C103** `CategoricalHMM`. -/
theorem C103_categorical (hR : IdealRand P R u nx) (e : Est XF G (CatAttrs XF)) (π : Fin e.nComponents → ℝ)
    (A : Fin e.nComponents → Fin e.nComponents → ℝ) (B : Fin e.nComponents → Fin nf → ℝ) (h : HoldsCat e π A B)
    (hx : Exact e π A) (hB : ∀ i, ∑ k, B i k = 1) : Continues P catSub R e nf := by
  have h0 := nc_pos h.chain.π_sum
  have : NeZero e.nComponents := ⟨h0⟩
  have : NeZero nf := ⟨by
    rintro rfl
    have := hB ⟨0, Nat.pos_of_ne_zero h0⟩
    simp at this⟩
  have hs : e.startprob.isSome := by rw [h.chain.startprob]; rfl
  obtain ⟨h1, h2, -⟩ := C30_categorical e B h.chain.base hs h.emissionprob
  have hok := h1.2 ⟨rfl, by
    cases hn : e.nFeatures with
    | none => rfl
    | some n => exact (h.features n hn).symm, h.sum⟩
  exact C103_longer (S := catSub) catSub_lawful h.chain hx (h.chain.fitted.symm.trans (Prod.ext hok (h2 hok))) (asMat_mat B)
    (u := u) (nx := nx) (xo := fun z g => ((pick (B z) (u g)).val : ℤ)) (gx := fun _ => nx)
    (cat_ideal hR.rand hR.law _ B)

/-- **C103** `PoissonHMM`. -/
theorem C103_poisson (hR : IdealRand P R u nx) (hP : ∀ l : ℝ, 0 ≤ l → Draws P (R.poisson (fin l)) (poissonLaw l))
    (e : Est XF G (PoisAttrs XF)) (π : Fin e.nComponents → ℝ) (A : Fin e.nComponents → Fin e.nComponents → ℝ)
    (l : Fin e.nComponents → Fin nf → ℝ) (h : HoldsPois e π A l) (hx : Exact e π A) : Continues P poisSub R e nf := by
  have : NeZero e.nComponents := ⟨nc_pos h.chain.π_sum⟩
  have hc : poisSub.checkSub e = (.ok (), { e with nFeatures := some nf, sub := { e.sub with lambdas := some (mat l) } }) := by
    have hn : e.nFeatures.getD nf = nf := by
      cases hn : e.nFeatures with
      | none => rfl
      | some n => exact h.features n hn
    have hsh : (mat l).shape = [e.nComponents, nf] := rfl
    have ha : atleast2d (mat l) = mat l := rfl
    simp [poisSub, poisCheck, h.lambdas, ha, hsh, hn]
  have : ∀ i k, IsProbabilityMeasure (poissonLaw (l i k)) := fun i k => poissonLaw_univ (h.nonneg i k)
  exact C103_longer (S := poisSub) poisSub_lawful h.chain hx hc (asMat_mat l) (u := u) (nx := nx)
    (xo := fun i g => (poissonVec R (fun k => XF.fin (l i k)) g).1)
    (gx := fun i g => (poissonVec R (fun k => XF.fin (l i k)) g).2) (ν := fun i => Measure.pi fun k => poissonLaw (l i k))
    { rand_eq := hR.rand, rand_law := hR.law, em_eq := fun _ _ => rfl
      em_law := fun i => poissonVec_law hP (l i) (h.nonneg i) }

/-- **C103** `MultinomialHMM` with one number of trials. -/
theorem C103_multinomial (hR : IdealRand P R u nx) {N : ℕ} (e : Est XF G (MultiAttrs XF)) (π : Fin e.nComponents → ℝ)
    (A : Fin e.nComponents → Fin e.nComponents → ℝ) (B : Fin e.nComponents → Fin nf → ℝ) (h : HoldsMulti e π A B)
    (hx : Exact e π A) (hN : e.sub.nTrials = some (.scalar N))
    (hmul : ∀ i, Draws P (R.multinomial N fun k => fin (B i k)) (multinomialLaw N (B i))) :
    Continues P multiSub R e nf := by
  have : NeZero e.nComponents := ⟨nc_pos h.chain.π_sum⟩
  have hc : multiSub.checkSub e = (.ok (), { e with nFeatures := some nf, sub := { e.sub with emissionprob := some (mat B) } }) := by
    have hn : e.nFeatures.getD nf = nf := by
      cases hn : e.nFeatures with
      | none => rfl
      | some n => exact h.features n hn
    have hsh : (mat B).shape = [e.nComponents, nf] := rfl
    have ha : atleast2d (mat B) = mat B := rfl
    have ht := h.trials
    rw [Option.isSome_iff_ne_none] at ht
    simp [multiSub, multiCheck, h.emissionprob, ha, hsh, hn, Option.isNone_iff_eq_none, ht]
  have hu' : uniqueTrials e.sub.nTrials = some (N : ℤ) := by rw [hN]; rfl
  exact C103_longer (S := multiSub) multiSub_lawful h.chain hx hc (asMat_mat B) (u := u) (nx := nx)
    (xo := fun i g => (R.multinomial N (fun k => XF.fin (B i k)) g).1)
    (gx := fun i g => (R.multinomial N (fun k => XF.fin (B i k)) g).2) (ν := fun i => multinomialLaw N (B i))
    { rand_eq := hR.rand, rand_law := hR.law, em_law := hmul
      em_eq := by intro i g; simp only [multiSub, hu', Int.toNat_natCast] }

section gaussian
variable [MeasurableSpace (Fin nf → XF)] {eig : Eigvalsh XF} (e : Est XF G (GaussAttrs XF)) (π : Fin e.nComponents → ℝ)
  (A : Fin e.nComponents → Fin e.nComponents → ℝ) (mu : Fin e.nComponents → Fin nf → ℝ)

/-- **C103** `GaussianHMM(covariance_type="full")`. -/
theorem C103_gaussian_full (hR : IdealRand P R u nx) (C : Fin e.nComponents → Matrix (Fin nf) (Fin nf) ℝ)
    (h : HoldsGauss e π A mu (cube C)) (hx : Exact e π A) (hN : ∀ i, DrawsNormal P R (mu i) (C i)) :
    Continues P (gaussFullSub (G := G) eig) R e nf := by
  have : NeZero e.nComponents := ⟨nc_pos h.chain.π_sum⟩
  refine C103_longer (S := gaussFullSub eig) (gaussFullSub_lawful eig) h.chain hx h.check
    (θ := ⟨fun i k => fin (mu i k), fun i k l => fin (C i k l)⟩) ?_
    (gauss_ideal (N := fun m S => (mvnLaw m S).map Gaussian.row) (ty := .full) hR.rand hR.law h.covars (fun i => C i)
      (C61_ok.1 fun i k l => XF.fin (C i k l)).2 hN)
  have : asCube e.nComponents nf nf (cube C) = some fun i k l => fin (C i k l) := asCube_cube C
  simp only [gaussFullSub, h.means, h.covars, Option.bind_eq_bind, Option.bind_some, asMat_mat, this]
  rfl

/-- **C103** `GaussianHMM(covariance_type="tied")`. -/
theorem C103_gaussian_tied (hR : IdealRand P R u nx) (C : Matrix (Fin nf) (Fin nf) ℝ)
    (h : HoldsGauss e π A mu (mat C)) (hx : Exact e π A) (hN : ∀ i, DrawsNormal P R (mu i) C) :
    Continues P (gaussTiedSub (G := G) eig) R e nf := by
  have : NeZero e.nComponents := ⟨nc_pos h.chain.π_sum⟩
  refine C103_longer (S := gaussTiedSub eig) (gaussTiedSub_lawful eig) h.chain hx h.check
    (θ := ⟨fun i k => fin (mu i k), fun k l => fin (C k l)⟩) ?_
    (gauss_ideal (N := fun m S => (mvnLaw m S).map Gaussian.row) (ty := .tied) hR.rand hR.law h.covars (fun _ => C)
      (C61_ok.2.1 fun k l => XF.fin (C k l)).2 hN)
  have : asMat nf nf (mat C) = some fun k l => fin (C k l) := asMat_mat C
  simp only [gaussTiedSub, h.means, h.covars, Option.bind_eq_bind, Option.bind_some, asMat_mat, this]
  rfl

/-- **C103** `GaussianHMM(covariance_type="diag")`. -/
theorem C103_gaussian_diag (hR : IdealRand P R u nx) (v : Fin e.nComponents → Fin nf → ℝ)
    (h : HoldsGauss e π A mu (mat v)) (hx : Exact e π A) (hN : ∀ i, DrawsNormal P R (mu i) (Matrix.diagonal (v i))) :
    Continues P (gaussDiagSub (G := G) eig) R e nf := by
  have : NeZero e.nComponents := ⟨nc_pos h.chain.π_sum⟩
  refine C103_longer (S := gaussDiagSub eig) (gaussDiagSub_lawful eig) h.chain hx h.check
    (θ := ⟨fun i k => fin (mu i k), fun i k => fin (v i k)⟩) ?_
    (gauss_ideal (N := fun m S => (mvnLaw m S).map Gaussian.row) (ty := .diag) hR.rand hR.law h.covars
      (fun i => Matrix.diagonal (v i)) (C61_ok.2.2.1 v).2 hN)
  simp only [gaussDiagSub, h.means, h.covars, Option.bind_eq_bind, Option.bind_some, asMat_mat]
  rfl

/-- **C103** `GaussianHMM(covariance_type="spherical")`, the variances stored one per state. -/
theorem C103_gaussian_spherical (hR : IdealRand P R u nx) (s : Fin e.nComponents → ℝ) (h : HoldsGauss e π A mu (vec s))
    (hx : Exact e π A) (hN : ∀ i, DrawsNormal P R (mu i) (Matrix.diagonal fun _ => s i)) :
    Continues P (gaussSphericalSub (G := G) eig) R e nf := by
  have : NeZero e.nComponents := ⟨nc_pos h.chain.π_sum⟩
  refine C103_longer (S := gaussSphericalSub eig) (gaussSphericalSub_lawful eig) h.chain hx h.check
    (θ := ⟨fun i k => fin (mu i k), fun i _ => fin (s i)⟩) ?_
    (gauss_ideal (N := fun m S => (mvnLaw m S).map Gaussian.row) (ty := .spherical) hR.rand hR.law h.covars
      (fun i => Matrix.diagonal fun _ => s i) (C61_ok.2.2.2 s).2 hN)
  have : asSpherical e.nComponents nf (vec s) = some fun i _ => fin (s i) := by simp [asSpherical, asMat, asRow, vec]
  simp only [gaussSphericalSub, h.means, h.covars, Option.bind_eq_bind, Option.bind_some, asMat_mat, this]
  rfl

end gaussian

section gmm
variable {nm : ℕ} [NeZero nm] [MeasurableSpace (Fin nf → XF)]

/-- **C103** `GMMHMM`, any covariance type. -/
theorem C103_gmm {T : GmmType XF nm} (hT : T.Checks) (hcov : T.Cov) (hR : IdealRand P R u nx)
    (e : Est XF G (GmmAttrs XF)) (π : Fin e.nComponents → ℝ)
    (A : Fin e.nComponents → Fin e.nComponents → ℝ) (fw fm fc : List ℕ → ℝ) (h : HoldsGmm T.ty nm nf e π A fw fm fc)
    (hx : Exact e π A) (hw : ∀ i : Fin e.nComponents, ∑ k : Fin nm, fw [i, k] = 1)
    (hN : ∀ (i : Fin e.nComponents) (k : Fin nm), DrawsNormal P R (fun l : Fin nf => fm [i, k, l]) (gmmCov nf T.ty fc i k)) :
    Continues P (gmmSub (G := G) T) R e nf := by
  have : NeZero e.nComponents := ⟨nc_pos h.chain.π_sum⟩
  have hs : e.startprob.isSome := by rw [h.chain.startprob]; rfl
  have hnf : (e.nFeatures <|> [e.nComponents, nm, nf][2]?) = some nf := by
    cases hn : e.nFeatures with
    | none => rfl
    | some n => rw [h.features n hn]; rfl
  obtain ⟨h1, h2⟩ := C30_gmm hT e h.chain.base hs h.weights h.means h.covars
  have hok := h1.2 ⟨nf, hnf, h.priors, rfl, h.w_sum, rfl, rfl, gmmCov_ok h.cov⟩
  obtain ⟨nf', p, hn', hp, -, pw, pm, pc⟩ := h2 hok
  obtain rfl : nf' = nf := by rw [hnf] at hn'; exact (Option.some.inj hn').symm
  have hch : ∀ i : Fin e.nComponents, ChoiceOk fun k : Fin nm => fw [i, k] := fun i =>
    ⟨fun k => h.w_nonneg i k, by rw [hw, sub_self, abs_zero]; positivity⟩
  let em : Fin e.nComponents → Fin nm → G → (Fin nf' → XF) × G := fun i k =>
    R.normal (fun l => fin (fm [i, k, l])) fun a b => fin (gmmCov nf' T.ty fc i k a b)
  refine C103_longer (S := gmmSub T) (gmmSub_lawful T) h.chain hx (h.chain.fitted.symm.trans (Prod.ext hok hp))
    (θ := ⟨fun i k => fin (fw [i, k]), fun i k l => fin (fm [i, k, l]),
      T.read _ _ (rT (gmmCovShape T.ty e.nComponents nm nf') fc)⟩) ?_
    (u := u) (nx := nx) (xo := fun i g => (em i (pick (fun k : Fin nm => fw [i, k]) (u g)) (nx g)).1)
    (gx := fun i g => (em i (pick (fun k : Fin nm => fw [i, k]) (u g)) (nx g)).2)
    (ν := fun i => mixtureLaw (fun k : Fin nm => fw [i, k]) fun k =>
      (mvnLaw (fun l : Fin nf' => fm [i, k, l]) (gmmCov nf' T.ty fc i k)).map Gaussian.row) ?_
  · simp only [gmmSub, pw, pm, pc, h.weights, h.means, h.covars, Option.bind_eq_bind, Option.bind_some]
    rw [if_pos ⟨rfl, rfl, (hT.shape _ _).symm⟩]
    rfl
  · have : ∀ (i : Fin e.nComponents) (k : Fin nm), SFinite
        ((mvnLaw (fun l : Fin nf' => fm [i, k, l]) (gmmCov nf' T.ty fc i k)).map Gaussian.row) := fun i k => inferInstance
    refine ⟨hR.rand, hR.law, fun i g => ?_, fun i => ?_⟩
    · show gmmSample T R _ i g = _
      unfold gmmSample
      rw [npChoice_ok (hch i) (hR.rand g)]
      have hc := hcov e.nComponents nf' (gmmCovShape T.ty e.nComponents nm nf') fc i
      simp only [hw, div_one, hc]
      rfl
    · exact hR.law.mix (measurable_pick _) (uniform_pick (fun k => h.w_nonneg i k) (hw i)) fun k => hN i k

end gmm

end Verif
