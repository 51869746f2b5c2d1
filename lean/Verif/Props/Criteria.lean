import Verif.Model.Criteria
import Verif.Proofs.Criteria
import Verif.Proofs.EstimatorFit
import Verif.Props.Features

/-!
# C51: `aic` and `bic`
-/

namespace Verif
open FloatLike Spec

section
variable {G P : Type} {S : Sub XF G P} {e e' : Est XF G P} {X : RawX XF} {l : Option (List Int)} {err : PyErr} {k : ℤ}

/-- `score` only returns for an array with at least one row. -/
theorem score_len {s : XF} (h : S.score X l e = (.ok s, e')) : X.len ≠ 0 := by
  unfold Sub.score at h
  obtain ⟨r, e1, h1, -⟩ := Py.bind_ok_cases h
  unfold Sub.scoreSamples Sub.scoreBody at h1
  obtain ⟨_, e2, -, h2⟩ := Py.bind_ok_cases h1
  obtain ⟨_, e3, -, h3⟩ := Py.bind_ok_cases h2
  obtain ⟨x, e4, h4, -⟩ := Py.bind_ok_cases h3
  have h5 : checkArray X = .ok x := (Prod.mk.inj h4).1
  cases X with
  | ints a =>
    cases a with
    | d2 v =>
      simp only [checkArray] at h5
      split at h5
      · cases h5
      · next hn => exact fun h0 => hn (.inl h0)
    | _ => cases h5
  | floats a =>
    cases a with
    | d2 v =>
      simp only [checkArray] at h5
      split at h5
      · cases h5
      · next hn => exact fun h0 => hn (.inl h0)
    | _ => cases h5

theorem neg_two_ninf : (ofInt' (-2) : XF) * .ninf = .pinf := by
  rw [XF.ofInt'_def]
  show XF.mul (.fin ((-2 : ℤ) : ℝ)) .ninf = .pinf
  simp [XF.mul, XF.infMul]

/-- **C51.** `aic` from the log likelihood and the count; a model that assigns probability zero to
the data gets `+inf`, and an exception of `score` is passed on. -/
theorem C51_aic (hk : S.nParams err e = .ok k) :
    (∀ r, S.score X l e = (.ok (.fin r), e') → S.aic err X l e = (.ok (.fin (-2 * r + 2 * k)), e')) ∧
    (S.score X l e = (.ok .ninf, e') → S.aic err X l e = (.ok .pinf, e')) ∧
    ∀ er, S.score X l e = (.error er, e') → S.aic err X l e = (.error er, e') := by
  have h0 : S.aic err X l e = (S.score X l >>= fun s => pure (ofInt' (-2) * s + ofInt' (2 * k))) e := by
    unfold Sub.aic
    rw [Py.bind_ok (Py.get_apply e), Py.bind_ok (s' := e) (b := k) (by rw [Py.lift_apply, hk])]
  refine ⟨fun r h => ?_, fun h => ?_, fun er h => ?_⟩
  · rw [h0, Py.bind_ok h, Py.pure_apply]
    simp
  · rw [h0, Py.bind_ok h, Py.pure_apply, neg_two_ninf, XF.ofInt'_def]
    rfl
  · rw [h0, Py.bind_error h]

/-- **C51.** `bic`, with the number of rows of `X`. -/
theorem C51_bic (hk : S.nParams err e = .ok k) :
    (∀ r, S.score X l e = (.ok (.fin r), e') →
      S.bic err X l e = (.ok (.fin (-2 * r + k * Real.log X.len)), e')) ∧
    (S.score X l e = (.ok .ninf, e') → S.bic err X l e = (.ok .pinf, e')) ∧
    ∀ er, S.score X l e = (.error er, e') → S.bic err X l e = (.error er, e') := by
  have h0 : S.bic err X l e = (S.score X l >>= fun s => pure (ofInt' (-2) * s + ofInt' k * log (ofNat' X.len))) e := by
    unfold Sub.bic
    rw [Py.bind_ok (Py.get_apply e), Py.bind_ok (s' := e) (b := k) (by rw [Py.lift_apply, hk])]
  refine ⟨fun r h => ?_, fun h => ?_, fun er h => ?_⟩
  · have hn := score_len h
    have hp : (0 : ℝ) < X.len := by exact_mod_cast Nat.pos_of_ne_zero hn
    rw [h0, Py.bind_ok h, Py.pure_apply, XF.ofNat'_def, XF.lg_def, XF.lg_pos hp]
    simp
  · have hn := score_len h
    have hp : (0 : ℝ) < X.len := by exact_mod_cast Nat.pos_of_ne_zero hn
    rw [h0, Py.bind_ok h, Py.pure_apply, XF.ofNat'_def, XF.lg_def, XF.lg_pos hp, neg_two_ninf, XF.ofInt'_def]
    rfl
  · rw [h0, Py.bind_error h]

/-- Before `n_features` is known (parameters set by hand, no `fit` or `score` yet), both raise,
whatever `score` would do. -/
theorem C51_unset (hn : e.nFeatures = none) :
    S.aic err X l e = (.error err, e) ∧ S.bic err X l e = (.error err, e) := by
  have h1 : S.nParams err e = .error err := by
    unfold Sub.nParams
    rw [hn]
    rfl
  constructor
  · unfold Sub.aic
    rw [Py.bind_ok (Py.get_apply e), Py.bind_error (s' := e) (e := err) (by rw [Py.lift_apply, h1])]
  · unfold Sub.bic
    rw [Py.bind_ok (Py.get_apply e), Py.bind_error (s' := e) (e := err) (by rw [Py.lift_apply, h1])]

end

/-! ## The counts -/

theorem nParams_eq {α G P : Type} [FloatLike α] {S : Sub α G P} {e : Est α G P} {nf : ℕ} (err : PyErr)
    (hf : e.nFeatures = some nf) : S.nParams err e = .ok ((S.nFit e).map Prod.snd).sum := by
  unfold Sub.nParams
  rw [hf]
  rfl

section
variable {α G : Type} [FloatLike α] {nf : ℕ}

theorem sub_one_cast {n : ℕ} (h : n ≠ 0) : ((n - 1 : ℕ) : ℤ) = (n : ℤ) - 1 := by omega

theorem dim_symbolSpace {nc nf : ℕ} (hc : nc ≠ 0) (hf : nf ≠ 0) :
    (dim (symbolSpace nc nf) : ℤ) = (nc - 1) + nc * (nc - 1) + nc * (nf - 1) := by
  have h1 := dim_simplex hf
  have h2 : dim (simplex nf) = nf - 1 := by omega
  unfold symbolSpace
  rw [dim_prod (chainSpace_nonempty hc) (families_nonempty (simplex_nonempty hf) nc), dim_chainSpace hc,
    dim_families (simplex_nonempty hf), h2]
  push_cast [sub_one_cast hc, sub_one_cast hf]
  ring

/-- **C51, CategoricalHMM.** The count is the dimension of the parameter space. -/
theorem C51_categorical (e : Est α G (CatAttrs α)) (err : PyErr) (hc : e.nComponents ≠ 0) (hf : nf ≠ 0)
    (h : e.nFeatures = some nf) :
    (catSub (α := α) (G := G)).nParams err e = .ok (dim (symbolSpace e.nComponents nf) : ℤ) := by
  rw [nParams_eq err h, dim_symbolSpace hc hf]
  simp [catSub, h]
  ring

/-- **C51, MultinomialHMM.** -/
theorem C51_multinomial (e : Est α G (MultiAttrs α)) (err : PyErr) (hc : e.nComponents ≠ 0) (hf : nf ≠ 0)
    (h : e.nFeatures = some nf) :
    (multiSub (α := α) (G := G)).nParams err e = .ok (dim (symbolSpace e.nComponents nf) : ℤ) := by
  rw [nParams_eq err h, dim_symbolSpace hc hf]
  simp [multiSub, h]
  ring

/-- **C51, PoissonHMM.** -/
theorem C51_poisson (e : Est α G (PoisAttrs α)) (err : PyErr) (hc : e.nComponents ≠ 0)
    (h : e.nFeatures = some nf) :
    (poisSub (α := α) (G := G)).nParams err e = .ok (dim (rateSpace e.nComponents nf) : ℤ) := by
  have hp := families_nonempty positives_nonempty nf
  have hd : (dim (rateSpace e.nComponents nf) : ℤ) =
      (e.nComponents - 1) + e.nComponents * (e.nComponents - 1) + e.nComponents * nf := by
    unfold rateSpace
    rw [dim_prod (chainSpace_nonempty hc) (families_nonempty hp _), dim_chainSpace hc,
      dim_families hp, dim_families positives_nonempty, dim_positives]
    push_cast [sub_one_cast hc]
    ring
  rw [nParams_eq err h, hd]
  simp [poisSub, h]
  ring

theorem dim_gaussSpace {nc nf : ℕ} (hc : nc ≠ 0) {E : Type} [AddCommGroup E] [Module ℝ E] [FiniteDimensional ℝ E]
    {cov : Set E} (hcov : cov.Nonempty) :
    (dim (gaussSpace nc nf cov) : ℤ) = (nc - 1) + nc * (nc - 1) + nc * nf + dim cov := by
  have hu : (Set.univ : Set (Fin nf → ℝ)).Nonempty := Set.univ_nonempty
  have hm := families_nonempty hu nc
  unfold gaussSpace
  rw [dim_prod (chainSpace_nonempty hc) (hm.prod hcov), dim_prod hm hcov, dim_chainSpace hc, dim_families hu,
    dim_univ, Module.finrank_fin_fun]
  push_cast [sub_one_cast hc]
  ring

/-- `nc` matrices, whichever way the integer division is bracketed. -/
theorem triangle (m nf : ℕ) : (m : ℤ) * nf * (nf + 1) / 2 = m * (nf * (nf + 1) / 2 : ℕ) := by
  obtain ⟨k, hk⟩ := (Nat.even_mul_succ_self nf).two_dvd
  rw [hk, Nat.mul_div_cancel_left _ two_pos]
  have : (m : ℤ) * nf * (nf + 1) = 2 * (m * k) := by
    have : ((nf * (nf + 1) : ℕ) : ℤ) = ((2 * k : ℕ) : ℤ) := by exact_mod_cast hk
    push_cast at this
    linear_combination (m : ℤ) * this
  rw [this, Int.mul_ediv_cancel_left _ two_ne_zero]

variable (eig : Eigvalsh α) (e : Est α G (GaussAttrs α)) (err : PyErr)

/-- **C51, GaussianHMM**, each covariance type with its own set of covariance parameters: a variance
per state, a vector of variances per state, a matrix per state, one matrix. -/
theorem C51_gaussian (hc : e.nComponents ≠ 0) (h : e.nFeatures = some nf) :
    (gaussSphericalSub (G := G) eig).nParams err e =
      .ok (dim (gaussSpace e.nComponents nf (families e.nComponents positives)) : ℤ) ∧
    (gaussDiagSub (G := G) eig).nParams err e =
      .ok (dim (gaussSpace e.nComponents nf (families e.nComponents (families nf positives))) : ℤ) ∧
    (gaussFullSub (G := G) eig).nParams err e =
      .ok (dim (gaussSpace e.nComponents nf (families e.nComponents (covariances nf))) : ℤ) ∧
    (gaussTiedSub (G := G) eig).nParams err e =
      .ok (dim (gaussSpace e.nComponents nf (covariances nf)) : ℤ) := by
  have hv := families_nonempty positives_nonempty nf
  have hm := covariances_nonempty nf
  refine ⟨?_, ?_, ?_, ?_⟩
  · rw [nParams_eq err h, dim_gaussSpace hc (families_nonempty positives_nonempty _),
      dim_families positives_nonempty, dim_positives]
    simp [gaussSphericalSub, gaussNFit, h]
    ring
  · rw [nParams_eq err h, dim_gaussSpace hc (families_nonempty hv _), dim_families hv,
      dim_families positives_nonempty, dim_positives]
    simp [gaussDiagSub, gaussNFit, h]
    ring
  · rw [nParams_eq err h, dim_gaussSpace hc (families_nonempty hm _), dim_families hm, dim_covariances,
      Nat.cast_mul, ← triangle]
    simp [gaussFullSub, gaussNFit, h]
    ring
  · rw [nParams_eq err h, dim_gaussSpace hc hm, dim_covariances]
    have := triangle 1 nf
    simp only [Nat.cast_one, one_mul] at this
    rw [← this]
    simp [gaussTiedSub, gaussNFit, h]
    ring

end

section gmm
variable {nc nm nf : ℕ}

theorem dim_gmmSpace (hc : nc ≠ 0) (hm : nm ≠ 0) {E : Type} [AddCommGroup E] [Module ℝ E] [FiniteDimensional ℝ E]
    {cov : Set E} (hcov : cov.Nonempty) :
    (dim (gmmSpace nc nm nf cov) : ℤ) =
      (nc - 1) + nc * (nc - 1) + nc * (nm - 1) + nc * nm * nf + dim cov := by
  have h1 := dim_simplex hm
  have h2 : dim (simplex nm) = nm - 1 := by omega
  have hu : (Set.univ : Set (Fin nf → ℝ)).Nonempty := Set.univ_nonempty
  have hw := families_nonempty (simplex_nonempty hm) nc
  have hmm := families_nonempty (families_nonempty hu nm) nc
  unfold gmmSpace
  rw [dim_prod (chainSpace_nonempty hc) (hw.prod (hmm.prod hcov)), dim_prod hw (hmm.prod hcov), dim_prod hmm hcov,
    dim_chainSpace hc, dim_families (simplex_nonempty hm), dim_families (families_nonempty hu nm),
    dim_families hu, dim_univ, Module.finrank_fin_fun, h2]
  push_cast [sub_one_cast hc, sub_one_cast hm]
  ring

/-- The covariance parameters of `GMMHMM`, per type; "tied" is one matrix per state. -/
theorem C51_gmm (hc : nc ≠ 0) (hm : nm ≠ 0) :
    ((gmmNFit .spherical nc nm nf).map Prod.snd).sum + (nc - 1) * (nm - 1) =
      (dim (gmmSpace nc nm nf (families nc (families nm positives))) : ℤ) ∧
    ((gmmNFit .diag nc nm nf).map Prod.snd).sum + (nc - 1) * (nm - 1) =
      (dim (gmmSpace nc nm nf (families nc (families nm (families nf positives)))) : ℤ) ∧
    ((gmmNFit .full nc nm nf).map Prod.snd).sum + (nc - 1) * (nm - 1) =
      (dim (gmmSpace nc nm nf (families nc (families nm (covariances nf)))) : ℤ) ∧
    ((gmmNFit .tied nc nm nf).map Prod.snd).sum + (nc - 1) * (nm - 1) =
      (dim (gmmSpace nc nm nf (families nc (covariances nf))) : ℤ) := by
  have hp := positives_nonempty
  have hpm := families_nonempty hp nm
  have hv := families_nonempty hp nf
  have hvm := families_nonempty hv nm
  have hs := covariances_nonempty nf
  have hsm := families_nonempty hs nm
  refine ⟨?_, ?_, ?_, ?_⟩
  · rw [dim_gmmSpace hc hm (families_nonempty hpm _), dim_families hpm, dim_families hp, dim_positives]
    simp [gmmNFit]
    ring
  · rw [dim_gmmSpace hc hm (families_nonempty hvm _), dim_families hvm, dim_families hv, dim_families hp,
      dim_positives]
    simp [gmmNFit]
    ring
  · rw [dim_gmmSpace hc hm (families_nonempty hsm _), dim_families hsm, dim_families hs, dim_covariances]
    have := triangle (nc * nm) nf
    rw [Nat.cast_mul] at this
    simp only [gmmNFit, List.map_cons, List.map_nil, List.sum_cons, List.sum_nil, this]
    push_cast
    ring
  · rw [dim_gmmSpace hc hm (families_nonempty hs _), dim_families hs, dim_covariances]
    have := triangle nc nf
    simp only [gmmNFit, List.map_cons, List.map_nil, List.sum_cons, List.sum_nil, this]
    push_cast
    ring

/-- **C51, GMMHMM.** The count is right only with one state or one mixture component; otherwise it is
too small, by `(nc - 1) * (nm - 1)`. -/
theorem C51_gmm_wrong (hc : nc ≠ 0) (hm : nm ≠ 0) :
    ((gmmNFit .full nc nm nf).map Prod.snd).sum ≤
      (dim (gmmSpace nc nm nf (families nc (families nm (covariances nf)))) : ℤ) ∧
    (((gmmNFit .full nc nm nf).map Prod.snd).sum =
      (dim (gmmSpace nc nm nf (families nc (families nm (covariances nf)))) : ℤ) ↔ nc = 1 ∨ nm = 1) := by
  rw [← (C51_gmm (nf := nf) hc hm).2.2.1]
  have h1 : (0 : ℤ) ≤ (nc : ℤ) - 1 := by omega
  have h2 : (0 : ℤ) ≤ (nm : ℤ) - 1 := by omega
  constructor
  · nlinarith [mul_nonneg h1 h2]
  · rw [left_eq_add, mul_eq_zero]
    omega

end gmm

/-! ## Examples -/

/-- Three states, two features, full covariances: `2 + 6 + 6 + 9 = 23` parameters. -/
example : (dim (gaussSpace 3 2 (families 3 (covariances 2))) : ℤ) = 23 := by
  rw [dim_gaussSpace (by norm_num) (families_nonempty (covariances_nonempty 2) 3),
    dim_families (covariances_nonempty 2), dim_covariances]
  norm_num

/-- Two states, two components, one feature, "diag": 13 parameters, of which `GMMHMM` counts 12. -/
example : ((gmmNFit .diag 2 2 1).map Prod.snd).sum = 12 ∧
    (dim (gmmSpace 2 2 1 (families 2 (families 2 (families 1 positives)))) : ℤ) = 13 := by
  refine ⟨rfl, ?_⟩
  rw [← (C51_gmm (nc := 2) (nm := 2) (nf := 1) (by norm_num) (by norm_num)).2.1]
  rfl

end Verif
