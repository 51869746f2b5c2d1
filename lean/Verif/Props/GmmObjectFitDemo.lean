import Verif.Props.GmmObjectFit
import Verif.Props.GmmInts
import Verif.Props.GaussFitDemo

/-!
# Objects that meet the hypotheses of C74
-/

set_option autoImplicit false

namespace Verif.GmmObjectFitDemo
open FloatLike XF Spec ObjectFitDemo

/-- `GMMHMM(n_components=2, n_mix=2)` with the default hyper-parameters. -/
noncomputable def obj : World XF ℕ (GmmAttrs XF) :=
  ⟨{ ObjectsDemo.est { minCovar := .fin (1 / 1000), weightsPrior := .scalar (.fin 1), meansPrior := .scalar (.fin 0)
                       meansWeight := .scalar (.fin 0), covarsPrior := none, covarsWeight := none } with
      params := ['s', 't', 'm', 'c', 'w'], initParams := ['s', 't', 'm', 'c', 'w'], startprob := none, transmat := none }, 0⟩

theorem normals : RealNormals lib := fun mu _ _ _ => ⟨mu, rfl⟩

theorem isFresh (ty : CovType) : GmmFresh ty 2 obj GaussFitDemo.xs (some [2, 1]) where
  settings := ⟨by simp [obj, ObjectsDemo.est], fun _ => rfl, fun _ _ => rfl, by simp [obj, ObjectsDemo.est], rfl⟩
  priors := ⟨throughout_scalar _ _, throughout_scalar _ _, throughout_scalar _ _, fun t h => (by cases h), fun t h => (by cases h), rfl, rfl⟩
  init _ h := h
  params := rfl
  features := .inr rfl
  minCovar := ⟨1 / 1000, by norm_num, rfl⟩
  long := ⟨_, List.mem_cons_self .., by simp⟩
  clusters := by simp [obj, ObjectsDemo.est, GaussFitDemo.xs, samples]
  lengths := .inl rfl

example : GmmTrained (gmmSphericalForm obj.est.nComponents 2 2) (gmmSub (nm := 2) gmmSpherical) lib obj GaussFitDemo.xs (some [2, 1]) :=
  C74_gmm_spherical_fresh positive GaussFitDemo.centres normals (by norm_num) le_rfl (isFresh _)

example : GmmTrained (gmmDiagForm obj.est.nComponents 2 2) (gmmSub (nm := 2) gmmDiag) lib obj GaussFitDemo.xs (some [2, 1]) :=
  C74_gmm_diag_fresh positive GaussFitDemo.centres normals (by norm_num) (isFresh _)

example {eig : Eigvalsh XF} (he : EigvalshSpec eig) :
    GmmTrained (gmmFullForm obj.est.nComponents 2 2) (gmmSub (nm := 2) (gmmFull eig)) lib obj GaussFitDemo.xs (some [2, 1]) :=
  C74_gmm_full_fresh positive GaussFitDemo.centres normals (by norm_num) he (isFresh _)

example {eig : Eigvalsh XF} (he : EigvalshSpec eig) :
    GmmTrained (gmmTiedForm obj.est.nComponents 2 2) (gmmSub (nm := 2) (gmmTied eig)) lib obj GaussFitDemo.xs (some [2, 1]) :=
  C74_gmm_tied_fresh positive GaussFitDemo.centres normals (by norm_num) he (isFresh _)

/-! ## Integers: C98 -/

/-- The same object with the integers `means_prior=0, means_weight=0`. -/
noncomputable def intObj : World XF ℕ (GmmAttrs XF) := { obj with est := { obj.est with sub := { obj.est.sub with meansInt := true } } }

theorem intObj_adds : AddsToInts intObj.est := .inl ⟨rfl, by simp [intObj, obj, ObjectsDemo.est]⟩

example : ((gmmSub (nm := 2) gmmDiag).fit lib (realsX (samples GaussFitDemo.xs)) (some [2, 1]) intObj).1 = .error .typeError :=
  ((C98_diag _ _ intObj intObj_adds (by simp [intObj, obj, ObjectsDemo.est])).2
    (C74_gmm_diag_fresh positive GaussFitDemo.centres normals (by norm_num) (isFresh _)).1).1

/-- With the means fixed, the integers do no harm. -/
example : ¬ AddsToInts { intObj.est with params := ['s', 't', 'c', 'w'] } := by
  simp [AddsToInts, intObj, obj, ObjectsDemo.est]

end Verif.GmmObjectFitDemo
