import Verif.Props.GaussFit
import Verif.Props.ObjectFitDemo

/-!
# Objects that meet the hypotheses of C73
-/

set_option autoImplicit false

namespace Verif.GaussFitDemo
open FloatLike XF Spec ObjectFitDemo

/-- `GaussianHMM(n_components=2)` with the default hyper-parameters (`min_covar=1e-3`, `covars_prior=1e-2`). -/
noncomputable def obj : World XF ℕ (GaussAttrs XF) :=
  ⟨{ ObjectsDemo.est { minCovar := .fin (1 / 1000), meansPrior := fun _ _ => .fin 0, meansWeight := .fin 0
                       covarsPrior := fun _ _ _ => .fin (1 / 100), covarsWeight := .fin 1 } with
      params := ['s', 't', 'm', 'c'], initParams := ['s', 't', 'm', 'c'], startprob := none, transmat := none }, 0⟩

/-- Three samples in the plane, in two sequences. -/
noncomputable def xs : List (ObsSeq (Fin 2 → ℝ)) := [⟨1, ![![0, 2], ![1, 1]]⟩, ⟨0, ![![3, 0]]⟩]

theorem centres : RealCentres lib := fun _ {_} _ g => ⟨fun i _ => i.val + g, rfl⟩

theorem isFresh : GaussFresh obj xs (some [2, 1]) where
  settings := ⟨by simp [obj, ObjectsDemo.est], fun _ => rfl, fun _ _ => rfl, by simp [obj, ObjectsDemo.est], rfl⟩
  init _ h := h
  params := rfl
  features := .inr rfl
  minCovar := ⟨1 / 1000, by norm_num, rfl⟩
  long := ⟨_, List.mem_cons_self .., by simp⟩
  enough := by simp [obj, ObjectsDemo.est, xs, samples]
  lengths := .inl rfl

/-- The default priors. -/
noncomputable def prior : GaussPrior obj.est.nComponents 2 := ⟨fun _ _ => 0, 0, 1⟩

theorem prior_is : PriorIs obj.est prior := ⟨fun _ _ => rfl, rfl, rfl⟩

theorem ones_psd : (Matrix.of fun _ _ : Fin 2 => (1 / 100 : ℝ)).PosSemidef := by
  have := Matrix.posSemidef_vecMulVec_self_star (fun _ : Fin 2 => (1 / 10 : ℝ))
  convert this using 1
  ext i j
  simp [Matrix.vecMulVec_apply]
  norm_num

example {eig : Eigvalsh XF} : GaussTrained (diagForm obj.est.nComponents 2) (gaussDiagSub eig) lib obj xs (some [2, 1]) :=
  C73_gaussian_diag_fresh positive centres (by norm_num) isFresh prior_is (fun _ _ => rfl)
    ⟨le_rfl, le_rfl, fun _ _ => by norm_num⟩

example {eig : Eigvalsh XF} :
    GaussTrained (sphericalForm obj.est.nComponents 2) (gaussSphericalSub eig) lib obj xs (some [2, 1]) :=
  C73_gaussian_spherical_fresh positive centres (by norm_num) isFresh prior_is (fun _ _ => rfl)
    ⟨le_rfl, le_rfl, fun _ _ => by norm_num⟩

example {eig : Eigvalsh XF} (he : EigvalshSpec eig) :
    GaussTrained (fullForm obj.est.nComponents 2) (gaussFullSub eig) lib obj xs (some [2, 1]) :=
  C73_gaussian_full_fresh he positive centres (by norm_num) isFresh prior_is le_rfl (fun _ _ _ => rfl) fun _ => ones_psd

example {eig : Eigvalsh XF} (he : EigvalshSpec eig) :
    GaussTrained (tiedForm obj.est.nComponents 2) (gaussTiedSub eig) lib obj xs (some [2, 1]) :=
  C73_gaussian_tied_fresh he positive centres (by norm_num) isFresh prior_is le_rfl (fun _ _ => rfl) ones_psd

end Verif.GaussFitDemo
