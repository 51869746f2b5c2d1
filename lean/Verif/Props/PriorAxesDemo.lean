import Verif.Props.PriorAxes
import Verif.Props.ObjectsDemo
import Verif.Props.GmmObjectFitDemo

/-!
# Objects that meet the hypotheses of C109
-/
set_option autoImplicit false

namespace Verif.PriorAxesDemo
open FloatLike XF Spec ObjectsDemo

/-- `GMMHMM(n_mix=2, covariance_type="diag")` with variances 3. -/
noncomputable def e : Est XF ℕ (GmmAttrs XF) := gmm .diag fun _ => 3

theorem holds : HoldsGmm .diag 2 2 e π A (fun _ => 1 / 2) (fun i => i.sum) fun _ => 3 :=
  gmm_holds .diag (fun _ => 3) fun _ _ _ => tiny_le (by norm_num)

/-- It is accepted, with the default hyper-parameters. -/
theorem accepted : ∃ e', (gmmSub (nm := 2) (gmmTypeOf (fun _ _ _ => 0) .diag)).checkFitted e = (.ok (), e') := by
  have h := holds
  have hs : e.startprob.isSome := by rw [h.chain.startprob]; rfl
  have hnf : (e.nFeatures <|> [e.nComponents, 2, 2][2]?) = some 2 := by
    cases hn : e.nFeatures with
    | none => rfl
    | some n => rw [h.features n hn]; rfl
  obtain ⟨h1, -⟩ := C30_gmm (nm := 2) gmmDiag_checks e h.chain.base hs h.weights h.means h.covars
  have hok := h1.2 ⟨2, hnf, h.priors, rfl, h.w_sum, rfl, rfl, gmmCov_ok h.cov⟩
  exact ⟨_, Prod.ext hok rfl⟩

/-- With `covariance_type = "spherical"` assigned, and any `covars_`, `score` raises `ValueError`. -/
example (c : Option (Tensor XF)) : ∃ e', (gmmSub (nm := 2) (gmmTypeOf (fun _ _ _ => 0) .diag)).checkFitted e = (.ok (), e') ∧
    ∀ X ls, ∃ msg, ((gmmSub (nm := 2) (gmmTypeOf (fun _ _ _ => 0) .spherical)).score X ls
      { e' with sub := { e'.sub with weights := e'.sub.weights, means := e'.sub.means, covars := c } }).1 =
        .error (.valueError msg) := by
  obtain ⟨e', h⟩ := accepted
  exact ⟨e', h, (C109_retype h (by decide) _ _ c).2⟩

/-- After a `fit` with `covariance_type = "diag"` that returns. -/
example (wt m c : Option (Tensor XF)) : NoneReturns (gmmSub (nm := 2) (gmmTypeOf (fun _ _ _ => 0) .spherical))
    (let e' := ((gmmSub (nm := 2) gmmDiag).fit ObjectFitDemo.lib (realsX (samples GaussFitDemo.xs)) (some [2, 1]) GmmObjectFitDemo.obj).2.est
     { e' with sub := { e'.sub with weights := wt, means := m, covars := c } }) :=
  C109_after_fit (ty := .diag) (eig := fun _ _ _ => 0)
    (Prod.ext (C74_gmm_diag_fresh ObjectFitDemo.positive GaussFitDemo.centres GmmObjectFitDemo.normals (by norm_num)
      (GmmObjectFitDemo.isFresh _)).1 rfl) (by decide) wt m c

/-- A user who sets the prior of the wrong type meets the same. -/
example : NoneReturns (gmmSub (nm := 2) (gmmTypeOf (fun _ _ _ => 0) .tied))
    { e with sub := { e.sub with covarsPrior := some ⟨[2, 2, 2, 2], fun _ => 0⟩ } } :=
  C109_unusable (k := 4) ⟨_, rfl, rfl⟩ (by decide)

end Verif.PriorAxesDemo
