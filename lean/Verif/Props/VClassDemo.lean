import Verif.Props.VClass
import Verif.Props.VObjectFitDemo
import Verif.Props.VGaussFitDemo

/-!
# Objects that meet the hypotheses of C80
-/

set_option autoImplicit false

namespace Verif.VClassDemo
open FloatLike XF Spec ObjectFitDemo

/-- A trained `VariationalCategoricalHMM` with two states and three symbols; the prior of the emissions was set. -/
noncomputable def trained : World XF ℕ (VAttrs XF (VCatAttrs XF)) :=
  ⟨{ VObjectFitDemo.given.est with
      startprob := some (vec (![1/3, 2/3] : Fin 2 → ℝ))
      sub := { VObjectFitDemo.given.est.sub with sub := { VObjectFitDemo.given.est.sub.sub with
        emissionprob := some (mat (![![1/2, 1/4, 1/4], ![1/4, 1/4, 1/2]] : Fin 2 → Fin 3 → ℝ)) } } }, 0⟩

theorem accepted : ((vcatSub Sci.real).check trained.est).1 = .ok () :=
  (C80_check_categorical Sci.real trained.est rfl rfl).2
    ⟨⟨[], _, rfl, rfl⟩, ⟨[], _, rfl, rfl⟩, ⟨_, rfl, rfl⟩, ⟨_, rfl, rfl⟩, rfl, rfl, rfl, rfl⟩

/-- `score` answers the same after `predict`, an unseeded `sample` and a failing `decode`. -/
example (X : RawX XF) :
    (Call.vrun (vcatSub Sci.real) lib (.score X none) (vafterActions (vcatSub Sci.real) lib
      [.infer (.predict X none), .sample 5 none, .infer (.decode X none (some "no such algorithm"))] trained)).1 =
    (Call.vrun (vcatSub Sci.real) lib (.score X none) trained).1 :=
  C80_pure_categorical Sci.real lib _ _ trained trained.est.randomState trained.glob (by simp)

theorem sampled (n : Int) : ∃ r w', (vcatSub Sci.real).sample lib n (some 7) none trained = (.ok r, w') := by
  have h1 : (vcatSub Sci.real).checkFitted trained.est = (vcatSub Sci.real).check trained.est := by
    rw [VSub.checkFitted_eq]; rfl
  have h2 := accepted
  have h3 : ((vcatSub Sci.real).check trained.est).2 = { trained.est with nFeatures := some 3 } := by
    show (vcatCheck trained.est).2 = _
    have hb : vcheckBase trained.est = .ok () := rfl
    unfold vcatCheck
    rw [hb]
    rfl
  have key : ∀ e', e' = { trained.est with nFeatures := some 3 } →
      ∃ r : Ready (vcatSub (G := ℕ) Sci.real).core e', (vcatSub Sci.real).core.ready e' = some r ∧ r.nf ≠ 0 := by
    rintro e' rfl
    exact ⟨_, rfl, by norm_num⟩
  obtain ⟨r, hr, hnf⟩ := key ((vcatSub Sci.real).checkFitted trained.est).2 (by rw [h1, h3])
  exact C80_samples_categorical Sci.real lib n 7 none trained (by rw [h1]; exact h2) hr hnf (by simp)

/-- `sample(5)` returns five states and five symbols. -/
example : ∃ r w', (vcatSub Sci.real).sample lib 5 (some 7) none trained = (.ok r, w') ∧
    WellFormed 2 5 none r.1 r.2.2.length := by
  obtain ⟨r, w', h⟩ := sampled 5
  exact ⟨r, w', h, (C80_sample_categorical Sci.real 5 (some 7) none trained w' h).1⟩

/-- An object on which nothing was set yet. -/
example (X : RawX XF) : Call.vrun (vcatSub Sci.real) lib (.score X none) VObjectFitDemo.world =
    (.error .notFitted, VObjectFitDemo.world) :=
  (C80_rejects (vcatSub Sci.real) lib (.score X none) VObjectFitDemo.world).1 rfl

/-- Symbols below three only. -/
example (w : World XF ℕ (VAttrs XF (VCatAttrs XF))) (hw : w.est.nFeatures = some 3) : ∃ msg,
    (vcatSub Sci.real).fit lib (.ints (.d2 ![![0], ![3]])) none w = (.error (.valueError msg), w) :=
  (C80_symbols Sci.real lib none w).2 _ ⟨1, 0, .inr ⟨3, hw, by simp⟩⟩

/-- A `VariationalGaussianHMM` with two states and one column, of which only the attributes of the emissions were set. -/
noncomputable def gauss : VEst XF ℕ (VGaussAttrs XF) :=
  { VGaussFitDemo.world.est with
    nFeatures := some 1
    sub := { VGaussFitDemo.world.est.sub with sub := { VGaussFitDemo.world.est.sub.sub with
      meansPri := some (mat fun (_ : Fin 2) (_ : Fin 1) => (0 : ℝ)), meansPost := some (mat fun (i : Fin 2) (_ : Fin 1) => (i.val : ℝ))
      betaPri := some (vec fun _ : Fin 2 => (1 : ℝ)), betaPost := some (vec fun _ : Fin 2 => (3 : ℝ))
      dofPri := some (.d0 (fin 1)), dofPost := some (.d0 (fin 4))
      scalePri := some (mat fun _ _ : Fin 1 => (1 : ℝ)), scalePost := some (mat fun _ _ : Fin 1 => (2 : ℝ)) } } }

/-- Accepted for tied covariances; rejected for full ones. -/
example (eig : Eigvalsh XF) :
    ((vgaussSub (vlayoutTied (G := ℕ) eig) Sci.real eig).check gauss).1 = .ok () ∧
    ((vgaussSub (vlayoutFull (G := ℕ) eig) Sci.real eig).check gauss).1 ≠ .ok () := by
  refine ⟨(C80_check_gaussian _ _ _ _).1.2 ⟨1, rfl, ⟨_, rfl, rfl⟩, ⟨_, rfl, rfl⟩, ⟨_, rfl, rfl⟩, ⟨_, rfl, rfl⟩,
    ⟨_, rfl, rfl⟩, ⟨_, rfl, rfl⟩, ⟨_, rfl, rfl⟩, ⟨_, rfl, rfl⟩⟩, fun h => ?_⟩
  obtain ⟨nf, -, -, -, -, -, ⟨b, hb, hs⟩, -⟩ := (C80_check_gaussian _ _ _ _).1.1 h
  cases hb
  cases hs

/-- Three columns for a model of one. -/
example (eig : Eigvalsh XF) (X : Fin 5 → Fin 3 → XF) : ∃ msg,
    (vgaussSub (vlayoutTied eig) Sci.real eig).fit lib (.floats (.d2 X)) none ⟨gauss, 0⟩ = (.error (.valueError msg), ⟨gauss, 0⟩) :=
  C80_columns _ _ _ _ X none ⟨gauss, 0⟩ rfl (by norm_num)

end Verif.VClassDemo
