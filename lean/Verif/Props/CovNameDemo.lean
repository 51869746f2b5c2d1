import Verif.Props.CovName
import Verif.Props.GaussFitDemo

/-!
# Objects that meet the hypotheses of C108
-/
set_option autoImplicit false

namespace Verif.CovNameDemo
open FloatLike XF Spec

/-- A misspelt name. -/
theorem misspelt : "diagonal" ∉ CovNames := by decide

/-- A fitted object with variances per feature. -/
noncomputable def e : Est XF ℕ (GaussAttrs XF) := ObjectsDemo.gauss (mat ![![1, 2], ![3, 1]])

theorem table : VarianceTable e := by
  intro m nf hm hs
  obtain rfl := Option.some.inj hm
  obtain rfl : 2 = nf := Option.some.inj hs
  exact ⟨_, rfl⟩

example (X : RawX XF) (ls : Option (List Int)) :
    (gaussNamed (fun _ _ _ => 0) "spherical").score X ls e = (gaussNamed (fun _ _ _ => 0) "diag").score X ls e :=
  (C108_reassign X ls e table).1

theorem checked : checkBase e = .ok () := (ObjectsDemo.gauss_holds _).chain.base

example (X : RawX XF) (ls : Option (List Int)) :
    ((gaussNamed (fun _ _ _ => 0) "diagonal").score X ls e).1 = .error (.valueError "covariance_type must be one of") :=
  (C108_score misspelt X ls e checked (a := mat ObjectsDemo.mu) rfl rfl).1

/-- Two samples in the plane. -/
def X : RawX XF := .ints (.d2 ![![0, 2], ![1, 1]])

/-- The first `fit` of a new object. -/
example (ls : Option (List Int)) :
    let out := gaussNamedFit (fun _ _ _ => 0) "diagonal" ObjectFitDemo.lib X ls GaussFitDemo.obj
    out.1 = .error (.keyError "diagonal") ∧ out.2.est.startprob.isSome ∧ out.2.est.nFeatures = some 2 ∧ out.2.est.sub.means = none := by
  obtain ⟨h1, ⟨s, t, f, r, h2⟩, h3, -, h5, -⟩ := C108_fit (eig := fun _ _ _ => (0 : XF)) misspelt ObjectFitDemo.lib X ls GaussFitDemo.obj
    (X' := .ints (List.ofFn ![![0, 2], ![1, 1]])) (by simp [X, checkArray]) (.inl rfl)
  refine ⟨h1, h3, h5, ?_⟩
  rw [h2]
  rfl

/-- Repairing the name does not help. -/
example (ls : Option (List Int)) :
    ((gaussNamed (fun _ _ _ => 0) "diag").score X none (gaussNamedFit (fun _ _ _ => 0) "diagonal" ObjectFitDemo.lib X ls GaussFitDemo.obj).2.est).1 ≠
      .error .notFitted :=
  (C108_after_fit misspelt ObjectFitDemo.lib X ls GaussFitDemo.obj (X' := .ints (List.ofFn ![![0, 2], ![1, 1]]))
    (by simp [X, checkArray]) (.inl rfl) rfl "diag" X none).2.2

end Verif.CovNameDemo
