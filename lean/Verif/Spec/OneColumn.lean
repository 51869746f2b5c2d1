import Verif.Spec.Objects
import Verif.Model.VEstimator
/-
Data with one column given to a model of several features.
-/
set_option autoImplicit false

namespace Verif.Spec

variable {β G P Q : Type}

/-- The one column `nf` times. -/
def repeated (nf : ℕ) (l : List (Fin 1 → β)) : List (Fin nf → β) := l.map fun x _ => x 0

/-- The object passes the checks of the inference methods, as a model of `nf` features. -/
def FittedWith (check : Py (Est XF G P) Unit) (nf : ℕ) (e : Est XF G P) : Prop :=
  ∃ e', check e = (.ok (), e') ∧ e'.nFeatures = some nf

/-- The five inference methods of a class, and the checks they begin with. -/
structure Inference (G P : Type) where
  check : Py (Est XF G P) Unit
  scoreSamples : RawX XF → Option (List ℤ) → Bool → Py (Est XF G P) (XF × List (List XF))
  score : RawX XF → Option (List ℤ) → Py (Est XF G P) XF
  predictProba : RawX XF → Option (List ℤ) → Py (Est XF G P) (List (List XF))
  decode : RawX XF → Option (List ℤ) → Option String → Py (Est XF G P) (XF × List ℕ)
  predict : RawX XF → Option (List ℤ) → Py (Est XF G P) (List ℕ)

/-- The inference methods of a class, and of a variational class. -/
noncomputable def inference (S : Sub XF G P) : Inference G P :=
  ⟨S.checkFitted, S.scoreSamples, S.score, S.predictProba, S.decode, S.predict⟩

noncomputable def vinference (V : VSub XF G Q) : Inference G (VAttrs XF Q) :=
  ⟨V.checkFitted, V.scoreSamples, V.score, V.predictProba, V.decode, V.predict⟩

/-- One column is taken for `nf` equal columns; `mk` makes the array `X` of a list of rows. -/
structure OneColumnRepeated (mk : (d : ℕ) → List (Fin d → β) → RawX XF) (M : Inference G P) : Prop where
  scoreSamples : ∀ nf l ls b e, 0 < nf → FittedWith M.check nf e →
    M.scoreSamples (mk 1 l) ls b e = M.scoreSamples (mk nf (repeated nf l)) ls b e
  score : ∀ nf l ls e, 0 < nf → FittedWith M.check nf e → M.score (mk 1 l) ls e = M.score (mk nf (repeated nf l)) ls e
  predictProba : ∀ nf l ls e, 0 < nf → FittedWith M.check nf e →
    M.predictProba (mk 1 l) ls e = M.predictProba (mk nf (repeated nf l)) ls e
  decode : ∀ nf l ls alg e, 0 < nf → FittedWith M.check nf e →
    M.decode (mk 1 l) ls alg e = M.decode (mk nf (repeated nf l)) ls alg e
  predict : ∀ nf l ls e, 0 < nf → FittedWith M.check nf e →
    M.predict (mk 1 l) ls e = M.predict (mk nf (repeated nf l)) ls e

/-- `d` columns given to a model of `nf` features raise. -/
structure ColumnsRaise (mk : (d : ℕ) → List (Fin d → β) → RawX XF) (M : Inference G P) (d nf : ℕ) : Prop where
  score : ∀ l ls e e', M.check e = (.ok (), e') → e'.nFeatures = some nf → ∃ err,
    (M.score (mk d l) ls e).1 = .error err ∧
      (e'.implementation = "log" ∨ e'.implementation = "scaling" → ls ≠ some [] → ∃ msg, err = .valueError msg)
  scoreSamples : ∀ l ls b e, FittedWith M.check nf e → ∃ err, (M.scoreSamples (mk d l) ls b e).1 = .error err
  predictProba : ∀ l ls e, FittedWith M.check nf e → ∃ err, (M.predictProba (mk d l) ls e).1 = .error err
  decode : ∀ l ls alg e, FittedWith M.check nf e → ∃ err, (M.decode (mk d l) ls alg e).1 = .error err
  predict : ∀ l ls e, FittedWith M.check nf e → ∃ err, (M.predict (mk d l) ls e).1 = .error err

/-- `fit` of a model that has `nf` features refuses every other number of columns, one column included, and leaves
the object as it is. -/
def FitRefuses {W : Type} (mk : (d : ℕ) → List (Fin d → β) → RawX XF) (features : W → Option ℕ)
    (fit : RawX XF → Option (List ℤ) → Py W Unit) : Prop :=
  ∀ d nf (l : List (Fin d → β)) ls w, features w = some nf → d ≠ nf →
    ∃ msg, fit (mk d l) ls w = (.error (.valueError msg), w)

end Verif.Spec
