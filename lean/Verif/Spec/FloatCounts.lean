import Verif.Spec.Rejects
import Verif.Spec.IntData
/-
Counts given in floating point.
-/
set_option autoImplicit false

namespace Verif.Spec
open scoped Classical

variable {G P : Type}

/-- The Poisson weight of a number: none unless it is a count. -/
noncomputable def poissonWeightR (l x : ℝ) : ℝ := if ∃ k : ℕ, x = k then poissonPmf l ⌊x⌋₊ else 0

/-- Emission weights of rows of numbers. -/
noncomputable def poissonR {nc nf : ℕ} (l : Fin nc → Fin nf → ℝ) (x : Fin nf → ℝ) (i : Fin nc) : ℝ :=
  ∏ k, poissonWeightR (l i k) (x k)

/-- The inference methods treat floats that are integers as these integers. -/
structure InfersFromFloats (S : Sub XF G P) : Prop where
  scoreSamples : ∀ (nf : ℕ) (l : List (Fin nf → ℤ)) (ls b),
    S.scoreSamples (realsX (asReals l)) ls b = S.scoreSamples (intsX l) ls b
  score : ∀ (nf : ℕ) (l : List (Fin nf → ℤ)) (ls), S.score (realsX (asReals l)) ls = S.score (intsX l) ls
  predictProba : ∀ (nf : ℕ) (l : List (Fin nf → ℤ)) (ls),
    S.predictProba (realsX (asReals l)) ls = S.predictProba (intsX l) ls
  decode : ∀ (nf : ℕ) (l : List (Fin nf → ℤ)) (ls alg),
    S.decode (realsX (asReals l)) ls alg = S.decode (intsX l) ls alg
  predict : ∀ (nf : ℕ) (l : List (Fin nf → ℤ)) (ls), S.predict (realsX (asReals l)) ls = S.predict (intsX l) ls

/-- So does training. -/
structure TrainsFromFloats (S : Sub XF G P) (R : RandomLib XF G) : Prop extends InfersFromFloats S where
  fit : ∀ (nf : ℕ) (l : List (Fin nf → ℤ)) (ls), S.fit R (realsX (asReals l)) ls = S.fit R (intsX l) ls

/-- Training refuses floats, and changes nothing but `n_features`. -/
def RefusesFloats (S : Sub XF G P) (R : RandomLib XF G) : Prop :=
  ∀ (nf : ℕ) (l : List (Fin nf → ℝ)) (ls) (w : World XF G P), ∃ msg w', S.fit R (realsX l) ls w = (.error (.valueError msg), w') ∧
    ∃ f, w' = { w with est := { w.est with nFeatures := f } }

end Verif.Spec
