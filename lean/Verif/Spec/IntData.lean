import Verif.Spec.Objects
import Verif.Model.VEstimator
/-
Integers as observations of the classes for real data.
-/
set_option autoImplicit false

namespace Verif.Spec

variable {G P Q : Type} {nf : ℕ}

/-- The same numbers as reals. -/
noncomputable def asReals (l : List (Fin nf → ℤ)) : List (Fin nf → ℝ) := l.map fun x k => (x k : ℝ)

/-- The squares are 64-bit integers (`X**2` is computed in the type of `X`, _emissions.py:157). -/
def SquaresFit (l : List (Fin nf → ℤ)) : Prop := ∀ x ∈ l, ∀ k, |x k| ^ 2 < 2 ^ 63

/-- All methods treat an array of integers as the array of the same numbers in floating point. -/
structure IntsAreReals (S : Sub XF G P) (R : RandomLib XF G) : Prop where
  fit : ∀ (nf : ℕ) (l : List (Fin nf → ℤ)) (ls), SquaresFit l → S.fit R (intsX l) ls = S.fit R (realsX (asReals l)) ls
  scoreSamples : ∀ (nf : ℕ) (l : List (Fin nf → ℤ)) (ls b), SquaresFit l →
    S.scoreSamples (intsX l) ls b = S.scoreSamples (realsX (asReals l)) ls b
  score : ∀ (nf : ℕ) (l : List (Fin nf → ℤ)) (ls), SquaresFit l → S.score (intsX l) ls = S.score (realsX (asReals l)) ls
  predictProba : ∀ (nf : ℕ) (l : List (Fin nf → ℤ)) (ls), SquaresFit l →
    S.predictProba (intsX l) ls = S.predictProba (realsX (asReals l)) ls
  decode : ∀ (nf : ℕ) (l : List (Fin nf → ℤ)) (ls alg), SquaresFit l →
    S.decode (intsX l) ls alg = S.decode (realsX (asReals l)) ls alg
  predict : ∀ (nf : ℕ) (l : List (Fin nf → ℤ)) (ls), SquaresFit l →
    S.predict (intsX l) ls = S.predict (realsX (asReals l)) ls

/-- The same for the variational classes. -/
structure VIntsAreReals (V : VSub XF G Q) (R : RandomLib XF G) : Prop where
  fit : ∀ (nf : ℕ) (l : List (Fin nf → ℤ)) (ls), SquaresFit l → V.fit R (intsX l) ls = V.fit R (realsX (asReals l)) ls
  scoreSamples : ∀ (nf : ℕ) (l : List (Fin nf → ℤ)) (ls b), SquaresFit l →
    V.scoreSamples (intsX l) ls b = V.scoreSamples (realsX (asReals l)) ls b
  score : ∀ (nf : ℕ) (l : List (Fin nf → ℤ)) (ls), SquaresFit l → V.score (intsX l) ls = V.score (realsX (asReals l)) ls
  predictProba : ∀ (nf : ℕ) (l : List (Fin nf → ℤ)) (ls), SquaresFit l →
    V.predictProba (intsX l) ls = V.predictProba (realsX (asReals l)) ls
  decode : ∀ (nf : ℕ) (l : List (Fin nf → ℤ)) (ls alg), SquaresFit l →
    V.decode (intsX l) ls alg = V.decode (realsX (asReals l)) ls alg
  predict : ∀ (nf : ℕ) (l : List (Fin nf → ℤ)) (ls), SquaresFit l →
    V.predict (intsX l) ls = V.predict (realsX (asReals l)) ls

end Verif.Spec
