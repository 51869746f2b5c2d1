import Verif.Spec.IntData
import Verif.Spec.Train
import Verif.Spec.Gaussian
import Verif.Model.IntWidth
/-
Integer data whose squares need not fit.
-/
set_option autoImplicit false

namespace Verif.Spec
open FloatLike XF
variable {G : Type} {nc nf : ℕ}

/-- The numbers of an integer type. -/
def InType : IntType → ℤ → Prop
  | .signed b, z => -2 ^ b ≤ 2 * z ∧ 2 * z < 2 ^ b
  | .unsigned b, z => 0 ≤ z ∧ z < 2 ^ b

/-- The squares of the data are numbers of the type. -/
def SquaresIn (ty : IntType) (l : List (Fin nf → ℤ)) : Prop := ∀ x ∈ l, ∀ k, InType ty (x k * x k)

/-- The same samples as reals. -/
noncomputable def realRow (x : Fin nf → ℤ) : Fin nf → ℝ := fun k => x k

/-- Number of samples. -/
def sampleCount {D : Type} (ss : List (ObsSeq D)) : ℕ := (ss.map fun s => s.n + 1).sum

/-- Amplitudes beyond the square root of the largest number of the type but below the square root of `2 ^ b`: for
`int16` those from 182 to 255. -/
def LoudFor (b : ℕ) (x : ℤ) : Prop := 2 ^ b ≤ 2 * x ^ 2 ∧ x ^ 2 < 2 ^ b

/-- What one square loses: a multiple of `2 ^ bits` (`C105_wrap`). -/
def lost (ty : IntType) (x : ℤ) : ℤ := x * x - ty.wrap (x * x)

/-- Some state has a negative variance in every feature. -/
def NegativeVariances (c : Fin nc → Fin nf → XF) : Prop := ∀ k, ∃ i, ∃ v : ℝ, v < 0 ∧ c i k = fin v

end Verif.Spec
