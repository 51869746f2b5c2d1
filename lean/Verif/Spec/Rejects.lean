import Verif.Spec.Objects

/-!
# Specification: which arguments the methods accept
-/

set_option autoImplicit false

namespace Verif.Spec
open FloatLike XF

/-- `X` has two axes, at least one row and one column, and neither NaN nor infinity in it. -/
def AcceptableX : RawX XF → Prop
  | .ints a => ∃ m n, a.shape = [m, n] ∧ 0 < m ∧ 0 < n
  | .floats a => ∃ (m n : ℕ) (v : Fin m → Fin n → ℝ), a = mat v ∧ 0 < m ∧ 0 < n

/-- The number of rows of an acceptable `X`. -/
def keptRows : RawX XF → ℕ
  | .ints a => a.shape.headD 0
  | .floats a => a.shape.headD 0

/-- The names of the decoders. -/
def KnownDecoder (s : String) : Prop := s = "viterbi" ∨ s = "map"

/-- The names of the implementations. -/
def KnownImplementation (s : String) : Prop := s = "log" ∨ s = "scaling"

/-- What `lengths` that do not cut `n` samples raise: an empty list IndexError, a wrong total ValueError. -/
def LengthsRaise (n : ℕ) (ls : Option (List Int)) (err : PyErr) : Prop :=
  (ls = some [] ∧ err = .indexError) ∨
    ∃ l, ls = some l ∧ l ≠ [] ∧ l.sum ≠ n ∧ ∃ msg, err = .valueError msg

/-- The Poisson weight of an integer: none for negative numbers. -/
noncomputable def poissonWeight (l : ℝ) (k : ℤ) : ℝ := if 0 ≤ k then poissonPmf l k.toNat else 0

/-- Emission weights of rows of integers. -/
noncomputable def poissonZ {nc nf : ℕ} (l : Fin nc → Fin nf → ℝ) (x : Fin nf → ℤ) (i : Fin nc) : ℝ :=
  ∏ k, poissonWeight (l i k) (x k)

end Verif.Spec
