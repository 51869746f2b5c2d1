import Verif.Spec.Digamma
import Verif.Model.Kl
import Verif.Num.XFLemmas
import Mathlib.LinearAlgebra.Matrix.PosDef
import Mathlib.LinearAlgebra.Matrix.NonsingularInverse

/-!
# Specification: Kullback–Leibler divergences in closed form

Penny, "Kullback-Liebler divergences of normal, gamma, Dirichlet and Wishart densities" (the
reference of `_kl_divergence.py`), and what is assumed of the library routines.
-/

namespace Verif.Spec
open XF
open scoped Matrix

variable {n : ℕ}

/-- `KL(Dir(q) ‖ Dir(p))`. -/
noncomputable def klDirichlet (q p : Fin n → ℝ) : ℝ :=
  lnGamma (∑ i, q i) - lnGamma (∑ i, p i) - ∑ i, (lnGamma (q i) - lnGamma (p i)) +
    ∑ i, (q i - p i) * (digamma (q i) - digamma (∑ k, q k))

/-- `KL(N(m, v) ‖ N(m', v'))`, `v` and `v'` variances. -/
noncomputable def klNormal (m v m' v' : ℝ) : ℝ :=
  1 / 2 * Real.log (v' / v) + ((m - m') ^ 2 + v) / (2 * v') - 1 / 2

/-- `KL(N(m, S) ‖ N(m', S'))`. -/
noncomputable def klMvn (m : Fin n → ℝ) (S : Matrix (Fin n) (Fin n) ℝ) (m' : Fin n → ℝ)
    (S' : Matrix (Fin n) (Fin n) ℝ) : ℝ :=
  1 / 2 * (Real.log (S'.det / S.det) + (S'⁻¹ * S).trace + (m - m') ⬝ᵥ (S'⁻¹ *ᵥ (m - m')) - n)

/-- `KL(Gamma(b, c) ‖ Gamma(b', c'))`, `b` shape and `c` rate. -/
noncomputable def klGamma (b c b' c' : ℝ) : ℝ :=
  (b - b') * digamma b - lnGamma b + lnGamma b' + b' * Real.log (c / c') + b * (c' - c) / c

/-- `KL(W(ν, S⁻¹) ‖ W(ν', S'⁻¹))`, `S` and `S'` inverse scale matrices. -/
noncomputable def klWishart (ν : ℝ) (S : Matrix (Fin n) (Fin n) ℝ) (ν' : ℝ)
    (S' : Matrix (Fin n) (Fin n) ℝ) : ℝ :=
  ν' / 2 * Real.log (S.det / S'.det) + ν / 2 * ((S' * S⁻¹).trace - n) +
    ∑ i : Fin n, (lnGamma ((ν' - i) / 2) - lnGamma ((ν - i) / 2) +
      (ν - ν') / 2 * digamma ((ν - i) / 2))

/-- The library routines compute what they are meant to. -/
structure _root_.Verif.Sci.Exact (sci : Sci XF) : Prop where
  gammaln : ∀ x : ℝ, 0 < x → sci.gammaln (fin x) = fin (lnGamma x)
  digamma : ∀ x : ℝ, 0 < x → sci.digamma (fin x) = fin (Spec.digamma x)
  inv : ∀ {n : ℕ} (M : Matrix (Fin n) (Fin n) ℝ), M.det ≠ 0 →
    sci.inv (fun i j => fin (M i j)) = .ok fun i j => fin (M⁻¹ i j)
  slogdet : ∀ {n : ℕ} (M : Matrix (Fin n) (Fin n) ℝ), M.det ≠ 0 →
    sci.slogdet (fun i j => fin (M i j)) = (fin (SignType.sign M.det : ℝ), fin (Real.log |M.det|))
  slogdet_zero : ∀ {n : ℕ} (M : Matrix (Fin n) (Fin n) ℝ), M.det = 0 →
    sci.slogdet (fun i j => fin (M i j)) = (fin 0, ninf)

end Verif.Spec
