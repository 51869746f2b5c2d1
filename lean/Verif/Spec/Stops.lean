import Verif.Num.XFLemmas
import Verif.Model.Train

/-!
# Specification: training stops by itself
-/

set_option autoImplicit false

namespace Verif.Spec
open XF

/-- A training run whose reported values start at `x` and cannot exceed `B`, with tolerance `τ`, allowed
`n` iterations: it makes at most `2 + (B - x) / τ` of them; and if it was allowed more and returned, it ended
because the last value had improved by less than the tolerance. -/
structure StopsWithin (B x τ : ℝ) (n : ℕ) (h : List XF) (raised : Option PyErr) : Prop where
  length_le : (h.length : ℝ) ≤ 2 + (B - x) / τ
  reason : raised = none → 2 + (B - x) / τ < n → ∃ l a b, h = l ++ [fin a, fin b] ∧ b - a < τ

end Verif.Spec
