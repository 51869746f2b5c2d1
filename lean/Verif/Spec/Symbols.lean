import Verif.Model.Estimator
import Mathlib.Algebra.BigOperators.Fin

/-!
# Specification: symbols, counts and numbers of features
-/

namespace Verif.Spec

variable {α : Type}

/-- `X` has an integer dtype. -/
def Integral : XArr α → Prop
  | .ints _ => True
  | .floats _ => False

/-- The integer `k` occurs in `X`. -/
def HasSymbol : XArr α → Int → Prop
  | .ints rows, k => ∃ r ∈ rows, ∃ j, r j = k
  | .floats _, _ => False

/-- Integer symbols, none negative, all below `n_features` if that is set. -/
def SymbolsOk (nf : Option Nat) (X : XArr α) : Prop :=
  Integral X ∧ (∀ k, HasSymbol X k → 0 ≤ k) ∧ ∀ n, nf = some n → ∀ k, HasSymbol X k → k < n

/-- The total of row `t` is `s`. -/
def RowTotal : XArr α → Nat → Int → Prop
  | .ints rows, t, s => ∃ r, rows[t]? = some r ∧ ∑ j, r j = s
  | .floats _, _, _ => False

/-- A column of symbols as the argument `X`. -/
def column {n : Nat} (k : Fin n → Int) : RawX α := .ints (.d2 (n := 1) fun i _ => k i)

end Verif.Spec
