import Verif.Num.FloatLike

/-!
# Model of `ConvergenceMonitor`, src/hmmlearn/base.py:21-126

Printing and the "not converging" warning (base.py:103-115) have no effect on the state; they
are in Model/FitLog.lean.
-/

namespace Verif
open FloatLike

/-- Attributes set in base.py:58-75 (`verbose` only affects printing). `history`
is in chronological order. -/
structure Monitor (α : Type) where
  tol : α
  nIter : Nat
  history : List α := []
  iter : Nat := 0

namespace Monitor
variable {α : Type} [FloatLike α]

/-- `_reset`, base.py:84-87. -/
def reset (m : Monitor α) : Monitor α := { m with iter := 0, history := [] }

/-- `report`, base.py:89-117 (state effect). -/
def report (m : Monitor α) (logProb : α) : Monitor α :=
  { m with history := m.history ++ [logProb], iter := m.iter + 1 }

/-- `converged`, base.py:120-126: `iter == n_iter`, or at least two reports and
`history[-1] - history[-2] < tol`. -/
def converged (m : Monitor α) : Bool :=
  m.iter == m.nIter ||
    (match m.history.reverse with
     | last :: prev :: _ => lt (last - prev) m.tol
     | _ => false)

end Monitor
end Verif
