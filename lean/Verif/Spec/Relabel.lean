import Verif.Model.Train

/-!
# Specification: renaming the states

`σ` sends the new name of a state to its old name.
-/

namespace Verif.Spec
variable {α : Type} {nc : ℕ} {P P' : Type}

/-- Attributes with renamed states: start probabilities, both axes of the transition matrix, and (by
`act`) the emission parameters. -/
def relabelTheta (σ : Equiv.Perm (Fin nc)) (act : P → P) (θ : Theta α nc P) : Theta α nc P where
  startprob i := θ.startprob (σ i)
  transmat i j := θ.transmat (σ i) (σ j)
  emission := act θ.emission

/-- Two runs of `fit` that differ only in the names of the states: same monitor (history, number of
iterations), same exception if any, renamed attributes. -/
structure SameFit (σ : Equiv.Perm (Fin nc)) (act : P → P) (out' out : FitOutcome α (Theta α nc P)) : Prop where
  state : out'.state = relabelTheta σ act out.state
  monitor : out'.monitor = out.monitor
  raised : out'.raised = out.raised

end Verif.Spec
