import Verif.Spec.Data
import Verif.Model.Train

/-!
# Specification: the same data written differently
-/

set_option autoImplicit false

namespace Verif.Spec
variable {D D' α P P' : Type} {nc : ℕ}

/-- The sequence with every sample rewritten by `φ`. -/
def ObsSeq.recode (φ : D → D') (s : ObsSeq D) : ObsSeq D' := ⟨s.n, fun t => φ (s.x t)⟩

/-- A data set with every sample rewritten by `φ`. -/
def recode (φ : D → D') (ss : List (ObsSeq D)) : List (ObsSeq D') := ss.map (ObsSeq.recode φ)

/-- Two runs of `fit` that differ only in how samples are written: same monitor (history, number of iterations), same
exception if any, same start and transition probabilities, emission parameters rewritten by `act`. -/
structure RecodedFit (act : P → P') (out' : FitOutcome α (Theta α nc P')) (out : FitOutcome α (Theta α nc P)) :
    Prop where
  startprob : out'.state.startprob = out.state.startprob
  transmat : out'.state.transmat = out.state.transmat
  emission : out'.state.emission = act out.state.emission
  monitor : out'.monitor = out.monitor
  raised : out'.raised = out.raised

end Verif.Spec
