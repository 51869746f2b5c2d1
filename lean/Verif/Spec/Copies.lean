import Verif.Spec.Data
import Verif.Model.Train
import Verif.Num.XFLemmas

/-!
# Specification: a data set repeated
-/

set_option autoImplicit false

namespace Verif.Spec
open XF
variable {D P : Type} {nc : ℕ}

/-- `k` copies of a data set, one after another. -/
def copies (k : ℕ) (ss : List (ObsSeq D)) : List (ObsSeq D) := (List.replicate k ss).flatten

/-- The parameters of a prior that counts `k` times as much: the distance to the flat value `a` is multiplied. -/
def stronger (k : ℕ) (a x : ℝ) : ℝ := a + k * (x - a)

/-- A monitor that asks for a gain `k` times as large. -/
def Coarser (k : ℕ) (mon' mon : Monitor XF) : Prop := mon'.tol = fin k * mon.tol ∧ mon'.nIter = mon.nIter

/-- Two runs of `fit` of which one sees everything `k` times: same parameters, number of iterations and outcome; every
entry of the history multiplied by `k`. -/
structure CopiedFit (k : ℕ) (out' out : FitOutcome XF (Theta XF nc P)) : Prop where
  state : out'.state = out.state
  history : out'.monitor.history = out.monitor.history.map (fin k * ·)
  iter : out'.monitor.iter = out.monitor.iter
  raised : out'.raised = out.raised

end Verif.Spec
