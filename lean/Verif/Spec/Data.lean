import Verif.Spec.Paths

/-!
# Specification: data sets of several sequences
-/

namespace Verif.Spec

/-- One non-empty sequence of samples. -/
structure ObsSeq (D : Type) where
  n : ℕ
  x : Fin (n + 1) → D

variable {D Obs : Type} {nc : ℕ}

/-- The rows of `X` holding the sequence. -/
def ObsSeq.rows (obs : D → Obs) (s : ObsSeq D) : List Obs := List.ofFn fun t => obs (s.x t)

theorem rows_isEmpty (obs : D → Obs) (s : ObsSeq D) : (s.rows obs).isEmpty = false := by
  simp [ObsSeq.rows, List.ofFn_succ]

/-- The emission weights of the sequence, `B t i = b (x t) i`. -/
def ObsSeq.weights (b : D → Fin nc → ℝ) (s : ObsSeq D) : Fin (s.n + 1) → Fin nc → ℝ := fun t => b (s.x t)

/-- The array `X` a user passes for a list of sequences: their concatenation. -/
def dataX (obs : D → Obs) (ss : List (ObsSeq D)) : List Obs := (ss.map (ObsSeq.rows obs)).flatten

/-- The `lengths` a user passes for a list of sequences. -/
def dataLengths (ss : List (ObsSeq D)) : List Int := ss.map fun s => (s.n : Int) + 1

end Verif.Spec
