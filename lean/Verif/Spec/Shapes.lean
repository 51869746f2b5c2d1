import Verif.Model.HmmcRaw

/-!
# Shapes the kernels of `ext/_hmmc.cpp` accept
-/

namespace Verif.Spec
open Verif.Raw

variable {α β : Type}

/-- The `ValueError`s raised because of the shape of an argument. -/
def ShapeError (e : PyErr) : Prop :=
  e = .shapeMismatch ∨ e = .valueError "array has incorrect number of dimensions"

/-- The call raises a `ValueError` because of the shape of an argument. -/
def RejectsShapes (r : Except PyErr β) : Prop := ∃ e, r = .error e ∧ ShapeError e

/-- The call accesses memory outside an array or reads memory nothing was written to. -/
def BadAccess (r : Except PyErr β) : Prop := r = .error .undefinedBehaviour

/-- `ns` frames, `nc` states: start probabilities, transition matrix, frame array. -/
structure ModelShapes (ns nc : Nat) (startprob transmat frameprob : PyArray α) : Prop where
  start : startprob.shape = [nc]
  trans : transmat.shape = [nc, nc]
  frame : frameprob.shape = [ns, nc]

/-- `ns` frames, `nc` states: forward lattice, transition matrix, backward lattice, frame array. -/
structure XiShapes (ns nc : Nat) (fwd transmat bwd frameprob : PyArray α) : Prop where
  fwd : fwd.shape = [ns, nc]
  trans : transmat.shape = [nc, nc]
  bwd : bwd.shape = [ns, nc]
  frame : frameprob.shape = [ns, nc]

end Verif.Spec
