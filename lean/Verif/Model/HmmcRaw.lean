import Mathlib.Data.Int.Order.Basic
import Verif.Model.Hmmc

/-!
# `ext/_hmmc.cpp` at the level of arrays and loops

`Verif/Model/Hmmc.lean` describes what the kernels compute for arguments whose shapes match.  This
file transcribes the same functions statement by statement: the arguments are numpy arrays of any
shape, lattices are mutable arrays, an access outside the bounds or to memory nothing has been
written to is `PyErr.undefinedBehaviour`, and the loops are the loops of the source.

Not modelled: the `int` loop counters (sizes of `2^31` and more), strides (`unchecked` accessors
address the element with the given index whatever the memory layout), the copies made by
`forcecast` in `log`, and the global interpreter lock.
-/

namespace Verif.Raw
open FloatLike

/-- A numpy array: its shape, and the element at each index tuple. -/
structure PyArray (α : Type) where
  shape : List Nat
  data : List Nat → α

/-- A one-dimensional accessor, `none` marking elements nothing has been written to. -/
structure Arr1 (β : Type) where
  n : Nat
  cell : Nat → Option β

/-- A two-dimensional accessor. -/
structure Arr2 (β : Type) where
  rows : Nat
  cols : Nat
  cell : Nat → Nat → Option β

section Access
variable {β : Type}

/-- The value of a memory cell; reading one nothing has been written to is undefined. -/
def readCell : Option β → Except PyErr β
  | some x => .ok x
  | none => .error .undefinedBehaviour

/-- `a(i)` as a value. -/
def Arr1.get (a : Arr1 β) (i : Int) : Except PyErr β :=
  if 0 ≤ i ∧ i < a.n then readCell (a.cell i.toNat) else .error .undefinedBehaviour

/-- `a(i) = x`. -/
def Arr1.set (a : Arr1 β) (i : Int) (x : β) : Except PyErr (Arr1 β) :=
  if 0 ≤ i ∧ i < a.n then
    .ok { a with cell := fun k => if k = i.toNat then some x else a.cell k }
  else .error .undefinedBehaviour

/-- `a(i, j)` as a value. -/
def Arr2.get (a : Arr2 β) (i j : Int) : Except PyErr β :=
  if (0 ≤ i ∧ i < a.rows) ∧ (0 ≤ j ∧ j < a.cols) then readCell (a.cell i.toNat j.toNat)
  else .error .undefinedBehaviour

/-- `a(i, j) = x`. -/
def Arr2.set (a : Arr2 β) (i j : Int) (x : β) : Except PyErr (Arr2 β) :=
  if (0 ≤ i ∧ i < a.rows) ∧ (0 ≤ j ∧ j < a.cols) then
    .ok { a with cell := fun k l => if k = i.toNat ∧ l = j.toNat then some x else a.cell k l }
  else .error .undefinedBehaviour

/-- `py::array_t<T>{{n}}`: not initialised. -/
def Arr1.alloc (n : Nat) : Arr1 β := ⟨n, fun _ => none⟩

/-- `py::array_t<T>{{m, n}}`: not initialised. -/
def Arr2.alloc (m n : Nat) : Arr2 β := ⟨m, n, fun _ _ => none⟩

/-- `std::vector<T>(n)`: value-initialised. -/
def Arr1.filled (n : Nat) (x : β) : Arr1 β := ⟨n, fun i => if i < n then some x else none⟩

/-- A new array after `std::fill_n(a.mutable_data(0, 0), a.size(), x)`. -/
def Arr2.filled (m n : Nat) (x : β) : Arr2 β :=
  ⟨m, n, fun i j => if i < m ∧ j < n then some x else none⟩

/-- The error of `unchecked<N>()` on an array of another dimension (pybind11's
`std::domain_error`, a `ValueError` in Python). -/
def wrongDim : PyErr := .valueError "array has incorrect number of dimensions"

/-- `a.unchecked<1>()`. -/
def PyArray.unchecked1 (a : PyArray β) : Except PyErr (Arr1 β) :=
  match a.shape with
  | [n] => .ok ⟨n, fun i => some (a.data [i])⟩
  | _ => .error wrongDim

/-- `a.unchecked<2>()`. -/
def PyArray.unchecked2 (a : PyArray β) : Except PyErr (Arr2 β) :=
  match a.shape with
  | [m, n] => .ok ⟨m, n, fun i j => some (a.data [i, j])⟩
  | _ => .error wrongDim

/-- `for (auto i = lo; i < hi; ++i)`. -/
def forUp {σ : Type} (lo hi : Int) (s : σ) (body : Int → σ → Except PyErr σ) : Except PyErr σ :=
  (List.range (hi - lo).toNat).foldlM (fun s (k : Nat) => body (lo + k) s) s

/-- `for (auto i = hi; i >= 0; --i)`. -/
def forDown {σ : Type} (hi : Int) (s : σ) (body : Int → σ → Except PyErr σ) : Except PyErr σ :=
  (List.range (hi + 1).toNat).foldlM (fun s (k : Nat) => body (hi - k) s) s

end Access

variable {α : Type} [FloatLike α]

/-- `std::accumulate(p, p + n, 0.)` where `rd i` reads `p[i]`. -/
def accumulate (rd : Int → Except PyErr α) (n : Int) : Except PyErr α :=
  forUp 0 n 0 fun i acc => do return acc + (← rd i)

/-- `std::max_element(p, p + n) - p`; `0` (that is, `end`) for an empty range. -/
def maxElement (rd : Int → Except PyErr α) (n : Int) : Except PyErr Int :=
  forUp 1 n 0 fun i best => do return if lt (← rd best) (← rd i) then i else best

/-- `logsumexp`, ext/_hmmc.cpp:17-28. -/
def logsumexp (rd : Int → Except PyErr α) (n : Int) : Except PyErr α := do
  let max ← rd (← maxElement rd n)
  if isInf max then return max
  let acc ← forUp 0 n 0 fun i acc => do return acc + exp ((← rd i) - max)
  return log acc + max

/-- `log`, ext/_hmmc.cpp:30-44 (elementwise, keeps the shape). -/
def logArr (x : PyArray α) : PyArray α := ⟨x.shape, fun i => log (x.data i)⟩

/-- One pass of the loop over `t` of `forward_scaling`, ext/_hmmc.cpp:83-98. -/
def forwardScalingBody (transmat frameprob : Arr2 α) (nc t : Int)
    (s : α × Arr2 α × Arr1 α) : Except PyErr (α × Arr2 α × Arr1 α) := do
  let (logProb, fwd, scaling) := s
  let fwd ← forUp 0 nc fwd fun j fwd => do
    let fwd ← forUp 0 nc fwd fun i fwd => do
      fwd.set t j ((← fwd.get t j) + (← fwd.get (t - 1) i) * (← transmat.get i j))
    fwd.set t j ((← fwd.get t j) * (← frameprob.get t j))
  let sum ← accumulate (fwd.get t) nc
  if lt sum Hmmc.minSum then throw .underflow
  let scale := 1 / sum
  let scaling ← scaling.set t scale
  let logProb := logProb - log scale
  let fwd ← forUp 0 nc fwd fun j fwd => do fwd.set t j ((← fwd.get t j) * scale)
  return (logProb, fwd, scaling)

/-- `forward_scaling`, ext/_hmmc.cpp:46-102. -/
def forwardScaling (startprob_ transmat_ frameprob_ : PyArray α) :
    Except PyErr (α × Arr2 α × Arr1 α) := do
  let startprob ← startprob_.unchecked1
  let transmat ← transmat_.unchecked2
  let frameprob ← frameprob_.unchecked2
  let ns := frameprob.rows
  let nc := frameprob.cols
  if startprob.n ≠ nc ∨ transmat.rows ≠ nc ∨ transmat.cols ≠ nc then throw .shapeMismatch
  let fwd := Arr2.filled ns nc 0
  let scaling := Arr1.alloc ns
  let fwd ← forUp 0 nc fwd fun i fwd => do
    fwd.set 0 i ((← startprob.get i) * (← frameprob.get 0 i))
  let sum ← accumulate (fwd.get 0) nc
  if lt sum Hmmc.minSum then throw .underflow
  let scale := 1 / sum
  let scaling ← scaling.set 0 scale
  let logProb := 0 - log scale
  let fwd ← forUp 0 nc fwd fun i fwd => do fwd.set 0 i ((← fwd.get 0 i) * scale)
  forUp 1 ns (logProb, fwd, scaling) (forwardScalingBody transmat frameprob nc)

/-- One pass of the loop over `t` of `forward_log`, ext/_hmmc.cpp:128-133 (`buf` is shared between
the passes). -/
def forwardLogBody (logTransmat logFrameprob : Arr2 α) (nc t : Int) (s : Arr1 α × Arr2 α) :
    Except PyErr (Arr1 α × Arr2 α) :=
  forUp 0 nc s fun j (buf, fwd) => do
    let buf ← forUp 0 nc buf fun i buf => do
      buf.set i ((← fwd.get (t - 1) i) + (← logTransmat.get i j))
    let fwd ← fwd.set t j ((← logsumexp buf.get nc) + (← logFrameprob.get t j))
    return (buf, fwd)

/-- `forward_log`, ext/_hmmc.cpp:104-138. -/
def forwardLog (startprob_ transmat_ logFrameprob_ : PyArray α) : Except PyErr (α × Arr2 α) := do
  let logStartprob ← (logArr startprob_).unchecked1
  let logTransmat ← (logArr transmat_).unchecked2
  let logFrameprob ← logFrameprob_.unchecked2
  let ns := logFrameprob.rows
  let nc := logFrameprob.cols
  if logStartprob.n ≠ nc ∨ logTransmat.rows ≠ nc ∨ logTransmat.cols ≠ nc then
    throw .shapeMismatch
  let buf := Arr1.filled nc 0
  let fwd := Arr2.alloc ns nc
  let fwd ← forUp 0 nc fwd fun i fwd => do
    fwd.set 0 i ((← logStartprob.get i) + (← logFrameprob.get 0 i))
  let (_, fwd) ← forUp 1 ns (buf, fwd) (forwardLogBody logTransmat logFrameprob nc)
  let logProb ← logsumexp (fwd.get (ns - 1)) nc
  return (logProb, fwd)

/-- One pass of the loop over `t` of `backward_scaling`, ext/_hmmc.cpp:164-169. -/
def backwardScalingBody (transmat frameprob : Arr2 α) (scaling : Arr1 α) (nc t : Int)
    (bwd : Arr2 α) : Except PyErr (Arr2 α) :=
  forUp 0 nc bwd fun i bwd => do
    let bwd ← forUp 0 nc bwd fun j bwd => do
      bwd.set t i ((← bwd.get t i) +
        (← transmat.get i j) * (← frameprob.get (t + 1) j) * (← bwd.get (t + 1) j))
    bwd.set t i ((← bwd.get t i) * (← scaling.get t))

/-- `backward_scaling`, ext/_hmmc.cpp:140-172. -/
def backwardScaling (startprob_ transmat_ frameprob_ scaling_ : PyArray α) :
    Except PyErr (Arr2 α) := do
  let startprob ← startprob_.unchecked1
  let transmat ← transmat_.unchecked2
  let frameprob ← frameprob_.unchecked2
  let scaling ← scaling_.unchecked1
  let ns := frameprob.rows
  let nc := frameprob.cols
  if startprob.n ≠ nc ∨ transmat.rows ≠ nc ∨ transmat.cols ≠ nc ∨ scaling.n ≠ ns then
    throw .shapeMismatch
  let bwd := Arr2.filled ns nc 0
  let bwd ← forUp 0 nc bwd fun i bwd => do bwd.set (ns - 1) i (← scaling.get (ns - 1))
  forDown (ns - 2) bwd (backwardScalingBody transmat frameprob scaling nc)

/-- One pass of the loop over `t` of `backward_log`, ext/_hmmc.cpp:197-202. -/
def backwardLogBody (logTransmat logFrameprob : Arr2 α) (nc t : Int) (s : Arr1 α × Arr2 α) :
    Except PyErr (Arr1 α × Arr2 α) :=
  forUp 0 nc s fun i (buf, bwd) => do
    let buf ← forUp 0 nc buf fun j buf => do
      buf.set j ((← logTransmat.get i j) + (← logFrameprob.get (t + 1) j) + (← bwd.get (t + 1) j))
    let bwd ← bwd.set t i (← logsumexp buf.get nc)
    return (buf, bwd)

/-- `backward_log`, ext/_hmmc.cpp:174-205. -/
def backwardLog (startprob_ transmat_ logFrameprob_ : PyArray α) : Except PyErr (Arr2 α) := do
  let logStartprob ← (logArr startprob_).unchecked1
  let logTransmat ← (logArr transmat_).unchecked2
  let logFrameprob ← logFrameprob_.unchecked2
  let ns := logFrameprob.rows
  let nc := logFrameprob.cols
  if logStartprob.n ≠ nc ∨ logTransmat.rows ≠ nc ∨ logTransmat.cols ≠ nc then
    throw .shapeMismatch
  let buf := Arr1.filled nc 0
  let bwd := Arr2.alloc ns nc
  let bwd ← forUp 0 nc bwd fun i bwd => bwd.set (ns - 1) i 0
  let (_, bwd) ← forDown (ns - 2) (buf, bwd) (backwardLogBody logTransmat logFrameprob nc)
  return bwd

/-- One pass of the loop over `t` of `compute_scaling_xi_sum`, ext/_hmmc.cpp:228-235. -/
def scalingXiBody (fwd transmat bwd frameprob : Arr2 α) (nc t : Int) (xiSum : Arr2 α) :
    Except PyErr (Arr2 α) :=
  forUp 0 nc xiSum fun i xiSum => forUp 0 nc xiSum fun j xiSum => do
    xiSum.set i j ((← xiSum.get i j) + (← fwd.get t i) * (← transmat.get i j)
      * (← frameprob.get (t + 1) j) * (← bwd.get (t + 1) j))

/-- `compute_scaling_xi_sum`, ext/_hmmc.cpp:207-238. -/
def computeScalingXiSum (fwdlattice_ transmat_ bwdlattice_ frameprob_ : PyArray α) :
    Except PyErr (Arr2 α) := do
  let fwd ← fwdlattice_.unchecked2
  let transmat ← transmat_.unchecked2
  let bwd ← bwdlattice_.unchecked2
  let frameprob ← frameprob_.unchecked2
  let ns := frameprob.rows
  let nc := frameprob.cols
  if fwd.rows ≠ ns ∨ fwd.cols ≠ nc ∨ transmat.rows ≠ nc ∨ transmat.cols ≠ nc
      ∨ bwd.rows ≠ ns ∨ bwd.cols ≠ nc then throw .shapeMismatch
  let xiSum := Arr2.filled nc nc 0
  forUp 0 (ns - 1) xiSum (scalingXiBody fwd transmat bwd frameprob nc)

/-- One pass of the loop over `t` of `compute_log_xi_sum`, ext/_hmmc.cpp:264-273. -/
def logXiBody (fwd logTransmat bwd logFrameprob : Arr2 α) (logProb : α) (nc t : Int)
    (logXiSum : Arr2 α) : Except PyErr (Arr2 α) :=
  forUp 0 nc logXiSum fun i logXiSum => forUp 0 nc logXiSum fun j logXiSum => do
    let logXi := (← fwd.get t i) + (← logTransmat.get i j) + (← logFrameprob.get (t + 1) j)
      + (← bwd.get (t + 1) j) - logProb
    logXiSum.set i j (Hmmc.logaddexp (← logXiSum.get i j) logXi)

/-- `compute_log_xi_sum`, ext/_hmmc.cpp:240-276. -/
def computeLogXiSum (fwdlattice_ transmat_ bwdlattice_ logFrameprob_ : PyArray α) :
    Except PyErr (Arr2 α) := do
  let fwd ← fwdlattice_.unchecked2
  let logTransmat ← (logArr transmat_).unchecked2
  let bwd ← bwdlattice_.unchecked2
  let logFrameprob ← logFrameprob_.unchecked2
  let ns := logFrameprob.rows
  let nc := logFrameprob.cols
  if fwd.rows ≠ ns ∨ fwd.cols ≠ nc ∨ logTransmat.rows ≠ nc ∨ logTransmat.cols ≠ nc
      ∨ bwd.rows ≠ ns ∨ bwd.cols ≠ nc then throw .shapeMismatch
  let logProb ← logsumexp (fwd.get (ns - 1)) nc
  let logXiSum := Arr2.filled nc nc negInf
  forUp 0 (ns - 1) logXiSum (logXiBody fwd logTransmat bwd logFrameprob logProb nc)

/-- One pass of the loop over `t` filling the Viterbi lattice, ext/_hmmc.cpp:303-309. -/
def viterbiBody (logTransmat logFrameprob : Arr2 α) (nc t : Int) (lat : Arr2 α) :
    Except PyErr (Arr2 α) :=
  forUp 0 nc lat fun i lat => do
    let max ← forUp 0 nc negInf fun j max => do
      return stdMax max ((← lat.get (t - 1) j) + (← logTransmat.get j i))
    lat.set t i (max + (← logFrameprob.get t i))

/-- `std::max` on `std::pair<double, int>`, see `Hmmc.pairMax`. -/
def pairMax (p q : α × Int) : α × Int :=
  if lt p.1 q.1 || (!(lt q.1 p.1) && decide (p.2 < q.2)) then q else p

/-- One pass of the traceback loop, ext/_hmmc.cpp:314-318. -/
def tracebackBody (logTransmat lat : Arr2 α) (nc t : Int) (s : Int × Arr1 Int) :
    Except PyErr (Int × Arr1 Int) := do
  let (prev, stateSequence) := s
  let max ← forUp 0 nc (negInf, (0 : Int)) fun i max => do
    return pairMax max ((← lat.get t i) + (← logTransmat.get i prev), i)
  return (max.2, ← stateSequence.set t max.2)

/-- `viterbi`, ext/_hmmc.cpp:278-322. -/
def viterbi (startprob_ transmat_ logFrameprob_ : PyArray α) : Except PyErr (α × Arr1 Int) := do
  let logStartprob ← (logArr startprob_).unchecked1
  let logTransmat ← (logArr transmat_).unchecked2
  let logFrameprob ← logFrameprob_.unchecked2
  let ns := logFrameprob.rows
  let nc := logFrameprob.cols
  if logStartprob.n ≠ nc ∨ logTransmat.rows ≠ nc ∨ logTransmat.cols ≠ nc then
    throw .shapeMismatch
  let stateSequence := Arr1.alloc ns
  let lat := Arr2.alloc ns nc
  let lat ← forUp 0 nc lat fun i lat => do
    lat.set 0 i ((← logStartprob.get i) + (← logFrameprob.get 0 i))
  let lat ← forUp 1 ns lat (viterbiBody logTransmat logFrameprob nc)
  let prev ← maxElement (lat.get (ns - 1)) nc
  let stateSequence ← stateSequence.set (ns - 1) prev
  let (_, stateSequence) ←
    forDown (ns - 2) (prev, stateSequence) (tracebackBody logTransmat lat nc)
  let last ← stateSequence.get (ns - 1)
  return (← lat.get (ns - 1) last, stateSequence)

end Verif.Raw
