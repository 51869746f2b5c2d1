import Verif.Num.FloatLike
import Verif.Model.Err

/-!
# Model of `ext/_hmmc.cpp`

A row of a lattice is a function `Fin nc → α`, a lattice is the list of its rows
(time first).  `[NeZero nc]`: `nc ≥ 1` (with `nc = 0` `std::max_element` returns
`end` and is dereferenced; not modelled).  The `shape mismatch` checks
are discharged by the types here (see `Verif/Model/HmmcRaw.lean` for the array level);
`ns = 0` is an out-of-bounds access (`PyErr.undefinedBehaviour`).
The C++ loops use `int` counters; sizes above `2^31` are not modelled.
-/

namespace Verif
open FloatLike

variable {α : Type} [FloatLike α] {nc : Nat}

/-- A lattice row. -/
abbrev Row (α : Type) (nc : Nat) := Fin nc → α

/-- A square matrix (`transmat_`). -/
abbrev Mat (α : Type) (nc : Nat) := Fin nc → Fin nc → α

namespace Hmmc

/-- `logaddexp`, ext/_hmmc.cpp:9-15. -/
def logaddexp (a b : α) : α :=
  if eq a negInf then b
  else if eq b negInf then a
  else stdMax a b + log1p (exp (-(abs (b - a))))

/-- `std::max_element` (index of the first maximal entry): keeps the current
candidate unless `candidate < v[i]`.  Used in ext/_hmmc.cpp:19 and :312. -/
def maxElement [NeZero nc] (v : Row α nc) : Fin nc :=
  (List.finRange nc).foldl (fun best i => if lt (v best) (v i) then i else best) 0

/-- `logsumexp`, ext/_hmmc.cpp:17-28. -/
def logsumexp [NeZero nc] (v : Row α nc) : α :=
  let m := v (maxElement v)
  if isInf m then m
  else log (sumF fun i => exp (v i - m)) + m

/-- `log` on a vector, ext/_hmmc.cpp:30-44. -/
def logRow (v : Row α nc) : Row α nc := fun i => log (v i)

/-- `log` on a matrix, ext/_hmmc.cpp:30-44. -/
def logMat (a : Mat α nc) : Mat α nc := fun i j => log (a i j)

/-- `min_sum`, ext/_hmmc.cpp:51. -/
def minSum : α := ofRat (1 / 10 ^ 300)

/-- One normalisation step, ext/_hmmc.cpp:72-81 and :89-98: sums the row,
throws if the sum is below `min_sum`, returns `scale = 1/sum` and the scaled row. -/
def scaleRow (row : Row α nc) : Except PyErr (α × Row α nc) :=
  let s := sumF row
  if lt s minSum then .error .underflow
  else
    let scale := 1 / s
    .ok (scale, memo! (fun i => row i * scale))

/-- Unscaled row `t` of `forward_scaling` from the scaled row `t-1`,
ext/_hmmc.cpp:83-88. -/
def fwdScalingRow (A : Mat α nc) (prev b : Row α nc) : Row α nc :=
  fun j => (sumF fun i => prev i * A i j) * b j

/-- The loop over `t ≥ 1` of `forward_scaling`, ext/_hmmc.cpp:82-99.  Arguments:
row `t-1`, running `log_prob`.  Returns final `log_prob`, rows `t..`, scalings `t..`. -/
def forwardScalingLoop (A : Mat α nc) :
    Row α nc → α → List (Row α nc) → Except PyErr (α × List (Row α nc) × List α)
  | _, lp, [] => .ok (lp, [], [])
  | prev, lp, b :: bs =>
    match scaleRow (memo! (fwdScalingRow A prev b)) with
    | .error e => .error e
    | .ok (scale, row) =>
      match forwardScalingLoop A row (lp - log scale) bs with
      | .error e => .error e
      | .ok (lp', rows, scales) => .ok (lp', row :: rows, scale :: scales)

/-- `forward_scaling`, ext/_hmmc.cpp:46-102.  Returns `(log_prob, fwdlattice,
scaling)`. -/
def forwardScaling (π : Row α nc) (A : Mat α nc) :
    List (Row α nc) → Except PyErr (α × List (Row α nc) × List α)
  | [] => .error .undefinedBehaviour
  | b :: bs =>
    match scaleRow (memo! (fun i => π i * b i)) with
    | .error e => .error e
    | .ok (scale, row) =>
      match forwardScalingLoop A row (0 - log scale) bs with
      | .error e => .error e
      | .ok (lp, rows, scales) => .ok (lp, row :: rows, scale :: scales)

/-- Row `t` of `forward_log` from row `t-1`, ext/_hmmc.cpp:128-133. -/
def fwdLogRow [NeZero nc] (logA : Mat α nc) (prev lb : Row α nc) : Row α nc :=
  fun j => logsumexp (fun i => prev i + logA i j) + lb j

/-- Rows `t ≥ 1` of `forward_log`, ext/_hmmc.cpp:127-134. -/
def forwardLogLoop [NeZero nc] (logA : Mat α nc) :
    Row α nc → List (Row α nc) → List (Row α nc)
  | _, [] => []
  | prev, lb :: lbs =>
    let row := memo! (fwdLogRow logA prev lb)
    row :: forwardLogLoop logA row lbs

/-- `forward_log`, ext/_hmmc.cpp:104-138. -/
def forwardLog [NeZero nc] (π : Row α nc) (A : Mat α nc) :
    List (Row α nc) → Except PyErr (α × List (Row α nc))
  | [] => .error .undefinedBehaviour
  | lb :: lbs =>
    let lπ := logRow π
    let row0 : Row α nc := memo! (fun i => lπ i + lb i)
    let logA := memo! (fun i => memo! (logMat A i))
    let rows := forwardLogLoop logA row0 lbs
    .ok (logsumexp ((row0 :: rows).getLast (List.cons_ne_nil _ _)), row0 :: rows)

/-- The loops of `backward_scaling`, ext/_hmmc.cpp:160-170, on the rows
`(frameprob(t), scaling(t))`; the recursive call is the part of the lattice
already filled in by the descending loop. -/
def backwardScalingLoop (A : Mat α nc) : List (Row α nc × α) → List (Row α nc)
  | [] => []
  | [(_, s)] => [fun _ => s]
  | (_, s) :: (b, s') :: rest =>
    match backwardScalingLoop A ((b, s') :: rest) with
    | [] => []
    | next :: more =>
      (memo! (fun i => (sumF fun j => A i j * b j * next j) * s)) :: next :: more

/-- `backward_scaling`, ext/_hmmc.cpp:140-172. -/
def backwardScaling (A : Mat α nc) (bs : List (Row α nc)) (scaling : List α) :
    Except PyErr (List (Row α nc)) :=
  if scaling.length ≠ bs.length then .error .shapeMismatch
  else if bs.isEmpty then .error .undefinedBehaviour
  else .ok (backwardScalingLoop A (bs.zip scaling))

/-- The loops of `backward_log`, ext/_hmmc.cpp:193-203. -/
def backwardLogLoop [NeZero nc] (logA : Mat α nc) : List (Row α nc) → List (Row α nc)
  | [] => []
  | [_] => [fun _ => 0]
  | _ :: lb :: rest =>
    match backwardLogLoop logA (lb :: rest) with
    | [] => []
    | next :: more =>
      (memo! (fun i => logsumexp fun j => logA i j + lb j + next j)) :: next :: more

/-- `backward_log`, ext/_hmmc.cpp:174-205. -/
def backwardLog [NeZero nc] (A : Mat α nc) (lbs : List (Row α nc)) :
    Except PyErr (List (Row α nc)) :=
  if lbs.isEmpty then .error .undefinedBehaviour
  else .ok (backwardLogLoop (memo! (fun i => memo! (logMat A i))) lbs)

/-- `compute_scaling_xi_sum`, ext/_hmmc.cpp:207-238 (the `t` loop is outermost, so
each entry accumulates over `t` in increasing order). -/
def computeScalingXiSum (fwd : List (Row α nc)) (A : Mat α nc) (bwd bs : List (Row α nc)) :
    Except PyErr (Mat α nc) :=
  if fwd.length ≠ bs.length ∨ bwd.length ≠ bs.length then .error .shapeMismatch
  else .ok (memo! (fun i => memo! (fun j =>
    (fwd.zip (bs.tail.zip bwd.tail)).foldl
      (fun acc (f, b, w) => acc + f i * A i j * b j * w j) 0)))

/-- `compute_log_xi_sum`, ext/_hmmc.cpp:240-276. -/
def computeLogXiSum [NeZero nc] (fwd : List (Row α nc)) (A : Mat α nc)
    (bwd lbs : List (Row α nc)) : Except PyErr (Mat α nc) :=
  if fwd.length ≠ lbs.length ∨ bwd.length ≠ lbs.length then .error .shapeMismatch
  else if h : fwd = [] then .error .undefinedBehaviour
  else
    let logA := memo! (fun i => memo! (logMat A i))
    let logProb := logsumexp (fwd.getLast h)
    .ok (memo! (fun i => memo! (fun j =>
      (fwd.zip (lbs.tail.zip bwd.tail)).foldl
        (fun acc (f, lb, w) => logaddexp acc (f i + logA i j + lb j + w j - logProb)) negInf)))

/-- Row `t` of the Viterbi lattice, ext/_hmmc.cpp:303-309. -/
def viterbiRow (logA : Mat α nc) (prev lb : Row α nc) : Row α nc :=
  fun i =>
    (List.finRange nc).foldl (fun m j => stdMax m (prev j + logA j i)) negInf + lb i

/-- Rows `t ≥ 1` of the Viterbi lattice, ext/_hmmc.cpp:302-310. -/
def viterbiLoop (logA : Mat α nc) : Row α nc → List (Row α nc) → List (Row α nc)
  | _, [] => []
  | prev, lb :: lbs =>
    let row := memo! (viterbiRow logA prev lb)
    row :: viterbiLoop logA row lbs

/-- `std::max(p, q)` on `std::pair<double,int>` (lexicographic): returns `q` iff
`p.first < q.first || (!(q.first < p.first) && p.second < q.second)`.
Used in ext/_hmmc.cpp:316. -/
def pairMax (p q : α × Fin nc) : α × Fin nc :=
  if lt p.1 q.1 || (!(lt q.1 p.1) && decide (p.2 < q.2)) then q else p

/-- Best predecessor of state `prev` given the lattice row `v`, ext/_hmmc.cpp:314-318. -/
def bestPrev [NeZero nc] (logA : Mat α nc) (v : Row α nc) (prev : Fin nc) : Fin nc :=
  ((List.finRange nc).foldl (fun m i => pairMax m (v i + logA i prev, i)) (negInf, 0)).2

/-- The traceback, ext/_hmmc.cpp:311-319.  The recursive call is the part of
`state_sequence` already filled in by the descending loop. -/
def traceback [NeZero nc] (logA : Mat α nc) : List (Row α nc) → List (Fin nc)
  | [] => []
  | [v] => [maxElement v]
  | v :: w :: rest =>
    match traceback logA (w :: rest) with
    | [] => []
    | prev :: more => bestPrev logA v prev :: prev :: more

/-- The Viterbi lattice, ext/_hmmc.cpp:299-310, from log parameters. -/
def viterbiLattice (lπ : Row α nc) (logA : Mat α nc) : List (Row α nc) → List (Row α nc)
  | [] => []
  | lb :: lbs =>
    let row0 : Row α nc := memo! (fun i => lπ i + lb i)
    row0 :: viterbiLoop logA row0 lbs

/-- `viterbi` after its `log(...)` calls: ext/_hmmc.cpp:299-321. -/
def viterbiCore [NeZero nc] (lπ : Row α nc) (logA : Mat α nc) (lbs : List (Row α nc)) :
    Except PyErr (α × List (Fin nc)) :=
  let lat := viterbiLattice lπ logA lbs
  let path := traceback logA lat
  match lat.getLast?, path.getLast? with
  | some row, some s => .ok (row s, path)
  | _, _ => .error .undefinedBehaviour

/-- `viterbi`, ext/_hmmc.cpp:278-322. -/
def viterbi [NeZero nc] (π : Row α nc) (A : Mat α nc) (lbs : List (Row α nc)) :
    Except PyErr (α × List (Fin nc)) :=
  viterbiCore (memo! (logRow π)) (memo! (fun i => memo! (logMat A i))) lbs

end Hmmc
end Verif
