import Verif.Model.Hmmc

/-!
# Model of `src/hmmlearn/utils.py`, `_utils.py` and the numpy/scipy calls they use
-/

namespace Verif
open FloatLike

variable {α : Type} [FloatLike α]

/-! ## numpy / scipy primitives (library code, specified here as used) -/

/-- `np.max` of a non-empty vector (propagates NaN). -/
def npMax {n : Nat} [NeZero n] (v : Fin n → α) : α :=
  (List.finRange n).foldl (fun m i => npMaximum m (v i)) (v 0)

/-- `np.argmax`: index of the first NaN if there is one, otherwise of the first maximum. -/
def npArgmax {n : Nat} [NeZero n] (v : Fin n → α) : Fin n :=
  (List.finRange n).foldl (fun best i =>
    if !(isNaN (v best)) && (isNaN (v i) || lt (v best) (v i)) then i else best) 0

/-- `argmax` of a boolean vector: the first `true`, or `0` when there is none. -/
def argmaxBool {n : Nat} [NeZero n] (p : Fin n → Bool) : Fin n :=
  ((List.finRange n).find? p).getD 0

/-- `np.cumsum` of a vector, entry `i`: the left-to-right partial sum up to `i`. -/
def cumsum {n : Nat} (v : Fin n → α) (i : Fin n) : α :=
  ((List.finRange n).take (i.val + 1)).foldl (fun acc j => acc + v j) 0

/-- `scipy.special.logsumexp` along an axis: subtracts the maximum unless it is not
finite (scipy sets `a_max[~isfinite(a_max)] = 0`). -/
def scipyLogsumexp {n : Nat} [NeZero n] (v : Fin n → α) : α :=
  let m := npMax v
  let m := if isFinite m then m else 0
  log (sumF fun i => exp (v i - m)) + m

/-! ## `utils.py` -/

/-- `normalize(a)` (axis `None`) on a vector, src/hmmlearn/utils.py:5-29: plain
division by the sum, no zero guard. -/
def normalizeVec {n : Nat} (v : Fin n → α) : Fin n → α :=
  let s := sumF v
  fun i => v i / s

/-- One row of `normalize(a, axis=1)` for a 2-D `a`, src/hmmlearn/utils.py:20-29:
a zero row sum is replaced by one. -/
def normalizeRow {n : Nat} (v : Fin n → α) : Fin n → α :=
  let s := sumF v
  let s := if eq s 0 then 1 else s
  fun i => v i / s

/-- `normalize(a, axis=0)` for a 2-D `a`, src/hmmlearn/utils.py:20-29: `axis = 0` is
falsy, so the zero guard is skipped. -/
def normalizeAxis0 {m n : Nat} (a : Fin m → Fin n → α) : Fin m → Fin n → α :=
  fun i j => a i j / sumF fun k => a k j

/-- One row of `log_normalize(a, axis=1)` (or `-1`), src/hmmlearn/utils.py:32-55: an
axis of length one is set to zero. -/
def logNormalizeRow {n : Nat} [NeZero n] (v : Fin n → α) : Fin n → α :=
  if n = 1 then fun _ => 0
  else
    let lse := scipyLogsumexp v
    fun i => v i - lse

/-! ## `_utils.split_X_lengths` -/

/-- Python slice bound: negative values count from the end, then clip to `[0, n]`. -/
def pyBound (n : Nat) (k : Int) : Nat :=
  if k < 0 then (k + n).toNat else min k.toNat n

/-- Python slice `X[a:b]`. -/
def pySlice {β : Type} (X : List β) (a b : Int) : List β :=
  let lo := pyBound X.length a
  let hi := pyBound X.length b
  (X.drop lo).take (hi - lo)

/-- `np.cumsum(lengths)`. -/
def cumsumInt : Int → List Int → List Int
  | _, [] => []
  | acc, l :: ls => (acc + l) :: cumsumInt (acc + l) ls

/-- Sub-arrays `X[0:cs₀], X[cs₀:cs₁], …` of `np.split(X, cs)[:-1]`. -/
def npSplitInit {β : Type} (X : List β) : Int → List Int → List (List β)
  | _, [] => []
  | a, c :: cs => pySlice X a c :: npSplitInit X c cs

/-- `split_X_lengths`, src/hmmlearn/_utils.py:17-26.  `lengths` holds integers (numpy
would also accept floats; not modelled).  An empty `lengths` makes `cs[-1]` raise
`IndexError`. -/
def splitXLengths {β : Type} (X : List β) : Option (List Int) → Except PyErr (List (List β))
  | none => .ok [X]
  | some lengths =>
    match (cumsumInt 0 lengths).getLast? with
    | none => .error .indexError
    | some last =>
      if last ≠ X.length then .error (.valueError "lengths array doesn't sum to n_samples")
      else .ok (npSplitInit X 0 (cumsumInt 0 lengths))

end Verif
