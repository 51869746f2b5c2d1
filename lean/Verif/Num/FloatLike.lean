import Mathlib.Data.Rat.Defs
import Mathlib.Data.List.FinRange

/-!
# The arithmetic interface used by the model

hmmlearn computes with IEEE doubles (numpy `float64`, C++ `double`).  Every
definition of the model is generic over `FloatLike`, which lists exactly the
primitive operations the code uses.  Two instances exist: Lean's `Float`
(below; makes the model executable) and `XF` (`Verif/Num/XF.lean`; exact reals
plus the IEEE special values; used by the proofs).
-/

namespace Verif

/-- Primitive floating-point operations.  `lt`, `le`, `eq` are the IEEE
comparisons (false when an operand is NaN). -/
class FloatLike (α : Type) extends Add α, Sub α, Mul α, Div α, Neg α, Zero α, One α where
  lt : α → α → Bool
  le : α → α → Bool
  eq : α → α → Bool
  negInf : α
  posInf : α
  nan : α
  exp : α → α
  log : α → α
  log1p : α → α
  sqrt : α → α
  abs : α → α
  isInf : α → Bool
  isNaN : α → Bool
  /-- numeric literals of the source, and conversions from integers -/
  ofRat : Rat → α
  /-- `np.pi` -/
  pi : α
  /-- the integer `x` is, if any (`np.floor(x) == x`) -/
  toInt? : α → Option Int

namespace FloatLike

variable {α : Type} [FloatLike α]

/-- Integer to float conversion. -/
def ofNat' (n : Nat) : α := ofRat (n : Rat)

/-- Integer to float conversion. -/
def ofInt' (n : Int) : α := ofRat (n : Rat)

/-- `np.isfinite`. -/
def isFinite (x : α) : Bool := !(isInf x) && !(isNaN x)

/-- C++ `std::max(a, b)`: returns `a` unless `a < b` (libstdc++; used in
ext/_hmmc.cpp:14 and :306). -/
def stdMax (a b : α) : α := if lt a b then b else a

/-- `np.maximum(a, b)`: propagates NaN. -/
def npMaximum (a b : α) : α :=
  if isNaN a then a else if isNaN b then b else if lt a b then b else a

end FloatLike

/-- Wrapper used by `memo!` (keeps the compiler from re-evaluating rows). -/
structure MemoBox (n : Nat) (β : Type) where
  val : Fin n → β
  dummy : Unit

/-- Evaluate all entries of `f` once. -/
@[noinline] def memoBox {n : Nat} {β : Type} (f : Fin n → β) : MemoBox n β :=
  let a := Array.ofFn f
  ⟨fun i => a[i]'(by have : a.size = n := Array.size_ofFn; omega), ()⟩

/-- Force evaluation of a row into an array.  Only relevant to run the model:
by `memo_eq` it is the identity. -/
notation "memo! " f:max => MemoBox.val (memoBox f)

@[simp] theorem memo_eq {n : Nat} {β : Type} (f : Fin n → β) : memo! f = f := by
  funext i; simp [memoBox]

section Sums
variable {α : Type} [FloatLike α]

/-- Left-to-right accumulation `acc = 0; for i: acc += f(i)`
(`std::accumulate`, C++ `+=` loops, `np.sum`; numpy's pairwise order differs only by
rounding). -/
def sumF {n : Nat} (f : Fin n → α) : α :=
  (List.finRange n).foldl (fun acc i => acc + f i) 0

/-- Left-to-right accumulation over a list (`np.sum` over the time axis). -/
def sumL (l : List α) : α := l.foldl (· + ·) 0

end Sums

/-- Lean's `Float`, to execute the model.  Not used by any proof. -/
instance : FloatLike Float where
  zero := 0.0
  one := 1.0
  lt a b := decide (a < b)
  le a b := decide (a ≤ b)
  eq a b := a == b
  negInf := -1.0 / 0.0
  posInf := 1.0 / 0.0
  nan := 0.0 / 0.0
  exp := Float.exp
  log := Float.log
  log1p x := Float.log (1.0 + x)
  sqrt := Float.sqrt
  abs := Float.abs
  isInf := Float.isInf
  isNaN := Float.isNaN
  ofRat q := Float.ofInt q.num / Float.ofNat q.den
  pi := 3.141592653589793
  toInt? x := if x.floor == x && !x.isInf then some x.toInt64.toInt else none

end Verif
