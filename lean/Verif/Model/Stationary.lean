import Verif.Model.Estimator

/-!
# `get_stationary_distribution`

src/hmmlearn/base.py:863-871.  The eigenvalue solver is a parameter.
-/

namespace Verif
open FloatLike

/-- A complex number as numpy stores it. -/
structure Cx (α : Type) where
  re : α
  im : α

namespace Cx
variable {α : Type} [FloatLike α]

/-- numpy orders complex numbers lexicographically. -/
def ge (a b : Cx α) : Bool := lt b.re a.re || (eq a.re b.re && le b.im a.im)

/-- Complex division by the textbook formula (numpy uses Smith's method, which agrees with it in
exact arithmetic). -/
def div (a b : Cx α) : Cx α :=
  let d := b.re * b.re + b.im * b.im
  ⟨(a.re * b.re + a.im * b.im) / d, (a.im * b.re - a.re * b.im) / d⟩

/-- `np.argmax` of a complex vector without NaN: the first greatest entry. -/
def argmax {n : Nat} [NeZero n] (w : Fin n → Cx α) : Fin n :=
  (List.finRange n).foldl (fun b k => if ge (w b) (w k) then b else k) 0

/-- The tolerance of `np.real_if_close`: a hundred machine epsilons. -/
def closeTol : α := ofRat (100 / 2 ^ 52)

/-- `np.real_if_close`, `v / v.sum()`: real arithmetic if every imaginary part is small, complex
arithmetic otherwise. -/
def normalise {n : Nat} (v : Fin n → Cx α) : Fin n → Cx α :=
  if (List.finRange n).all fun i => lt (FloatLike.abs (v i).im) closeTol then
    fun i => ⟨(v i).re / sumF fun i => (v i).re, 0⟩
  else fun i => div (v i) ⟨sumF fun i => (v i).re, sumF fun i => (v i).im⟩

end Cx

/-- Library routine `scipy.linalg.eig`: eigenvalues, and right eigenvectors as columns. -/
abbrev Eig (α : Type) := (n : Nat) → (Fin n → Fin n → α) → (Fin n → Cx α) × (Fin n → Fin n → Cx α)

variable {α G P : Type} [FloatLike α]

/-- `get_stationary_distribution`, base.py:868-871, for a transition matrix. -/
def stationary (eig : Eig α) {n : Nat} [NeZero n] (A : Fin n → Fin n → α) : Fin n → Cx α :=
  let (w, v) := eig n fun i j => A j i
  Cx.normalise fun i => v i (Cx.argmax w)

/-- `get_stationary_distribution`, base.py:863-871, on the attribute as it is: `transmat_` is not
validated here; scipy's `eig` rejects what is not a finite square matrix. -/
def getStationary (eig : Eig α) (e : Est α G P) : Except PyErr (List (Cx α)) :=
  match e.transmat with
  | none => .error .notFitted
  | some (@NdArray.d2 _ m n A) =>
    if h : m = n then
      if hn : n = 0 then .error (.valueError "attempt to get argmax of an empty sequence")
      else if (List.finRange m).all fun i => (List.finRange n).all fun j => isFinite (A i j) then
        haveI : NeZero n := ⟨hn⟩
        .ok (List.ofFn (stationary eig fun i j => A (h ▸ i) j))
      else .error (.valueError "array must not contain infs or NaNs")
    else .error (.valueError "expected square matrix")
  | some _ => .error (.valueError "expected square matrix")

end Verif
