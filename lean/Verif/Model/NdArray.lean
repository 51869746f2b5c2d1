import Verif.Num.FloatLike

/-!
# numpy arrays of the Python layer

The typed part of the model works with rows `Fin n → α`.  User-assigned attributes and
user-supplied data reach the estimators as arrays of any shape; here up to three axes (no estimator
of the library accepts more).
-/

namespace Verif
open FloatLike

/-- A numpy array with at most three axes. -/
inductive NdArray (α : Type) where
  | d0 (x : α)
  | d1 {n : Nat} (v : Fin n → α)
  | d2 {m n : Nat} (v : Fin m → Fin n → α)
  | d3 {l m n : Nat} (v : Fin l → Fin m → Fin n → α)

namespace NdArray
variable {α : Type}

/-- `a.shape`. -/
def shape : NdArray α → List Nat
  | d0 _ => []
  | @d1 _ n _ => [n]
  | @d2 _ m n _ => [m, n]
  | @d3 _ l m n _ => [l, m, n]

/-- `a.size`. -/
def size (a : NdArray α) : Nat := a.shape.prod

/-- `a.flat[i]`, row-major (`np.ravel`). -/
def flat : (a : NdArray α) → Fin a.size → α
  | d0 x, _ => x
  | d1 v, i => v ⟨i, by have := i.2; simpa [size, shape] using this⟩
  | @d2 _ m n v, i =>
    have h : i.val < m * n := by have := i.2; simpa [size, shape] using this
    have hn : 0 < n := Nat.pos_of_ne_zero fun h0 => by simp [h0] at h
    v ⟨i / n, Nat.div_lt_of_lt_mul (by rwa [Nat.mul_comm] at h)⟩ ⟨i % n, Nat.mod_lt _ hn⟩
  | @d3 _ l m n v, i =>
    have h : i.val < l * (m * n) := by have := i.2; simpa [size, shape] using this
    have hmn : 0 < m * n := Nat.pos_of_ne_zero fun h0 => by simp [h0] at h
    have hn : 0 < n := Nat.pos_of_ne_zero fun h0 => by simp [h0] at hmn
    v ⟨i / (m * n), Nat.div_lt_of_lt_mul (by rwa [Nat.mul_comm] at h)⟩
      ⟨i % (m * n) / n, Nat.div_lt_of_lt_mul (by
        exact (Nat.mod_lt i.val hmn).trans_eq (Nat.mul_comm _ _))⟩
      ⟨i % (m * n) % n, Nat.mod_lt _ hn⟩

/-- `np.any(p(a))`. -/
def any (p : α → Bool) (a : NdArray α) : Bool := (List.finRange a.size).any fun i => p (a.flat i)

/-- `a[i]` for a non-negative integer `i`; `none` is `IndexError`. -/
def get : NdArray α → Nat → Option (NdArray α)
  | d0 _, _ => none
  | @d1 _ n v, i => if h : i < n then some (d0 (v ⟨i, h⟩)) else none
  | @d2 _ m _ v, i => if h : i < m then some (d1 (v ⟨i, h⟩)) else none
  | @d3 _ l _ _ v, i => if h : i < l then some (d2 (v ⟨i, h⟩)) else none

end NdArray

variable {α : Type} [FloatLike α]

/-- One entry of `np.isclose(a, b)` with the default `rtol=1e-5, atol=1e-8`. -/
def isclose (a b : α) : Bool :=
  (le (abs (a - b)) (ofRat (1 / 10 ^ 8) + ofRat (1 / 10 ^ 5) * abs b) && isFinite b) || eq a b

/-- `np.allclose(a, a.T)` for a square matrix. -/
def allcloseT {n : Nat} (a : Fin n → Fin n → α) : Bool :=
  (List.finRange n).all fun i => (List.finRange n).all fun j => isclose (a i j) (a j i)

end Verif
