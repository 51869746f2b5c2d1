import Verif.Model.NdArray

/-!
# Numpy's rule for assigning an array (`a[...] = b`, `np.full`)
-/

set_option autoImplicit false

namespace Verif.Spec

/-- The length of the `k`-th axis counted from the right; axes that are not there have length one. -/
def axis (shape : List ℕ) (k : ℕ) : ℕ := (shape.reverse[k]?).getD 1

/-- An array of shape `src` may be assigned to one of shape `dst`: axis by axis from the right, the lengths agree
or the source has length one. -/
def Assignable (src dst : List ℕ) : Prop := ∀ k, axis src k = axis dst k ∨ axis src k = 1

/-- `a[idx]`. -/
def entry {α : Type} : NdArray α → List ℕ → Option α
  | .d0 x, [] => some x
  | @NdArray.d1 _ n v, [i] => if h : i < n then some (v ⟨i, h⟩) else none
  | @NdArray.d2 _ m n v, [i, j] => if h : i < m ∧ j < n then some (v ⟨i, h.1⟩ ⟨j, h.2⟩) else none
  | @NdArray.d3 _ l m n v, [i, j, k] =>
    if h : i < l ∧ j < m ∧ k < n then some (v ⟨i, h.1⟩ ⟨j, h.2.1⟩ ⟨k, h.2.2⟩) else none
  | _, _ => none

/-- Where the entry at `idx` of the target is read from: the same index on every axis, `0` on the axes of length
one. -/
def source (src idx : List ℕ) : List ℕ :=
  ((List.range src.length).map fun k => if axis src k = 1 then 0 else (idx.reverse[k]?).getD 0).reverse

end Verif.Spec
