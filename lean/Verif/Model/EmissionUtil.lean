import Verif.Model.Train

/-!
# numpy / scipy calls shared by the emission families
-/

namespace Verif
open FloatLike

variable {α : Type} [FloatLike α] {nc : Nat} {Obs : Type}

/-- `posteriors.sum(axis=0)`, entry `i`. -/
def sumPost (post : List (Row α nc)) (i : Fin nc) : α := sumL (post.map fun p => p i)

/-- An entry of a product `posteriors.T @ V` (or of the corresponding `einsum`), where `f` reads
the entry of `V` off a sample: `Σ_t posteriors[t, i] * f(X[t])`. -/
def dotPost (post : List (Row α nc)) (X : List Obs) (f : Obs → α) (i : Fin nc) : α :=
  sumL (List.zipWith (fun p x => p i * f x) post X)

/-- `np.prod` of a vector. -/
def prodF {n : Nat} (f : Fin n → α) : α := (List.finRange n).foldl (fun acc i => acc * f i) 1

/-- `scipy.special.xlogy(k, y)` for an integer `k ≥ 0`. -/
def xlogy (k : Nat) (y : α) : α :=
  if k = 0 ∧ !(isNaN y) then 0 else ofNat' k * log y

/-- `scipy.special.gammaln(k + 1)` for an integer `k ≥ 0`: the logarithm of `k!` (library
function, specified by its value). -/
def logFactorial (k : Nat) : α := (List.range k).foldl (fun acc j => acc + log (ofNat' (j + 1))) 0

end Verif
