import Verif.Model.EmissionUtil

/-!
# Model of `MultinomialHMM`

src/hmmlearn/_emissions.py:310-369 and src/hmmlearn/hmm.py:812-942.  A sample is a row of `nf`
counts (integers; `fit` rejects negative ones).
-/

namespace Verif
open FloatLike

namespace Multinomial
variable {α : Type} [FloatLike α] {nc nf : Nat}

/-- Emission parameters: `emissionprob_`. -/
abbrev Params (α : Type) (nc nf : Nat) := Fin nc → Fin nf → α

/-- A sample. -/
abbrev Obs (nf : Nat) := Fin nf → Int

/-- `p_adjusted = 1. - p[..., :-1].sum(axis=-1)` in `scipy.stats.multinomial`. -/
def adjusted (p : Fin nf → α) : α :=
  1 - sumF (n := nf - 1) fun j => p ⟨j.val, by omega⟩

/-- `multinomial_gen._process_parameters`: the last probability is replaced by one minus the
others when that exceeds `1e-15` in absolute value. -/
def processParams (p : Fin nf → α) : Fin nf → α := fun k =>
  if k.val + 1 = nf && lt (ofRat (1 / 10 ^ 15)) (abs (adjusted p)) then adjusted p else p k

/-- `multinomial.logpmf(x, n, p)` with `n = x.sum()`: NaN if some processed probability is outside
`[0, 1]` or the total is negative, `-inf` if some count is negative, otherwise
`gammaln(n + 1) + sum(xlogy(x, p) - gammaln(x + 1))`. -/
def logpmf (x : Obs nf) (p : Fin nf → α) : α :=
  let q := processParams p
  let n : Int := ((List.finRange nf).map x).sum
  if n < 0 || (List.finRange nf).any (fun k => lt (q k) 0 || lt 1 (q k)) then nan
  else if (List.finRange nf).any (fun k => decide (x k < 0)) then negInf
  else logFactorial n.toNat + sumF fun k => xlogy (x k).toNat (q k) - logFactorial (x k).toNat

/-- `_compute_log_likelihood`, _emissions.py:343-349. -/
def computeLogLikelihood (e : Params α nc nf) (X : List (Obs nf)) : List (Row α nc) :=
  X.map fun x => memo! (fun c => logpmf x (e c))

/-- `_compute_likelihood`, _emissions.py:335-341 (`multinomial.pmf` is `exp` of `logpmf`). -/
def computeLikelihood (e : Params α nc nf) (X : List (Obs nf)) : List (Row α nc) :=
  X.map fun x => memo! (fun c => exp (logpmf x (e c)))

/-- `_do_mstep`, hmm.py:938-942: plain division by the row sum, no zero guard. -/
def mstepRow (obs : Fin nf → α) : Fin nf → α :=
  let s := sumF obs
  memo! (fun k => obs k / s)

/-- The multinomial emission family. -/
def emission : Emission α nc (Obs nf) (Params α nc nf) (Params α nc nf) where
  lik e X := .ok (computeLikelihood e X)
  loglik e X := .ok (computeLogLikelihood e X)
  -- _emissions.py:351-354
  zero _ _ := fun _ _ => 0
  -- _emissions.py:356-361
  acc params _ st X post := .ok <|
    if 'e' ∈ params then
      memo! (fun i => memo! (fun k => st i k + dotPost post X (fun x => ofInt' (x k)) i))
    else st
  -- hmm.py:938-942
  mstep params e st := if 'e' ∈ params then memo! (fun i => mstepRow (st i)) else e


end Multinomial
end Verif
