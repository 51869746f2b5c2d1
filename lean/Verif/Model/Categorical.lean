import Verif.Model.Train

/-!
# Model of `CategoricalHMM`

src/hmmlearn/_emissions.py:30-109 and src/hmmlearn/hmm.py:26-155.  `X` has shape
`(n_samples, 1)` (for other shapes see Verif/Model/WideSymbols.lean), so a
sample is one integer.  `emissionprob_` has shape `(n_components, n_features)`.
-/

namespace Verif
open FloatLike

namespace Categorical
variable {α : Type} [FloatLike α] {nc nf : Nat}

/-- Emission parameters: `emissionprob_`. -/
abbrev Params (α : Type) (nc nf : Nat) := Fin nc → Fin nf → α

/-- numpy indexing of an axis of length `nf` by the integer `k` (negative indices wrap). -/
def index (nf : Nat) (k : Int) : Option (Fin nf) :=
  if h : 0 ≤ k ∧ k < nf then some ⟨k.toNat, by omega⟩
  else if h : -(nf : Int) ≤ k ∧ k < 0 then some ⟨(k + nf).toNat, by omega⟩
  else none

/-- `_compute_likelihood`, _emissions.py:79-84: column lookup `emissionprob_[:, X].T`; any
index out of bounds raises `IndexError`. -/
def computeLikelihood (e : Params α nc nf) : List Int → Except PyErr (List (Row α nc))
  | [] => .ok []
  | k :: ks =>
    match index nf k, computeLikelihood e ks with
    | some s, .ok rows => .ok ((fun i => e i s) :: rows)
    | _, _ => .error .indexError

/-- `np.add.at(stats['obs'].T, X.squeeze(1), posteriors)`, _emissions.py:104: adds row `t` of
the posteriors to column `X[t]`, repeated indices included, in order. -/
def addAt (obs : Params α nc nf) : List Int → List (Row α nc) → Except PyErr (Params α nc nf)
  | k :: ks, p :: ps =>
    match index nf k with
    | none => .error .indexError
    | some s =>
      addAt (memo! (fun i => memo! (fun c => if c = s then obs i c + p i else obs i c))) ks ps
  | _, _ => .ok obs

/-- `_do_mstep`, hmm.py:150-155. -/
def mstepRow (prior stat : Fin nf → α) : Fin nf → α :=
  let v := memo! (fun k => npMaximum (prior k - 1 + stat k) 0)
  memo! (normalizeRow v)

/-- The categorical emission family.  `prior` is `emissionprob_prior`, broadcast. -/
def emission (prior : Params α nc nf) :
    Emission α nc Int (Params α nc nf) (Params α nc nf) where
  lik := computeLikelihood
  loglik e X := logRows (computeLikelihood e X)
  -- _emissions.py:86-89
  zero _ _ := fun _ _ => 0
  -- _emissions.py:91-104
  acc params _ st X post := if 'e' ∈ params then addAt st X post else .ok st
  -- hmm.py:150-155
  mstep params e st := if 'e' ∈ params then memo! (fun i => mstepRow (prior i) (st i)) else e

end Categorical
end Verif
