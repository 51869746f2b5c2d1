import Verif.Model.VEstimator
import Verif.Model.Criteria

/-!
# Symbol arrays with several columns

`CategoricalHMM` and `VariationalCategoricalHMM` still accept arrays `X` of shape `(n_samples, d)` with
`d ≠ 1` outside `_check_and_set_n_features` (which looks only at the smallest and the largest entry):
src/hmmlearn/_emissions.py:79-84 and :99-104 flatten every sequence with a deprecation warning (not
modelled), while src/hmmlearn/vhmm.py:198-199 does not.  One observation of the classes here is a row of
`d` integers; the matrices of likelihoods may have more rows than the sequence.
-/
set_option autoImplicit false

namespace Verif
open FloatLike

namespace Categorical
variable {α : Type} [FloatLike α] {nc nf : Nat}

/-- The symbols of one sequence, _emissions.py:80-84 and :100-104: `X.squeeze(1)`, after
`np.concatenate(X)[:, None]` when there is not exactly one column; `np.concatenate` of no arrays raises
`ValueError`. -/
def block {d : Nat} (X : List (Fin d → Int)) : Except PyErr (List Int) :=
  if h : d = 1 then .ok (X.map fun r => r ⟨0, by omega⟩)
  else if X.isEmpty then .error (.valueError "need at least one array to concatenate")
  else .ok (X.map List.ofFn).flatten

/-- `Categorical.emission` for sequences of rows. -/
def wideEmission (d : Nat) (prior : Params α nc nf) :
    Emission α nc (Fin d → Int) (Params α nc nf) (Params α nc nf) where
  -- _emissions.py:79-84
  lik e X := do
    let s ← block X
    computeLikelihood e s
  -- base.py:602-624
  loglik e X := logRows (do
    let s ← block X
    computeLikelihood e s)
  zero := (emission prior).zero
  -- _emissions.py:91-104
  acc params _ st X post :=
    if 'e' ∈ params then do
      let s ← block X
      addAt st s post
    else .ok st
  mstep := (emission prior).mstep

/-- The rows of an array with `d` columns.  Floating-point symbols are no indices. -/
def wideRows (d : Nat) : XArr α → Except PyErr (List (Fin d → Int))
  | .floats _ => .error .indexError
  | @XArr.ints _ d' rows =>
    if h : d' = d then .ok (rows.map fun r j => r (j.cast h.symm)) else .error .notImplemented

end Categorical

namespace VCategorical
variable {α : Type} [FloatLike α] {nc nf : Nat}

/-- `VCategorical.emission` for sequences of rows: `_compute_subnorm_log_likelihood`, vhmm.py:198-199,
has `X.squeeze(1)` without the concatenation, which raises `ValueError`. -/
def wideEmission (d : Nat) (sci : Sci α) (prior : Fin nc → Fin nf → α) :
    VEmission α nc (Fin d → Int) (Params α nc nf) (Categorical.Params α nc nf) (Categorical.Params α nc nf) where
  begin := (emission sci prior).begin
  core :=
    { lik := fun e X =>
        if h : d = 1 then (emission sci prior).core.lik e (X.map fun r => r ⟨0, by omega⟩)
        else .error (.valueError "cannot select an axis to squeeze out")
      loglik := fun e X =>
        if h : d = 1 then (emission sci prior).core.loglik e (X.map fun r => r ⟨0, by omega⟩)
        else .error (.valueError "cannot select an axis to squeeze out")
      zero := (emission sci prior).core.zero
      acc := (Categorical.wideEmission d fun _ _ => 1).acc
      mstep := (emission sci prior).core.mstep }
  mstep := (emission sci prior).mstep
  bound := (emission sci prior).bound

end VCategorical

variable {α G : Type} [FloatLike α]

/-- `CategoricalHMM` on arrays with `d` columns; `sample`, which has no such argument, is `catSub`'s. -/
def catWide (d : Nat) : Sub α G (CatAttrs α) :=
  { catSub with
    Obs := fun _ => Fin d → Int
    rows := fun _ => Categorical.wideRows d
    emission := fun p _ _ => Categorical.wideEmission d fun i k => p.emissionprobPrior i k
    sampleSub := fun _ _ _ _ _ _ g => (.error .notImplemented, g) }

/-- What `VariationalCategoricalHMM` inherits, on arrays with `d` columns. -/
def vcatWideCore (d : Nat) : Sub α G (VAttrs α (VCatAttrs α)) :=
  { vcatCore with
    Obs := fun _ => Fin d → Int
    rows := fun _ => Categorical.wideRows d
    emission := fun _ _ _ => Categorical.wideEmission d fun _ _ => 1
    sampleSub := fun _ _ _ _ _ _ g => (.error .notImplemented, g) }

/-- `VariationalCategoricalHMM` on arrays with `d` columns. -/
def vcatWide (d : Nat) (sci : Sci α) : VSub α G (VCatAttrs α) :=
  { vcatSub sci with
    core := vcatWideCore d
    emission := fun prior => VCategorical.wideEmission d sci prior }

end Verif
