import Verif.Model.Utils

/-!
# Model of the inference methods of `_AbstractHMM`, src/hmmlearn/base.py:183-521

`Hmm` is what the inference methods see of an estimator whose `_check` has passed:
shapes are in the types.  `Obs` is one row of `X`.  The raw layer (attribute presence,
shape checks, `check_array`) is in `Verif/Model/Estimator.lean`.
-/

namespace Verif
open FloatLike Hmmc

/-- The two values of the `implementation` parameter. -/
inductive Impl where
  | log
  | scaling
deriving DecidableEq, Repr

/-- The two decoders, `DECODER_ALGORITHMS`, base.py:18. -/
inductive Alg where
  | viterbi
  | map
deriving DecidableEq, Repr

/-- A checked model as seen by the inference methods. -/
structure Hmm (α : Type) (nc : Nat) (Obs : Type) where
  startprob : Row α nc
  transmat : Mat α nc
  /-- `_compute_likelihood` -/
  computeLikelihood : List Obs → Except PyErr (List (Row α nc))
  /-- `_compute_log_likelihood` -/
  computeLogLikelihood : List Obs → Except PyErr (List (Row α nc))
  implementation : Impl

section
variable {α : Type} [FloatLike α] {nc : Nat} {Obs : Type}

/-- Default `_compute_likelihood`, base.py:579-600: `np.exp` of the log-likelihood. -/
def expRows (r : Except PyErr (List (Row α nc))) : Except PyErr (List (Row α nc)) :=
  r.map fun rows => rows.map fun row => memo! (fun i => exp (row i))

/-- Default `_compute_log_likelihood`, base.py:602-624: `np.log` of the likelihood. -/
def logRows (r : Except PyErr (List (Row α nc))) : Except PyErr (List (Row α nc)) :=
  r.map fun rows => rows.map fun row => memo! (fun i => log (row i))

variable [NeZero nc]

/-- `_compute_posteriors_scaling`, base.py:508-511. -/
def computePosteriorsScaling (fwd bwd : List (Row α nc)) : List (Row α nc) :=
  List.zipWith (fun f w =>
    let g := memo! (fun i => f i * w i)
    memo! (normalizeRow g)) fwd bwd

/-- `_compute_posteriors_log`, base.py:513-521. -/
def computePosteriorsLog (fwd bwd : List (Row α nc)) : List (Row α nc) :=
  List.zipWith (fun f w =>
    let g := memo! (fun i => f i + w i)
    let n := memo! (logNormalizeRow g)
    memo! (fun i => exp (n i))) fwd bwd

/-- Body of the loop of `_score_log`, base.py:253-271, for one `sub_X`. -/
def scoreOneLog (m : Hmm α nc Obs) (computePosteriors : Bool) (subX : List Obs) :
    Except PyErr (α × List (Row α nc)) := do
  let lb ← m.computeLogLikelihood subX
  let (logProb, fwd) ← forwardLog m.startprob m.transmat lb
  if computePosteriors then
    let bwd ← backwardLog m.transmat lb
    return (logProb, computePosteriorsLog fwd bwd)
  else
    return (logProb, [])

/-- Body of the loop of `_score_scaling`, base.py:273-288, for one `sub_X`. -/
def scoreOneScaling (m : Hmm α nc Obs) (computePosteriors : Bool) (subX : List Obs) :
    Except PyErr (α × List (Row α nc)) := do
  let b ← m.computeLikelihood subX
  let (logProb, fwd, scaling) ← forwardScaling m.startprob m.transmat b
  if computePosteriors then
    let bwd ← backwardScaling m.transmat b scaling
    return (logProb, computePosteriorsScaling fwd bwd)
  else
    return (logProb, [])

/-- The loop `for sub_X in split_X_lengths(X, lengths)` shared by `_score_log`,
`_score_scaling` and `decode`: running `log_prob`, concatenated outputs. -/
def seqLoop {γ : Type} (one : List Obs → Except PyErr (α × List γ)) :
    List (List Obs) → α → List γ → Except PyErr (α × List γ)
  | [], lp, out => .ok (lp, out)
  | subX :: rest, lp, out =>
    match one subX with
    | .error e => .error e
    | .ok (lpi, outi) => seqLoop one rest (lp + lpi) (out ++ outi)

/-- `_score`, base.py:234-288 (after `_check` and `check_array`). -/
def scoreCore (m : Hmm α nc Obs) (X : List Obs) (lengths : Option (List Int))
    (computePosteriors : Bool) : Except PyErr (α × List (Row α nc)) := do
  let subs ← splitXLengths X lengths
  let one := match m.implementation with
    | .log => scoreOneLog m computePosteriors
    | .scaling => scoreOneScaling m computePosteriors
  seqLoop one subs 0 []

/-- `score`, base.py:209-231. -/
def score (m : Hmm α nc Obs) (X : List Obs) (lengths : Option (List Int)) : Except PyErr α :=
  (scoreCore m X lengths false).map (·.1)

/-- `score_samples`, base.py:183-207. -/
def scoreSamples (m : Hmm α nc Obs) (X : List Obs) (lengths : Option (List Int)) :
    Except PyErr (α × List (Row α nc)) :=
  scoreCore m X lengths true

/-- `predict_proba`, base.py:378-396. -/
def predictProba (m : Hmm α nc Obs) (X : List Obs) (lengths : Option (List Int)) :
    Except PyErr (List (Row α nc)) :=
  (scoreSamples m X lengths).map (·.2)

/-- `_decode_viterbi`, base.py:290-292. -/
def decodeViterbi (m : Hmm α nc Obs) (X : List Obs) : Except PyErr (α × List (Fin nc)) := do
  let lb ← m.computeLogLikelihood X
  viterbi m.startprob m.transmat lb

/-- `_decode_map`, base.py:294-298.  `score_samples` validates the block again: `check_array` rejects an
empty one (its other checks, and `_check`, have passed already). -/
def decodeMap (m : Hmm α nc Obs) (X : List Obs) : Except PyErr (α × List (Fin nc)) :=
  if X.isEmpty then .error (.valueError "Found array with 0 sample(s) or feature(s)")
  else do
    let (_, posteriors) ← scoreSamples m X none
    let logProb := sumL (posteriors.map npMax)
    return (logProb, posteriors.map npArgmax)

/-- `decode`, base.py:300-356 (after `_check`, `check_array` and the resolution of
`algorithm`). -/
def decode (m : Hmm α nc Obs) (alg : Alg) (X : List Obs) (lengths : Option (List Int)) :
    Except PyErr (α × List (Fin nc)) := do
  let subs ← splitXLengths X lengths
  let one := match alg with
    | .viterbi => decodeViterbi m
    | .map => decodeMap m
  seqLoop one subs 0 []

/-- `predict`, base.py:358-374. -/
def predict (m : Hmm α nc Obs) (alg : Alg) (X : List Obs) (lengths : Option (List Int)) :
    Except PyErr (List (Fin nc)) :=
  (decode m alg X lengths).map (·.2)

end
end Verif
