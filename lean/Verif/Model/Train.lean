import Verif.Model.Base
import Verif.Model.Monitor

/-!
# Model of training: E-step, M-step and the loop of `fit`

src/hmmlearn/base.py:453-500 (`fit`), :646-772 (statistics, E-step), :873-917 (`BaseHMM`).

An emission family (`Emission`) supplies what the subclasses in hmm.py/_emissions.py override;
everything else is shared.  Parameter values, previous to `fit`'s loop, are already initialised
and checked (see `Verif/Model/Estimator.lean` for `_init` and `_check`).
`params` is the string of parameter codes; `'s' in self.params` is character membership.
Scalar priors (`startprob_prior=1.0`) are broadcast to full arrays.
-/

namespace Verif
open FloatLike Hmmc

/-- Current parameter values: `startprob_`, `transmat_` and the subclass's emission parameters. -/
structure Theta (α : Type) (nc : Nat) (P : Type) where
  startprob : Row α nc
  transmat : Mat α nc
  emission : P

/-- What a subclass contributes to training. -/
structure Emission (α : Type) (nc : Nat) (Obs P S : Type) where
  /-- `_compute_likelihood` -/
  lik : P → List Obs → Except PyErr (List (Row α nc))
  /-- `_compute_log_likelihood` -/
  loglik : P → List Obs → Except PyErr (List (Row α nc))
  /-- `_initialize_sufficient_statistics` (the subclass's part) -/
  zero : List Char → P → S
  /-- `_accumulate_sufficient_statistics` (the subclass's part): params, current parameters,
  statistics, observations, posteriors -/
  acc : List Char → P → S → List Obs → List (Row α nc) → Except PyErr S
  /-- `_do_mstep` (the subclass's part) -/
  mstep : List Char → P → S → P

/-- Constructor arguments used by training. -/
structure Config (α : Type) (nc : Nat) where
  startprobPrior : Row α nc
  transmatPrior : Mat α nc
  params : List Char
  implementation : Impl
  /-- the estimator's `n_iter` attribute (the monitor has its own copy) -/
  nIter : Nat

/-- `stats['nobs'], stats['start'], stats['trans']`, base.py:665-668. -/
structure BaseStats (α : Type) (nc : Nat) where
  nobs : Nat
  start : Row α nc
  trans : Mat α nc

/-- The statistics dictionary. -/
structure Stats (α : Type) (nc : Nat) (S : Type) where
  base : BaseStats α nc
  em : S

/-- What `_fit_scaling` / `_fit_log` return, base.py:873-889. -/
structure FitOne (α : Type) (nc : Nat) where
  lattice : List (Row α nc)
  logProb : α
  posteriors : List (Row α nc)
  fwd : List (Row α nc)
  bwd : List (Row α nc)

section
variable {α : Type} [FloatLike α] {nc : Nat} {Obs P S : Type}

/-- The model seen by inference for the current parameters. -/
def Emission.toHmm (E : Emission α nc Obs P S) (impl : Impl) (θ : Theta α nc P) : Hmm α nc Obs where
  startprob := θ.startprob
  transmat := θ.transmat
  computeLikelihood := E.lik θ.emission
  computeLogLikelihood := E.loglik θ.emission
  implementation := impl

variable [NeZero nc]

/-- `_fit_scaling`, base.py:873-880. -/
def fitScaling (m : Hmm α nc Obs) (X : List Obs) : Except PyErr (FitOne α nc) := do
  let b ← m.computeLikelihood X
  let (logProb, fwd, scaling) ← forwardScaling m.startprob m.transmat b
  let bwd ← backwardScaling m.transmat b scaling
  return ⟨b, logProb, computePosteriorsScaling fwd bwd, fwd, bwd⟩

/-- `_fit_log`, base.py:882-889. -/
def fitLog (m : Hmm α nc Obs) (X : List Obs) : Except PyErr (FitOne α nc) := do
  let lb ← m.computeLogLikelihood X
  let (logProb, fwd) ← forwardLog m.startprob m.transmat lb
  let bwd ← backwardLog m.transmat lb
  return ⟨lb, logProb, computePosteriorsLog fwd bwd, fwd, bwd⟩

/-- The dispatch at base.py:755-758. -/
def fitOne (m : Hmm α nc Obs) (X : List Obs) : Except PyErr (FitOne α nc) :=
  match m.implementation with
  | .log => fitLog m X
  | .scaling => fitScaling m X

/-- Initial statistics, base.py:665-668. -/
def BaseStats.zero : BaseStats α nc := ⟨0, fun _ => 0, fun _ _ => 0⟩

/-- Transition counts of one sequence, base.py:717-721 and :738-742. -/
def xiSum (impl : Impl) (A : Mat α nc) (r : FitOne α nc) : Except PyErr (Mat α nc) :=
  match impl with
  | .scaling => computeScalingXiSum r.fwd A r.bwd r.lattice
  | .log => (computeLogXiSum r.fwd A r.bwd r.lattice).map fun xi =>
      memo! (fun i => memo! (fun j => exp (xi i j)))

/-- `_accumulate_sufficient_statistics_{scaling,log}`, base.py:705-742. -/
def accumulateBase (params : List Char) (impl : Impl) (A : Mat α nc) (st : BaseStats α nc)
    (r : FitOne α nc) : Except PyErr (BaseStats α nc) := do
  let st := { st with nobs := st.nobs + 1 }
  let st ← if 's' ∈ params then
      match r.posteriors.head? with
      | none => .error .indexError
      | some p0 => .ok { st with start := memo! (fun i => st.start i + p0 i) }
    else .ok st
  if 't' ∈ params then
    if r.lattice.length ≤ 1 then return st
    let xi ← xiSum impl A r
    return { st with trans := memo! (fun i => memo! (fun j => st.trans i j + xi i j)) }
  else
    return st

/-- One pass of the loop of `_do_estep`, base.py:763-771. -/
def estepOne (E : Emission α nc Obs P S) (params : List Char) (impl : Impl) (θ : Theta α nc P)
    (st : Stats α nc S) (subX : List Obs) : Except PyErr (Stats α nc S × α) := do
  let r ← fitOne (E.toHmm impl θ) subX
  let base ← accumulateBase params impl θ.transmat st.base r
  let em ← E.acc params θ.emission st.em subX r.posteriors
  return (⟨base, em⟩, r.logProb)

/-- The loop of `_do_estep`, base.py:763-771. -/
def estepLoop (E : Emission α nc Obs P S) (params : List Char) (impl : Impl) (θ : Theta α nc P) :
    List (List Obs) → Stats α nc S → α → Except PyErr (Stats α nc S × α)
  | [], st, lp => .ok (st, lp)
  | subX :: rest, st, lp =>
    match estepOne E params impl θ st subX with
    | .error e => .error e
    | .ok (st', lpi) => estepLoop E params impl θ rest st' (lp + lpi)

/-- `_do_estep`, base.py:754-772. -/
def doEstep (E : Emission α nc Obs P S) (cfg : Config α nc) (θ : Theta α nc P) (X : List Obs)
    (lengths : List Int) : Except PyErr (Stats α nc S × α) := do
  let subs ← splitXLengths X (some lengths)
  estepLoop E cfg.params cfg.implementation θ subs
    ⟨BaseStats.zero, E.zero cfg.params θ.emission⟩ 0

omit [NeZero nc] in
/-- The new `startprob_`, base.py:907-911. -/
def mstepStart (prior old stat : Row α nc) : Row α nc :=
  let v := memo! (fun i => npMaximum (prior i - 1 + stat i) 0)
  let w := memo! (fun i => if eq (old i) 0 then 0 else v i)
  memo! (normalizeVec w)

omit [NeZero nc] in
/-- A row of the new `transmat_`, base.py:912-914. -/
def mstepTransRow (prior old stat : Row α nc) : Row α nc :=
  let v := memo! (fun j => npMaximum (prior j - 1 + stat j) 0)
  let w := memo! (fun j => if eq (old j) 0 then 0 else v j)
  memo! (normalizeRow w)

omit [NeZero nc] in
/-- `_do_mstep`: base.py:891-914 followed by the subclass's part. -/
def doMstep (E : Emission α nc Obs P S) (cfg : Config α nc) (θ : Theta α nc P)
    (st : Stats α nc S) : Theta α nc P where
  startprob := if 's' ∈ cfg.params then mstepStart cfg.startprobPrior θ.startprob st.base.start
    else θ.startprob
  transmat := if 't' ∈ cfg.params then
      memo! (fun i => mstepTransRow (cfg.transmatPrior i) (θ.transmat i) (st.base.trans i))
    else θ.transmat
  emission := E.mstep cfg.params θ.emission st.em

/-- One pass of the loop of `fit`, base.py:484-493: E-step, lower bound (the log-likelihood,
base.py:916-917), M-step.  Returns the new parameters and the reported value. -/
def emStep (E : Emission α nc Obs P S) (cfg : Config α nc) (X : List Obs) (lengths : List Int)
    (θ : Theta α nc P) : Except PyErr (Theta α nc P × α) := do
  let (st, lp) ← doEstep E cfg θ X lengths
  return (doMstep E cfg θ st, lp)

end

/-- State of an estimator after `fit` returns or raises. -/
structure FitOutcome (α σ : Type) where
  state : σ
  monitor : Monitor α
  raised : Option PyErr

/-- The loop of `fit`, base.py:484-500, over an arbitrary parameter state: `step` is one E-step
and M-step, returning the new state and the value passed to `monitor_.report`.  The warning
about zero rows (base.py:497-499) is in Model/FitLog.lean. -/
def fitLoop {α σ : Type} [FloatLike α] (step : σ → Except PyErr (σ × α)) :
    Nat → σ → Monitor α → FitOutcome α σ
  | 0, s, mon => ⟨s, mon, none⟩
  | k + 1, s, mon =>
    match step s with
    | .error e => ⟨s, mon, some e⟩
    | .ok (s', lb) =>
      let mon' := mon.report lb
      if mon'.converged then ⟨s', mon', none⟩ else fitLoop step k s' mon'

/-- `fit` after `_init` and `_check`, base.py:483-500; `lengths=None` becomes `[n_samples]`
(base.py:478-479). -/
def fitFrom {α : Type} [FloatLike α] {nc : Nat} [NeZero nc] {Obs P S : Type}
    (E : Emission α nc Obs P S) (cfg : Config α nc) (X : List Obs) (lengths : Option (List Int))
    (θ : Theta α nc P) (mon : Monitor α) : FitOutcome α (Theta α nc P) :=
  fitLoop (emStep E cfg X (lengths.getD [(X.length : Int)])) cfg.nIter θ mon.reset

end Verif
