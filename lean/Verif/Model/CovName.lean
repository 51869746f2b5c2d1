import Verif.Model.Estimators
import Verif.Model.Criteria
import Verif.Model.GmmEstimator

/-!
# `covariance_type` as a string

In `Verif/Model/Estimators.lean` the covariance type is fixed per class model.  In the code it is an attribute,
src/hmmlearn/hmm.py:287, read by every method and assignable at any time; it is not looked at by the
constructor.  Here `GaussianHMM`, and the `fit` of `GMMHMM`, are functions of the string.
-/
set_option autoImplicit false

namespace Verif
open FloatLike

variable {α G P : Type} [FloatLike α]

/-- `COVARIANCE_TYPES`, hmm.py:23, and the dictionary at _emissions.py:121-126. -/
def covTypeOf (name : String) : Option CovType :=
  if name = "spherical" then some .spherical
  else if name = "diag" then some .diag
  else if name = "full" then some .full
  else if name = "tied" then some .tied
  else none

/-- `GaussianHMM` for each of the types. -/
def gaussSubOf (eig : Eigvalsh α) : CovType → Sub α G (GaussAttrs α)
  | .spherical => gaussSphericalSub eig
  | .diag => gaussDiagSub eig
  | .full => gaussFullSub eig
  | .tied => gaussTiedSub eig

/-- `_check` for an invalid type, hmm.py:324-332: the attributes of `means_` are read first. -/
def gaussBadCheck : Py (Est α G (GaussAttrs α)) Unit := do
  gaussCheck
  Py.raise (.valueError "covariance_type must be one of")

/-- The inference methods and `sample` of `GaussianHMM` with `covariance_type=name`.  For an invalid name they stop
in `_check`; the other entries are then never used. -/
def gaussNamed (eig : Eigvalsh α) (name : String) : Sub α G (GaussAttrs α) :=
  match covTypeOf name with
  | some ty => gaussSubOf eig ty
  | none => { gaussDiagSub eig with checkSub := gaussBadCheck }

/-- `BaseHMM._init`, base.py:919-937, for an invalid name: `_get_n_fit_scalars_per_param` looks the name up in a
dictionary, _emissions.py:121-126 and :194-199, after the draws. -/
def badInit (name : String) (R : RandomLib α G) (X : XArr α) : Py (World α G P) Unit := do
  onEst (checkFeaturesBase X)
  let w ← Py.get
  let e := w.est
  let (s, t) ← withSelfGen R (initDraws R e.nComponents (needsInit e.initParams 's' e.startprob.isSome)
    (needsInit e.initParams 't' e.transmat.isSome))
  onEst (Py.modify fun e => { e with startprob := s <|> e.startprob, transmat := t <|> e.transmat })
  Py.raise (.keyError name)

/-- `fit`, base.py:453-500. -/
def gaussNamedFit (eig : Eigvalsh α) (name : String) (R : RandomLib α G) (X : RawX α) (lengths : Option (List Int)) :
    Py (World α G (GaussAttrs α)) Unit :=
  match covTypeOf name with
  | some ty => (gaussSubOf eig ty).fit R X lengths
  | none => do
    let X ← Py.lift (checkArray X)
    badInit name R X

/-- `fit` of `GMMHMM`, hmm.py:533-534; `types` are the class models of the four types. -/
def gmmNamedFit {nm : Nat} [NeZero nm] (types : CovType → GmmType α nm) (name : String) (R : RandomLib α G) (X : RawX α)
    (lengths : Option (List Int)) : Py (World α G (GmmAttrs α)) Unit :=
  match covTypeOf name with
  | some ty => (gmmSub (types ty)).fit R X lengths
  | none => do
    let X ← Py.lift (checkArray X)
    badInit name R X

/-- `aic`, base.py:979-1001: the number of parameters comes first. -/
def gaussNamedAic (eig : Eigvalsh α) (name : String) (missing : PyErr) (X : RawX α) (lengths : Option (List Int)) :
    Py (Est α G (GaussAttrs α)) α :=
  match covTypeOf name with
  | some ty => (gaussSubOf eig ty).aic missing X lengths
  | none => fun e => if e.nFeatures.isNone then (.error missing, e) else (.error (.keyError name), e)

end Verif
