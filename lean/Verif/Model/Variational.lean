import Verif.Model.Kl
import Verif.Model.Categorical

/-!
# Model of variational training

`VariationalBaseHMM`, src/hmmlearn/base.py:1031-1271, `VariationalCategoricalHMM`,
src/hmmlearn/vhmm.py:19-230, and `fit`, base.py:453-500, as these classes use it.

base.py:1101-1204 (`_fit_scaling`, `_fit_log`, the two accumulation methods) repeats the code of
`BaseHMM` with `startprob_subnorm_`, `transmat_subnorm_` and `_compute_subnorm_log_likelihood` in
place of `startprob_`, `transmat_` and `_compute_log_likelihood`, so the E-step is `doEstep` at the
subnormalised parameters.  The values of the attributes before the loop are already initialised
and checked; `startprob_` and `transmat_` may not exist.
-/

namespace Verif
open FloatLike

/-- Attributes: `startprob_posterior_`, `transmat_posterior_`, `startprob_`, `transmat_` (`none`:
not set) and the subclass's attributes. -/
structure VTheta (α : Type) (nc : Nat) (VP : Type) where
  startPost : Row α nc
  transPost : Mat α nc
  startprob : Option (Row α nc)
  transmat : Option (Mat α nc)
  emission : VP

/-- What a variational subclass contributes. -/
structure VEmission (α : Type) (nc : Nat) (Obs VP P S : Type) where
  /-- the subclass's part of `_estep_begin` -/
  begin : VP → P
  /-- `_compute_subnorm_(log_)likelihood` and the statistics (`mstep` is not used) -/
  core : Emission α nc Obs P S
  /-- the subclass's part of `_do_mstep` -/
  mstep : List Char → VP → S → VP
  /-- what the subclass adds in `_compute_lower_bound` -/
  bound : VP → Except PyErr α

section
variable {α : Type} [FloatLike α] {nc : Nat} {Obs VP P S : Type}

/-- `special.digamma(a) - special.digamma(a.sum())`, base.py:1211-1213. -/
def logSubnorm (sci : Sci α) {n : Nat} (a : Fin n → α) : Fin n → α :=
  let d := sci.digamma (sumF a)
  memo! (fun i => sci.digamma (a i) - d)

/-- `_estep_begin`, base.py:1206-1220 and the subclass: the parameters of the E-step. -/
def VEmission.subnorm (V : VEmission α nc Obs VP P S) (sci : Sci α) (θ : VTheta α nc VP) :
    Theta α nc P where
  startprob := let l := logSubnorm sci θ.startPost; memo! (fun i => exp (l i))
  transmat := memo! (fun i => let l := logSubnorm sci (θ.transPost i); memo! (fun j => exp (l j)))
  emission := V.begin θ.emission

/-- `x / x.sum()`. -/
def divSum {n : Nat} (a : Fin n → α) : Fin n → α :=
  let s := sumF a
  memo! (fun i => a i / s)

/-- `_do_mstep`, base.py:1222-1240 and the subclass.  `cfg.startprobPrior`, `cfg.transmatPrior` are
the arrays `startprob_prior_`, `transmat_prior_`. -/
def VEmission.doMstep (V : VEmission α nc Obs VP P S) (cfg : Config α nc) (θ : VTheta α nc VP)
    (st : Stats α nc S) : VTheta α nc VP :=
  let sp : Row α nc := memo! (fun i => cfg.startprobPrior i + st.base.start i)
  let tp : Mat α nc := memo! (fun i => memo! (fun j => cfg.transmatPrior i j + st.base.trans i j))
  { startPost := if 's' ∈ cfg.params then sp else θ.startPost
    startprob := if 's' ∈ cfg.params then some (divSum sp) else θ.startprob
    transPost := if 't' ∈ cfg.params then tp else θ.transPost
    transmat := if 't' ∈ cfg.params then some (memo! (fun i => divSum (tp i))) else θ.transmat
    emission := V.mstep cfg.params θ.emission st.em }

/-- The loops `bound = 0; for i in range(n): bound -= kl_dirichlet(post[i], prior[i])`,
base.py:1267-1270 and vhmm.py:227-230. -/
def negKlRows (sci : Sci α) {m n : Nat} (post prior : Fin m → Fin n → α) : α :=
  (List.finRange m).foldl (fun acc i => acc - Kl.dirichlet sci (post i) (prior i)) 0

/-- `_compute_lower_bound`, base.py:1242-1271 and the subclass. -/
def VEmission.lowerBound (V : VEmission α nc Obs VP P S) (sci : Sci α) (cfg : Config α nc)
    (θ : VTheta α nc VP) (logProb : α) : Except PyErr α := do
  let base := -(Kl.dirichlet sci θ.startPost cfg.startprobPrior) +
    negKlRows sci θ.transPost cfg.transmatPrior + logProb
  return base + (← V.bound θ.emission)

/-- One pass of the loop of `fit`, base.py:484-493: E-step, lower bound at the parameters before
the M-step, M-step. -/
def VEmission.step [NeZero nc] (V : VEmission α nc Obs VP P S) (sci : Sci α) (cfg : Config α nc)
    (X : List Obs) (lengths : List Int) (θ : VTheta α nc VP) :
    Except PyErr (VTheta α nc VP × α) := do
  let (st, lp) ← doEstep V.core cfg (V.subnorm sci θ) X lengths
  let lb ← V.lowerBound sci cfg θ lp
  return (V.doMstep cfg θ st, lb)

/-- The loop of `fit`, base.py:484-500.  After an iteration that has not converged base.py:497
reads `self.transmat_`, an `AttributeError` when it does not exist. -/
def vfitLoop (step : VTheta α nc VP → Except PyErr (VTheta α nc VP × α)) :
    Nat → VTheta α nc VP → Monitor α → FitOutcome α (VTheta α nc VP)
  | 0, s, mon => ⟨s, mon, none⟩
  | k + 1, s, mon =>
    match step s with
    | .error e => ⟨s, mon, some e⟩
    | .ok (s', lb) =>
      let mon' := mon.report lb
      if mon'.converged then ⟨s', mon', none⟩
      else match s'.transmat with
        | none => ⟨s', mon', some (.attributeError "transmat_")⟩
        | some _ => vfitLoop step k s' mon'

/-- `fit` after `_init` and `_check`, base.py:483-500. -/
def VEmission.fitFrom [NeZero nc] (V : VEmission α nc Obs VP P S) (sci : Sci α) (cfg : Config α nc)
    (X : List Obs) (lengths : Option (List Int)) (θ : VTheta α nc VP) (mon : Monitor α) :
    FitOutcome α (VTheta α nc VP) :=
  vfitLoop (V.step sci cfg X (lengths.getD [(X.length : Int)])) cfg.nIter θ mon.reset

end

/-! ## `VariationalCategoricalHMM` -/

namespace VCategorical
variable {α : Type} [FloatLike α] {nc nf : Nat}

/-- `emissionprob_posterior_` and `emissionprob_` (`none`: not set). -/
structure Params (α : Type) (nc nf : Nat) where
  post : Fin nc → Fin nf → α
  prob : Option (Fin nc → Fin nf → α)

/-- `_do_mstep`, vhmm.py:201-217. -/
def mstep (prior : Fin nc → Fin nf → α) (params : List Char) (p : Params α nc nf)
    (obs : Fin nc → Fin nf → α) : Params α nc nf :=
  if 'e' ∈ params then
    let post := memo! (fun i => memo! (fun k => prior i k + obs i k))
    ⟨post, some (memo! (fun i => divSum (post i)))⟩
  else p

/-- The likelihood and the statistics as functions of `emissionprob_log_subnorm_`. -/
def core : Emission α nc Int (Categorical.Params α nc nf) (Categorical.Params α nc nf) where
  -- base.py:1152-1157
  lik l X := (Categorical.computeLikelihood l X).map Gaussian.expRows
  -- vhmm.py:198-199
  loglik := Categorical.computeLikelihood
  -- _emissions.py:86-89
  zero _ _ := fun _ _ => 0
  -- _emissions.py:91-104
  acc params _ st X post := if 'e' ∈ params then Categorical.addAt st X post else .ok st
  mstep _ l _ := l

/-- `VariationalCategoricalHMM`; `prior` is `emissionprob_prior_`. -/
def emission (sci : Sci α) (prior : Fin nc → Fin nf → α) :
    VEmission α nc Int (Params α nc nf) (Categorical.Params α nc nf) (Categorical.Params α nc nf) where
  -- vhmm.py:160-167
  begin p := memo! (fun i => logSubnorm sci (p.post i))
  core := core
  mstep := mstep prior
  -- vhmm.py:219-231
  bound p := .ok (negKlRows sci p.post prior)

/-- The model `score`, `decode`, … see: `check_is_fitted(self, "startprob_")` (base.py:242, :335, :427),
then `_check`, which only looks at shapes (base.py:1122-1150, vhmm.py:169-196).  A missing `transmat_`
or `emissionprob_` is an `AttributeError` at its first use, here raised at once. -/
def point (impl : Impl) (θ : VTheta α nc (Params α nc nf)) : Except PyErr (Hmm α nc Int) :=
  match θ.startprob with
  | none => .error .notFitted
  | some π =>
    match θ.transmat with
    | none => .error (.attributeError "transmat_")
    | some A =>
      match θ.emission.prob with
      | none => .error (.attributeError "emissionprob_")
      | some e => .ok ((Categorical.emission fun _ _ => 1).toHmm impl ⟨π, A, e⟩)

/-- `score` of a variational model, base.py:209-231. -/
def score [NeZero nc] (impl : Impl) (θ : VTheta α nc (Params α nc nf)) (X : List Int)
    (lengths : Option (List Int)) : Except PyErr α := do
  Verif.score (← point impl θ) X lengths

end VCategorical
end Verif
