import Verif.Model.Variational
import Verif.Model.Gaussian

/-!
# Model of `VariationalGaussianHMM`

src/hmmlearn/vhmm.py:233-844: the frame log-likelihoods of the E-step, the M-step and the lower bound.
`_init` and `_check` have run: the attributes have the shapes of vhmm.py:578-655.  What depends on
`covariance_type` is a `Kind`; there are four.
-/

set_option autoImplicit false

namespace Verif
open FloatLike

namespace VGaussian
open Gaussian (Obs Sq DiagStats FullStats accDiag accFull)
variable {α : Type} [FloatLike α] {nc nf : Nat}

/-- `beta_posterior_`, `means_posterior_`, `dof_posterior_`, `scale_posterior_`, and `_covars_`
(`none`: as set by `_init`, where a spherical array still has shape `(nc, nf)`). -/
structure Params (α : Type) (nc nf : Nat) (Dof Sc : Type) where
  beta : Row α nc
  means : Fin nc → Fin nf → α
  dof : Dof
  scale : Sc
  covars : Option Sc

/-- `beta_prior_`, `means_prior_`, `dof_prior_`, `scale_prior_`. -/
structure Prior (α : Type) (nc nf : Nat) (Dof Sc : Type) where
  beta : Row α nc
  means : Fin nc → Fin nf → α
  dof : Dof
  scale : Sc

/-- What depends on `covariance_type`. -/
structure Kind (α : Type) (nc nf : Nat) (Dof Sc St : Type) where
  /-- degrees of freedom of each state, vhmm.py:807-810 -/
  dofAt : Dof → Fin nc → α
  /-- `fill_covars`, utils.py:58-71 -/
  fill : Sc → Fin nc → Sq α nf
  /-- `W_k` of the likelihood, vhmm.py:667-672 -/
  winv : Sci α → Sc → Except PyErr (Fin nc → Sq α nf)
  /-- initial statistics, _emissions.py:133-142 -/
  zero : St
  /-- statistics of a sequence, _emissions.py:144-163 -/
  acc : List Char → St → List (Obs α nf) → List (Row α nc) → St
  /-- `stats['post']` -/
  post : St → Row α nc
  /-- `stats['obs']` -/
  obs : St → Fin nc → Fin nf → α
  /-- the new `dof_posterior_`, `scale_posterior_`, `_covars_`, vhmm.py:715-784, in terms of
  `beta_posterior_` and `means_posterior_` -/
  update : Prior α nc nf Dof Sc → Row α nc → (Fin nc → Fin nf → α) → St → Dof × Sc × Sc
  /-- `klw` of state `i`, vhmm.py:822-837 -/
  klw : Sci α → Prior α nc nf Dof Sc → Dof → Sc → Fin nc → Except PyErr α
  /-- `log_multivariate_normal_density(X, means_, _covars_, covariance_type)`, stats.py:5-99 -/
  density : (Fin nc → Fin nf → α) → Sc → List (Obs α nf) → Except PyErr (List (Row α nc))

/-- The parameter letters that decide which statistics are collected: those for the means are also
needed for the covariances, vhmm.py:840-844. -/
def needs (params : List Char) : List Char := if 'c' ∈ params then 'm' :: params else params

/-- `np.diag` of a row. -/
def diagMat (v : Fin nf → α) : Sq α nf := fun k l => if k = l then v k else 0

/-- `np.eye(n) * c`. -/
def eyeMul (c : α) : Sq α nf := fun k l => (if k = l then 1 else 0) * c

section Kinds

/-- `covariance_type="full"`. -/
def full : Kind α nc nf (Row α nc) (Fin nc → Sq α nf) (FullStats α nc nf) where
  dofAt d := d
  fill s := s
  winv sci s := allOk fun c => sci.inv (s c)
  zero := FullStats.zero
  acc params := accFull (needs params)
  post := FullStats.post
  obs := FullStats.obs
  update pr beta means st :=
    let dof := memo! (fun c => pr.dof c + st.post c)
    let scale := memo! (fun c => memo! (fun k => memo! (fun l =>
      pr.scale c k l + st.obsObs c k l + pr.beta c * pr.means c k * pr.means c l
        - beta c * means c k * means c l)))
    (dof, scale, memo! (fun c => memo! (fun k => memo! (fun l => scale c k l / dof c))))
  klw sci pr dof scale i := Kl.wishart sci (dof i) (scale i) (pr.dof i) (pr.scale i)
  density := Gaussian.logDensityFull

/-- `covariance_type="tied"`. -/
def tied : Kind α nc nf α (Sq α nf) (FullStats α nc nf) where
  dofAt d _ := d
  fill s _ := s
  winv sci s := (sci.inv s).map fun w _ => w
  zero := FullStats.zero
  acc params := accFull (needs params)
  post := FullStats.post
  obs := FullStats.obs
  update pr beta means st :=
    let dof := pr.dof + sumF st.post
    let scale : Sq α nf := memo! (fun k => memo! (fun l =>
      pr.scale k l + sumF (fun c => st.obsObs c k l)
        + sumF (fun c => pr.beta c * pr.means c k * pr.means c l)
        - sumF (fun c => beta c * means c k * means c l)))
    (dof, scale, memo! (fun k => memo! (fun l => scale k l / dof)))
  klw sci pr dof scale i :=
    if i.val = 0 then Kl.wishart sci dof scale pr.dof pr.scale else .ok 0
  density := Gaussian.logDensityTied

/-- `covariance_type="diag"`. -/
def diag : Kind α nc nf (Row α nc) (Fin nc → Fin nf → α) (DiagStats α nc nf) where
  dofAt d := d
  fill s c := diagMat (s c)
  winv sci s := allOk fun c => sci.inv (diagMat (s c))
  zero := DiagStats.zero
  acc params := accDiag (needs params)
  post := DiagStats.post
  obs := DiagStats.obs
  update pr beta means st :=
    let dof := memo! (fun c => pr.dof c + st.post c)
    let scale := memo! (fun c => memo! (fun k =>
      pr.scale c k + st.obs2 c k + pr.beta c * pr.means c k * pr.means c k
        - beta c * means c k * means c k))
    (dof, scale, memo! (fun c => memo! (fun k => scale c k / dof c)))
  klw sci pr dof scale i :=
    Kl.wishart sci (dof i) (diagMat (scale i)) (pr.dof i) (diagMat (pr.scale i))
  density means covars X := .ok (Gaussian.loglikDiag ⟨means, covars⟩ X)

/-- `covariance_type="spherical"`. -/
def spherical : Kind α nc nf (Row α nc) (Row α nc) (DiagStats α nc nf) where
  dofAt d := d
  fill s c := eyeMul (s c)
  winv sci s := allOk fun c => sci.inv (eyeMul (s c))
  zero := DiagStats.zero
  acc params := accDiag (needs params)
  post := DiagStats.post
  obs := DiagStats.obs
  update pr beta means st :=
    let dof := memo! (fun c => pr.dof c + st.post c)
    let scale := memo! (fun c => pr.scale c +
      sumF (fun k => st.obs2 c k + pr.beta c * pr.means c k * pr.means c k
        - beta c * means c k * means c k) / ofNat' nf)
    (dof, scale, memo! (fun c => scale c / dof c))
  klw sci pr dof scale i :=
    Kl.wishart (n := nf) sci (dof i) (eyeMul (scale i)) (pr.dof i) (eyeMul (pr.scale i))
  density means covars X :=
    .ok (X.map fun x => memo! (fun c => Gaussian.logDensitySpherical (means c) (covars c) x))

end Kinds

variable {Dof Sc St : Type}

/-- `_compute_subnorm_log_likelihood`, vhmm.py:657-695. -/
def loglik (K : Kind α nc nf Dof Sc St) (sci : Sci α) (p : Params α nc nf Dof Sc)
    (X : List (Obs α nf)) : Except PyErr (List (Row α nc)) := do
  let W ← K.winv sci p.scale
  let term1 : Row α nc := memo! (fun c =>
    (sumF (fun k : Fin nf => sci.digamma (ofRat (1 / 2) * (K.dofAt p.dof c - ofNat' k.val)))
      + (ofNat' nf * log (ofNat' 2) + Kl.logdet sci (W c))) / ofNat' 2)
  return X.map fun x => memo! (fun c =>
    let delta : Fin nf → α := memo! (fun k => x k - p.means c k)
    let dots := sumF fun j => sumF fun k => delta j * W c j k * delta k * K.dofAt p.dof c
    let term3 := ofNat' nf / p.beta c
    term1 c - 0 - ofRat (1 / 2) * (dots + term3))

/-- `_do_mstep`, vhmm.py:697-784. -/
def mstep (K : Kind α nc nf Dof Sc St) (pr : Prior α nc nf Dof Sc) (params : List Char)
    (p : Params α nc nf Dof Sc) (st : St) : Params α nc nf Dof Sc :=
  let beta : Row α nc := if 'm' ∈ params then memo! (fun c => pr.beta c + K.post st c) else p.beta
  let means : Fin nc → Fin nf → α := if 'm' ∈ params then
      memo! (fun c => memo! (fun k => (pr.beta c * pr.means c k + K.obs st c k) / beta c))
    else p.means
  if 'c' ∈ params then
    let u := K.update pr beta means st
    ⟨beta, means, u.1, u.2.1, some u.2.2⟩
  else ⟨beta, means, p.dof, p.scale, p.covars⟩

/-- What `_compute_lower_bound` adds, vhmm.py:786-838. -/
def bound (K : Kind α nc nf Dof Sc St) (sci : Sci α) (pr : Prior α nc nf Dof Sc)
    (p : Params α nc nf Dof Sc) : Except PyErr α := do
  let W ← allOk fun c => sci.inv (K.fill p.scale c)
  (List.finRange nc).foldlM (fun acc i => do
    let precision : Sq α nf := memo! (fun k => memo! (fun l => W i k l * K.dofAt p.dof i))
    let term1 ← sci.inv fun k l => p.beta i * precision k l
    let term2 ← sci.inv fun k l => pr.beta i * precision k l
    let kln ← Kl.mvn sci (p.means i) term1 (pr.means i) term2
    let klw ← K.klw sci pr p.dof p.scale i
    return acc - kln - klw) 0

/-- `VariationalGaussianHMM`. -/
def emission (K : Kind α nc nf Dof Sc St) (sci : Sci α) (pr : Prior α nc nf Dof Sc) :
    VEmission α nc (Obs α nf) (Params α nc nf Dof Sc) (Params α nc nf Dof Sc) St where
  -- no `_estep_begin` in this class
  begin p := p
  core :=
    { -- base.py:1152-1157
      lik p X := (loglik K sci p X).map Gaussian.expRows
      loglik := loglik K sci
      zero _ _ := K.zero
      acc params _ st X post := .ok (K.acc params st X post)
      mstep _ p _ := p }
  mstep := mstep K pr
  bound := bound K sci pr

/-- The model inference sees, base.py:209-231, _emissions.py:129-131, vhmm.py:450-456: means
`means_posterior_`, covariances `_covars_`.  (Not modelled: the value `_init` gives `_covars_`.) -/
def point (K : Kind α nc nf Dof Sc St) (impl : Impl) (θ : VTheta α nc (Params α nc nf Dof Sc)) :
    Except PyErr (Hmm α nc (Obs α nf)) :=
  match θ.startprob with
  | none => .error .notFitted
  | some π =>
    match θ.transmat with
    | none => .error (.attributeError "transmat_")
    | some A =>
      match θ.emission.covars with
      | none => .error .notImplemented
      | some C => .ok
        { startprob := π
          transmat := A
          computeLikelihood := fun X => (K.density θ.emission.means C X).map Gaussian.expRows
          computeLogLikelihood := K.density θ.emission.means C
          implementation := impl }

/-- `score`, base.py:209-231. -/
def score [NeZero nc] (K : Kind α nc nf Dof Sc St) (impl : Impl)
    (θ : VTheta α nc (Params α nc nf Dof Sc)) (X : List (Obs α nf)) (lengths : Option (List Int)) :
    Except PyErr α := do
  Verif.score (← point K impl θ) X lengths

end VGaussian
end Verif
