import Verif.Model.EmissionUtil

/-!
# Model of `PoissonHMM`

src/hmmlearn/_emissions.py:372-410 and src/hmmlearn/hmm.py:945-1075.  A sample is a row of `nf`
integers (`PoissonHMM` does not validate its data; what becomes of floats is in `poisRows`,
`Verif/Model/Estimators.lean`).  `lambdas_` has shape `(n_components, n_features)`.
-/

namespace Verif
open FloatLike

namespace Poisson
variable {α : Type} [FloatLike α] {nc nf : Nat}

/-- Emission parameters: `lambdas_`. -/
abbrev Params (α : Type) (nc nf : Nat) := Fin nc → Fin nf → α

/-- A sample. -/
abbrev Obs (nf : Nat) := Fin nf → Int

/-- `scipy.stats.poisson.logpmf(k, mu)`: NaN unless `mu >= 0`, `-inf` for `k < 0`, otherwise
`xlogy(k, mu) - gammaln(k + 1) - mu`. -/
def logpmf (k : Int) (mu : α) : α :=
  if !(le 0 mu) then nan
  else if k < 0 then negInf
  else xlogy k.toNat mu - logFactorial k.toNat - mu

/-- `scipy.stats.poisson.pmf(k, mu)`: NaN unless `mu >= 0`, 0 for `k < 0`, otherwise `exp` of the
`logpmf`. -/
def pmf (k : Int) (mu : α) : α :=
  if !(le 0 mu) then nan
  else if k < 0 then 0
  else exp (logpmf k mu)

/-- `_compute_likelihood`, _emissions.py:383-387. -/
def computeLikelihood (l : Params α nc nf) (X : List (Obs nf)) : List (Row α nc) :=
  X.map fun x => memo! (fun c => prodF fun k => pmf (x k) (l c k))

/-- `_compute_log_likelihood`, _emissions.py:389-393. -/
def computeLogLikelihood (l : Params α nc nf) (X : List (Obs nf)) : List (Row α nc) :=
  X.map fun x => memo! (fun c => sumF fun k => logpmf (x k) (l c k))

/-- `stats['post'], stats['obs']`, _emissions.py:395-399. -/
structure Stats (α : Type) (nc nf : Nat) where
  post : Row α nc
  obs : Fin nc → Fin nf → α

/-- `_do_mstep`, hmm.py:1061-1075.  `alphas`, `betas` are `lambdas_prior`, `lambdas_weight`,
broadcast to `(n_components, n_features)`. -/
def mstepLambdas (alphas betas : Fin nc → Fin nf → α) (st : Stats α nc nf) : Params α nc nf :=
  let n := sumF st.post
  memo! (fun c => memo! (fun k =>
    let yBar := st.obs c k / st.post c
    (alphas c k + n * yBar) / (betas c k + n)))

/-- The Poisson emission family. -/
def emission (alphas betas : Fin nc → Fin nf → α) :
    Emission α nc (Obs nf) (Params α nc nf) (Stats α nc nf) where
  lik l X := .ok (computeLikelihood l X)
  loglik l X := .ok (computeLogLikelihood l X)
  -- _emissions.py:395-399
  zero _ _ := ⟨fun _ => 0, fun _ _ => 0⟩
  -- _emissions.py:401-407
  acc params _ st X post := .ok <|
    if 'l' ∈ params then
      ⟨memo! (fun i => st.post i + sumPost post i),
        memo! (fun i => memo! (fun k => st.obs i k + dotPost post X (fun x => ofInt' (x k)) i))⟩
    else st
  -- hmm.py:1061-1075
  mstep params l st := if 'l' ∈ params then mstepLambdas alphas betas st else l

end Poisson
end Verif
