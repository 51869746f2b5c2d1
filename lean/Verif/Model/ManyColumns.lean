import Verif.Model.Estimators

/-!
# Several columns against a single feature

The inference methods do not look at the number of columns of `X`.  When the model has one feature, numpy
broadcasts its parameters over all `d` columns: src/hmmlearn/_emissions.py:382-393 (`PoissonHMM`) and
src/hmmlearn/stats.py:47-66 (`GaussianHMM`, covariance types `diag` and `spherical`; with `full` and `tied`
`solve_triangular` at stats.py:98 raises ValueError).  One observation of the classes here is a row of `d`
numbers.  `fit` refuses such data (C101) and `sample` has no such argument, so both are left out.
-/
set_option autoImplicit false

namespace Verif
open FloatLike
variable {α G : Type} [FloatLike α] {nc nf : Nat}

/-- `_compute_likelihood` and `_compute_log_likelihood` of `PoissonHMM`, _emissions.py:383-393, on `d` columns. -/
def Poisson.manyEmission (d : Nat) : Emission α nc (Fin d → Int) (Params α nc nf) (Stats α nc nf) where
  lik l X := if h : nf = 1 then .ok (X.map fun x => memo! (fun c => prodF fun k => pmf (x k) (l c ⟨0, by omega⟩)))
    else .error .notImplemented
  loglik l X := if h : nf = 1 then .ok (X.map fun x => memo! (fun c => sumF fun k => logpmf (x k) (l c ⟨0, by omega⟩)))
    else .error .notImplemented
  zero _ _ := ⟨fun _ => 0, fun _ _ => 0⟩
  acc _ _ _ _ _ := .error .notImplemented
  mstep _ l _ := l

/-- `_log_multivariate_normal_density_diag`, stats.py:47-56, for one sample with `d` columns and one component of
one feature: `nf` and `np.log(covars).sum(axis=-1)` refer to the single feature, the last sum to all columns. -/
def Gaussian.logDensityMany {d : Nat} (mean covar : α) (x : Fin d → α) : α :=
  let cv := npMaximum covar tiny
  ofRat (-1 / 2) * (logTwoPi 1 + sumF (fun _ : Fin 1 => log cv) + sumF fun k => sq (x k - mean) / cv)

/-- Frame log-likelihoods, _emissions.py:129-131, on `d` columns. -/
def Gaussian.manyLoglik {d : Nat} (p : DiagParams α nc nf) (X : List (Fin d → α)) : Except PyErr (List (Row α nc)) :=
  if h : nf = 1 then .ok (X.map fun x => memo! (fun c => logDensityMany (p.means c ⟨0, by omega⟩) (p.covars c ⟨0, by omega⟩) x))
  else .error .notImplemented

/-- `GaussianHMM` with covariance type `diag` or `spherical` on `d` columns. -/
def Gaussian.manyEmission (d : Nat) : Emission α nc (Fin d → α) (DiagParams α nc nf) (DiagStats α nc nf) where
  lik p X := (manyLoglik p X).map expRows
  loglik p X := manyLoglik p X
  zero _ _ := DiagStats.zero
  acc _ _ _ _ _ := .error .notImplemented
  mstep _ p _ := p

/-- `PoissonHMM` on `d` columns. -/
def poisMany (d : Nat) : Sub α G (PoisAttrs α) :=
  { poisSub with
    Obs := fun _ => Fin d → Int
    rows := fun _ X => if X.d = d then poisRows d X else .error .notImplemented
    emission := fun _ _ _ => Poisson.manyEmission d
    sampleSub := fun _ _ _ _ _ _ g => (.error .notImplemented, g) }

/-- `GaussianHMM(covariance_type="diag")` on `d` columns. -/
def gaussDiagMany (d : Nat) (eig : Eigvalsh α) : Sub α G (GaussAttrs α) :=
  { gaussDiagSub eig with
    Obs := fun _ => Fin d → α
    rows := fun _ X => if X.d = d then gaussRows d X else .error .notImplemented
    emission := fun _ _ _ => Gaussian.manyEmission d
    sampleSub := fun _ _ _ _ _ _ g => (.error .notImplemented, g) }

/-- `GaussianHMM(covariance_type="spherical")` on `d` columns. -/
def gaussSphericalMany (d : Nat) (eig : Eigvalsh α) : Sub α G (GaussAttrs α) :=
  { gaussSphericalSub eig with
    Obs := fun _ => Fin d → α
    rows := fun _ X => if X.d = d then gaussRows d X else .error .notImplemented
    emission := fun _ _ _ => Gaussian.manyEmission d
    sampleSub := fun _ _ _ _ _ _ g => (.error .notImplemented, g) }

end Verif
