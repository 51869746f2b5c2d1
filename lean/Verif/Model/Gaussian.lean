import Verif.Model.EmissionUtil

/-!
# Model of `GaussianHMM` and of `stats.py`

src/hmmlearn/stats.py, src/hmmlearn/_emissions.py:112-181, src/hmmlearn/hmm.py:158-387.
A sample is a row of `nf` floats.  One emission family per covariance type; `_covars_` has shape
`(nc, nf)` for `diag` and `spherical` (a 1-D spherical array is broadcast by the density,
stats.py:59-65, and the M-step stores `(nc, nf)`), `(nf, nf)` for `tied`, `(nc, nf, nf)` for `full`.
`means_weight` and `covars_weight` are scalars, the other priors are broadcast to full arrays.
-/

namespace Verif
open FloatLike

/-- Run `f` on every index in turn; the first exception wins. -/
def allOk {β : Type} : {n : Nat} → (Fin n → Except PyErr β) → Except PyErr (Fin n → β)
  | 0, _ => .ok fun i => i.elim0
  | _ + 1, f => do
    let a ← f 0
    let g ← allOk fun i => f i.succ
    return Fin.cons a g

namespace Gaussian
variable {α : Type} [FloatLike α] {nc nf : Nat}

/-- A sample. -/
abbrev Obs (α : Type) (nf : Nat) := Fin nf → α

/-- A square matrix. -/
abbrev Sq (α : Type) (nf : Nat) := Fin nf → Fin nf → α

/-- `x ** 2`. -/
def sq (x : α) : α := x * x

/-- `np.finfo(float).tiny`. -/
def tiny : α := ofRat (1 / 2 ^ 1022)

/-- `nf * np.log(2 * np.pi)`. -/
def logTwoPi (nf : Nat) : α := ofNat' nf * log (ofNat' 2 * pi)

/-- `_log_multivariate_normal_density_diag` for one sample and one component, stats.py:47-56. -/
def logDensityDiag (mean covar : Fin nf → α) (x : Obs α nf) : α :=
  let cv := memo! (fun k => npMaximum (covar k) tiny)
  ofRat (-1 / 2) * (logTwoPi nf + sumF (fun k => log (cv k)) +
    sumF fun k => sq (x k - mean k) / cv k)

/-- `_log_multivariate_normal_density_spherical`, stats.py:59-65. -/
def logDensitySpherical (mean : Fin nf → α) (covar : α) (x : Obs α nf) : α :=
  logDensityDiag mean (fun _ => covar) x

/-- `scipy.linalg.cholesky(a, lower=True)` (library routine, LAPACK `potrf`): reads the lower
triangle; `none` is `LinAlgError`, raised when a pivot is not positive. -/
def cholesky : {n : Nat} → Sq α n → Option (Sq α n)
  | 0, a => some a
  | n + 1, a =>
    if lt 0 (a 0 0) then
      let d := sqrt (a 0 0)
      let col : Fin n → α := memo! (fun i => a i.succ 0 / d)
      let rest : Sq α n := memo! (fun i => memo! (fun j => a i.succ j.succ - col i * col j))
      match cholesky rest with
      | none => none
      | some l => some (Fin.cons (Fin.cons d fun _ => 0) fun i => Fin.cons (col i) (l i))
    else none

/-- `scipy.linalg.solve_triangular(l, b, lower=True)` (library routine): forward substitution. -/
def solveLower : {n : Nat} → Sq α n → (Fin n → α) → Fin n → α
  | 0, _, b => b
  | n + 1, l, b =>
    let y := b 0 / l 0 0
    let rest : Fin n → α := memo! (fun i => b i.succ - l i.succ 0 * y)
    Fin.cons y (memo! (solveLower (fun i j => l i.succ j.succ) rest))

/-- scipy's `check_finite`. -/
def finiteRow {n : Nat} (v : Fin n → α) : Bool := (List.finRange n).all fun k => isFinite (v k)

/-- The factorisation with one retry, stats.py:79-92 (`min_covar=1e-7`).  Non-finite entries make
scipy raise `ValueError`. -/
def factor (cv : Sq α nf) : Except PyErr (Sq α nf) :=
  if !((List.finRange nf).all fun i => finiteRow (cv i)) then .error (.valueError "infs or NaNs")
  else match cholesky cv with
    | some l => .ok l
    | none =>
      match cholesky (memo! (fun i => memo! (fun j =>
          cv i j + ofRat (1 / 10 ^ 7) * (if i = j then 1 else 0)))) with
      | some l => .ok l
      | none => .error (.valueError "'covars' must be symmetric, positive-definite")

/-- The log-density from the factor, stats.py:94-98, one sample. -/
def logDensityChol (mean : Fin nf → α) (l : Sq α nf) (x : Obs α nf) : α :=
  let logDet := ofNat' 2 * sumF fun k => log (l k k)
  let sol := memo! (solveLower l fun k => x k - mean k)
  ofRat (-1 / 2) * (logTwoPi nf + sumF (fun k => sq (sol k)) + logDet)

/-- `_log_multivariate_normal_density_full`, stats.py:75-98. -/
def logDensityFull (means : Fin nc → Fin nf → α) (covars : Fin nc → Sq α nf) (X : List (Obs α nf)) :
    Except PyErr (List (Row α nc)) := do
  let ls ← allOk fun c => do
    let l ← factor (covars c)
    if !(X.all fun x => finiteRow fun k => x k - means c k) then
      .error (.valueError "infs or NaNs")
    else .ok l
  return X.map fun x => memo! (fun c => logDensityChol (means c) (ls c) x)

/-- `_log_multivariate_normal_density_tied`, stats.py:68-72. -/
def logDensityTied (means : Fin nc → Fin nf → α) (covar : Sq α nf) (X : List (Obs α nf)) :
    Except PyErr (List (Row α nc)) := logDensityFull means (fun _ => covar) X

/-- `np.exp` of a 2-D array (base.py:598-600: the default `_compute_likelihood`). -/
def expRows (l : List (Row α nc)) : List (Row α nc) := l.map fun r => memo! (fun i => exp (r i))

/-- Constructor arguments `means_prior`, `means_weight`, `covars_weight`. -/
structure Prior (α : Type) (nc nf : Nat) where
  meansPrior : Fin nc → Fin nf → α
  meansWeight : α
  covarsWeight : α

/-- The new `means_`, hmm.py:350-353. -/
def mstepMeans (pr : Prior α nc nf) (post : Row α nc) (obs : Fin nc → Fin nf → α) :
    Fin nc → Fin nf → α :=
  memo! (fun c => memo! (fun k =>
    (pr.meansWeight * pr.meansPrior c k + obs c k) / (pr.meansWeight + post c)))

/-! ## `diag` and `spherical` -/

/-- `means_`, `_covars_`. -/
structure DiagParams (α : Type) (nc nf : Nat) where
  means : Fin nc → Fin nf → α
  covars : Fin nc → Fin nf → α

/-- `stats['post'], stats['obs'], stats['obs**2']`, _emissions.py:133-137. -/
structure DiagStats (α : Type) (nc nf : Nat) where
  post : Row α nc
  obs : Fin nc → Fin nf → α
  obs2 : Fin nc → Fin nf → α

/-- _emissions.py:133-137. -/
def DiagStats.zero : DiagStats α nc nf := ⟨fun _ => 0, fun _ _ => 0, fun _ _ => 0⟩

/-- `_accumulate_sufficient_statistics`, _emissions.py:152-158. -/
def accDiag (params : List Char) (st : DiagStats α nc nf) (X : List (Obs α nf))
    (post : List (Row α nc)) : DiagStats α nc nf where
  post := if 'm' ∈ params then memo! (fun i => st.post i + sumPost post i) else st.post
  obs := if 'm' ∈ params then
      memo! (fun i => memo! (fun k => st.obs i k + dotPost post X (fun x => x k) i))
    else st.obs
  obs2 := if 'c' ∈ params then
      memo! (fun i => memo! (fun k => st.obs2 i k + dotPost post X (fun x => sq (x k)) i))
    else st.obs2

/-- The new `_covars_` before the spherical average, hmm.py:360-366; `means` are the means after
their own update. -/
def mstepCovarsDiag (pr : Prior α nc nf) (covarsPrior : Fin nc → Fin nf → α)
    (means : Fin nc → Fin nf → α) (st : DiagStats α nc nf) : Fin nc → Fin nf → α :=
  memo! (fun c => memo! (fun k =>
    let meandiff := means c k - pr.meansPrior c k
    let cn := pr.meansWeight * sq meandiff + st.obs2 c k -
      ofNat' 2 * means c k * st.obs c k + sq (means c k) * st.post c
    let cd := stdMax (pr.covarsWeight - 1) 0 + st.post c
    (covarsPrior c k + cn) / npMaximum cd (ofRat (1 / 10 ^ 5))))

/-- `_do_mstep`, hmm.py:340-366, covariance type `diag`. -/
def mstepDiag (pr : Prior α nc nf) (covarsPrior : Fin nc → Fin nf → α) (params : List Char)
    (p : DiagParams α nc nf) (st : DiagStats α nc nf) : DiagParams α nc nf :=
  let means := if 'm' ∈ params then mstepMeans pr st.post st.obs else p.means
  ⟨means, if 'c' ∈ params then mstepCovarsDiag pr covarsPrior means st else p.covars⟩

/-- `np.tile(covars.mean(1)[:, None], (1, nf))`, hmm.py:367-369. -/
def tileMean (c : Fin nc → Fin nf → α) : Fin nc → Fin nf → α :=
  let m := memo! (fun i => sumF (c i) / ofNat' nf)
  fun i _ => m i

/-- `_do_mstep`, hmm.py:340-369, covariance type `spherical`. -/
def mstepSpherical (pr : Prior α nc nf) (covarsPrior : Fin nc → Fin nf → α) (params : List Char)
    (p : DiagParams α nc nf) (st : DiagStats α nc nf) : DiagParams α nc nf :=
  let means := if 'm' ∈ params then mstepMeans pr st.post st.obs else p.means
  ⟨means, if 'c' ∈ params then tileMean (mstepCovarsDiag pr covarsPrior means st) else p.covars⟩

/-- Frame log-likelihoods, _emissions.py:129-131. -/
def loglikDiag (p : DiagParams α nc nf) (X : List (Obs α nf)) : List (Row α nc) :=
  X.map fun x => memo! (fun c => logDensityDiag (p.means c) (p.covars c) x)

/-- `GaussianHMM(covariance_type="diag")`. -/
def emissionDiag (pr : Prior α nc nf) (covarsPrior : Fin nc → Fin nf → α) :
    Emission α nc (Obs α nf) (DiagParams α nc nf) (DiagStats α nc nf) where
  lik p X := .ok (expRows (loglikDiag p X))
  loglik p X := .ok (loglikDiag p X)
  zero _ _ := DiagStats.zero
  acc params _ st X post := .ok (accDiag params st X post)
  mstep params p st := mstepDiag pr covarsPrior params p st

/-- `GaussianHMM(covariance_type="spherical")`. -/
def emissionSpherical (pr : Prior α nc nf) (covarsPrior : Fin nc → Fin nf → α) :
    Emission α nc (Obs α nf) (DiagParams α nc nf) (DiagStats α nc nf) where
  lik p X := .ok (expRows (loglikDiag p X))
  loglik p X := .ok (loglikDiag p X)
  zero _ _ := DiagStats.zero
  acc params _ st X post := .ok (accDiag params st X post)
  mstep params p st := mstepSpherical pr covarsPrior params p st

/-! ## `full` and `tied` -/

/-- `stats['post'], stats['obs'], stats['obs*obs.T']`, _emissions.py:133-141. -/
structure FullStats (α : Type) (nc nf : Nat) where
  post : Row α nc
  obs : Fin nc → Fin nf → α
  obsObs : Fin nc → Sq α nf

/-- _emissions.py:133-141. -/
def FullStats.zero : FullStats α nc nf := ⟨fun _ => 0, fun _ _ => 0, fun _ _ _ => 0⟩

/-- `_accumulate_sufficient_statistics`, _emissions.py:152-163. -/
def accFull (params : List Char) (st : FullStats α nc nf) (X : List (Obs α nf))
    (post : List (Row α nc)) : FullStats α nc nf where
  post := if 'm' ∈ params then memo! (fun i => st.post i + sumPost post i) else st.post
  obs := if 'm' ∈ params then
      memo! (fun i => memo! (fun k => st.obs i k + dotPost post X (fun x => x k) i))
    else st.obs
  obsObs := if 'c' ∈ params then
      memo! (fun i => memo! (fun k => memo! (fun l =>
        st.obsObs i k l + dotPost post X (fun x => x k * x l) i)))
    else st.obsObs

/-- `c_n[c]`, hmm.py:371-380. -/
def scatter (pr : Prior α nc nf) (means : Fin nc → Fin nf → α) (st : FullStats α nc nf)
    (c : Fin nc) : Sq α nf :=
  memo! (fun k => memo! (fun l =>
    pr.meansWeight * ((means c k - pr.meansPrior c k) * (means c l - pr.meansPrior c l)) +
      st.obsObs c k l - st.obs c k * means c l - st.obs c l * means c k +
      means c k * means c l * st.post c))

/-- `means_`, `_covars_`, covariance type `full`. -/
structure FullParams (α : Type) (nc nf : Nat) where
  means : Fin nc → Fin nf → α
  covars : Fin nc → Sq α nf

/-- `_do_mstep`, hmm.py:340-387, covariance type `full`. -/
def mstepFull (pr : Prior α nc nf) (covarsPrior : Fin nc → Sq α nf) (params : List Char)
    (p : FullParams α nc nf) (st : FullStats α nc nf) : FullParams α nc nf :=
  let means := if 'm' ∈ params then mstepMeans pr st.post st.obs else p.means
  let cvweight := stdMax (pr.covarsWeight - ofNat' nf) 0
  ⟨means, if 'c' ∈ params then
      memo! (fun c =>
        let cn := scatter pr means st c
        memo! (fun k => memo! (fun l => (covarsPrior c k l + cn k l) / (cvweight + st.post c))))
    else p.covars⟩

/-- `GaussianHMM(covariance_type="full")`. -/
def emissionFull (pr : Prior α nc nf) (covarsPrior : Fin nc → Sq α nf) :
    Emission α nc (Obs α nf) (FullParams α nc nf) (FullStats α nc nf) where
  lik p X := (logDensityFull p.means p.covars X).map expRows
  loglik p X := logDensityFull p.means p.covars X
  zero _ _ := FullStats.zero
  acc params _ st X post := .ok (accFull params st X post)
  mstep params p st := mstepFull pr covarsPrior params p st

/-- `means_`, `_covars_`, covariance type `tied`. -/
structure TiedParams (α : Type) (nc nf : Nat) where
  means : Fin nc → Fin nf → α
  covar : Sq α nf

/-- `_do_mstep`, hmm.py:340-384, covariance type `tied`. -/
def mstepTied (pr : Prior α nc nf) (covarsPrior : Sq α nf) (params : List Char)
    (p : TiedParams α nc nf) (st : FullStats α nc nf) : TiedParams α nc nf :=
  let means := if 'm' ∈ params then mstepMeans pr st.post st.obs else p.means
  let cvweight := stdMax (pr.covarsWeight - ofNat' nf) 0
  ⟨means, if 'c' ∈ params then
      let cn := memo! (scatter pr means st)
      let den := cvweight + sumF st.post
      memo! (fun k => memo! (fun l => (covarsPrior k l + sumF fun c => cn c k l) / den))
    else p.covar⟩

/-- `GaussianHMM(covariance_type="tied")`. -/
def emissionTied (pr : Prior α nc nf) (covarsPrior : Sq α nf) :
    Emission α nc (Obs α nf) (TiedParams α nc nf) (FullStats α nc nf) where
  lik p X := (logDensityTied p.means p.covar X).map expRows
  loglik p X := logDensityTied p.means p.covar X
  zero _ _ := FullStats.zero
  acc params _ st X post := .ok (accFull params st X post)
  mstep params p st := mstepTied pr covarsPrior params p st

end Gaussian
end Verif
