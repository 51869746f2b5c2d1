import Verif.Model.Estimators

/-!
# Integer arrays of bounded width

`check_array` leaves the type of an integer array as it is, and `X**2` (src/hmmlearn/_emissions.py:158) is computed
in that type, where numpy wraps around silently.  Everything else that training does with `X` converts to floating
point first: `posteriors.T @ X`, `X - means`, `np.cov`, `KMeans`, and the `einsum` of _emissions.py:162-163.  (Integers
beyond 2^53 are rounded by the conversion; the conversion of the model is that of the arithmetic `α`.)
-/
set_option autoImplicit false

namespace Verif
open FloatLike
variable {α G : Type} [FloatLike α] {nc nf : Nat}

/-- The integer types of numpy: `int8` … `int64`, `uint8` … `uint64`. -/
inductive IntType where
  | signed (bits : Nat)
  | unsigned (bits : Nat)

/-- Width of the type. -/
def IntType.bits : IntType → Nat
  | signed b => b
  | unsigned b => b

/-- The result of integer arithmetic in the type. -/
def IntType.wrap : IntType → Int → Int
  | signed b, z => z.bmod (2 ^ b)
  | unsigned b, z => z % 2 ^ b

namespace Gaussian

/-- An integer row in floating point. -/
def floatRow (x : Fin nf → Int) : Obs α nf := fun k => ofInt' (x k)

/-- `_accumulate_sufficient_statistics`, _emissions.py:152-158, for an array of type `ty`. -/
def accDiagInts (ty : IntType) (params : List Char) (st : DiagStats α nc nf) (X : List (Fin nf → Int))
    (post : List (Row α nc)) : DiagStats α nc nf where
  post := if 'm' ∈ params then memo! (fun i => st.post i + sumPost post i) else st.post
  obs := if 'm' ∈ params then
      memo! (fun i => memo! (fun k => st.obs i k + dotPost post X (fun x => ofInt' (x k)) i))
    else st.obs
  obs2 := if 'c' ∈ params then
      memo! (fun i => memo! (fun k => st.obs2 i k + dotPost post X (fun x => ofInt' (ty.wrap (x k * x k))) i))
    else st.obs2

/-- `GaussianHMM(covariance_type="diag")` on an array of type `ty`. -/
def emissionDiagInts (ty : IntType) (pr : Prior α nc nf) (covarsPrior : Fin nc → Fin nf → α) :
    Emission α nc (Fin nf → Int) (DiagParams α nc nf) (DiagStats α nc nf) where
  lik p X := .ok (expRows (loglikDiag p (X.map floatRow)))
  loglik p X := .ok (loglikDiag p (X.map floatRow))
  zero _ _ := DiagStats.zero
  acc params _ st X post := .ok (accDiagInts ty params st X post)
  mstep params p st := mstepDiag pr covarsPrior params p st

/-- `GaussianHMM(covariance_type="spherical")` on an array of type `ty`. -/
def emissionSphericalInts (ty : IntType) (pr : Prior α nc nf) (covarsPrior : Fin nc → Fin nf → α) :
    Emission α nc (Fin nf → Int) (DiagParams α nc nf) (DiagStats α nc nf) where
  lik p X := .ok (expRows (loglikDiag p (X.map floatRow)))
  loglik p X := .ok (loglikDiag p (X.map floatRow))
  zero _ _ := DiagStats.zero
  acc params _ st X post := .ok (accDiagInts ty params st X post)
  mstep params p st := mstepSpherical pr covarsPrior params p st

end Gaussian

/-- The rows of an integer array, paired with the means as by `gaussRows`. -/
def gaussIntRows (nf : Nat) : XArr α → Except PyErr (List (Fin nf → Int))
  | .ints rows => poisRowsOf nf rows
  | .floats _ => .error .notImplemented

/-- `GaussianHMM(covariance_type="diag")` given arrays of type `ty`. -/
def gaussDiagInts (ty : IntType) (eig : Eigvalsh α) : Sub α G (GaussAttrs α) :=
  { gaussDiagSub eig with
    Obs := fun nf => Fin nf → Int
    rows := gaussIntRows
    emission := fun p nc nf => Gaussian.emissionDiagInts ty (p.prior nc nf) fun i k => p.covarsPrior i k 0
    sampleSub := fun _ _ _ _ _ _ g => (.error .notImplemented, g) }

/-- `GaussianHMM(covariance_type="spherical")` given arrays of type `ty`. -/
def gaussSphericalInts (ty : IntType) (eig : Eigvalsh α) : Sub α G (GaussAttrs α) :=
  { gaussSphericalSub eig with
    Obs := fun nf => Fin nf → Int
    rows := gaussIntRows
    emission := fun p nc nf => Gaussian.emissionSphericalInts ty (p.prior nc nf) fun i k => p.covarsPrior i k 0
    sampleSub := fun _ _ _ _ _ _ g => (.error .notImplemented, g) }

end Verif
