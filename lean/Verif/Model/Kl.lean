import Verif.Model.Gaussian

/-!
# Model of `_kl_divergence.py`

src/hmmlearn/_kl_divergence.py:13-117 and `logdet` of src/hmmlearn/_utils.py:8-14.  The special
functions of scipy and the linear algebra of numpy are a parameter (`Sci`).
-/

namespace Verif
open FloatLike Gaussian

/-- Library routines: `scipy.special.gammaln`, `scipy.special.digamma`, `np.linalg.inv` (raises
`LinAlgError` on a singular matrix), `np.linalg.slogdet` (sign and logarithm). -/
structure Sci (α : Type) where
  gammaln : α → α
  digamma : α → α
  inv : {n : Nat} → Sq α n → Except PyErr (Sq α n)
  slogdet : {n : Nat} → Sq α n → α × α

namespace Kl
variable {α : Type} [FloatLike α]

/-- `_utils.logdet`, _utils.py:8-14 (without the warning). -/
def logdet (sci : Sci α) {n : Nat} (a : Sq α n) : α :=
  let (sign, ld) := sci.slogdet a
  if lt sign 0 then nan else ld

/-- `kl_dirichlet`, _kl_divergence.py:13-26. -/
def dirichlet (sci : Sci α) {n : Nat} (q p : Fin n → α) : α :=
  let qsum := sumF q
  let psum := sumF p
  sci.gammaln qsum - sci.gammaln psum
    - sumF (fun i => sci.gammaln (q i) - sci.gammaln (p i))
    + sumF fun i => (q i - p i) * (sci.digamma (q i) - sci.digamma qsum)

/-- `assert result >= 0`. -/
def assertNonneg (result : α) : Except PyErr α :=
  if le 0 result then .ok result else .error .assertionError

/-- `kl_normal_distribution`, _kl_divergence.py:29-35. -/
def normal (meanQ varianceQ meanP varianceP : α) : Except PyErr α :=
  assertNonneg (log (varianceP / varianceQ) / ofNat' 2
    + (sq (meanQ - meanP) + varianceQ) / (ofNat' 2 * varianceP)
    - ofRat (1 / 2))

/-- `a @ b` for square matrices. -/
def matMul {n : Nat} (a b : Sq α n) : Sq α n := fun i j => sumF fun k => a i k * b k j

/-- `np.trace`. -/
def trace {n : Nat} (a : Sq α n) : α := sumF fun i => a i i

/-- `v @ a @ v`. -/
def quad {n : Nat} (v : Fin n → α) (a : Sq α n) : α := sumF fun j => (sumF fun i => v i * a i j) * v j

/-- `kl_multivariate_normal_distribution`, _kl_divergence.py:38-62. -/
def mvn (sci : Sci α) {n : Nat} (meanQ : Fin n → α) (covarQ : Sq α n) (meanP : Fin n → α)
    (covarP : Sq α n) : Except PyErr α := do
  let precisionP ← sci.inv covarP
  let d : Fin n → α := fun i => meanQ i - meanP i
  return ofRat (1 / 2) * (logdet sci covarP - logdet sci covarQ
    + trace (matMul precisionP covarQ)
    + quad d precisionP
    - ofNat' n)

/-- `kl_gamma_distribution`, _kl_divergence.py:65-77. -/
def gamma (sci : Sci α) (bq cq bp cp : α) : Except PyErr α :=
  assertNonneg ((bq - bp) * sci.digamma bq
    - sci.gammaln bq + sci.gammaln bp
    + bp * (log cq - log cp)
    + bq * (cp - cq) / cq)

/-- `scale / 2`. -/
def half {n : Nat} (a : Sq α n) : Sq α n := fun i j => a i j / ofNat' 2

/-- `_E`, _kl_divergence.py:105-110. -/
def wishartE (sci : Sci α) {n : Nat} (dof : α) (scale : Sq α n) : α :=
  -(logdet sci (half scale)) + sumF fun i : Fin n => sci.digamma ((dof - ofNat' i.val) / ofNat' 2)

/-- `_logZ`, _kl_divergence.py:113-117. -/
def wishartLogZ (sci : Sci α) {n : Nat} (dof : α) (scale : Sq α n) : α :=
  ofNat' n * (ofNat' n - 1) / ofNat' 4 * log pi
    - dof / ofNat' 2 * logdet sci (half scale)
    + sumF fun i : Fin n => sci.gammaln ((dof - ofNat' i.val) / ofNat' 2)

/-- `kl_wishart_distribution`, _kl_divergence.py:80-102. -/
def wishart (sci : Sci α) {n : Nat} (dofQ : α) (scaleQ : Sq α n) (dofP : α) (scaleP : Sq α n) :
    Except PyErr α := do
  let invQ ← sci.inv scaleQ
  return (dofQ - dofP) / ofNat' 2 * wishartE sci dofQ scaleQ
    - ofNat' n * dofQ / ofNat' 2
    + dofQ / ofNat' 2 * trace (matMul scaleP invQ)
    + wishartLogZ sci dofP scaleP
    - wishartLogZ sci dofQ scaleQ

end Kl
end Verif
