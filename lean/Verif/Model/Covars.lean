import Verif.Model.NdArray
import Verif.Model.Err

/-!
# Model of the `covars_` attribute of `GaussianHMM`

src/hmmlearn/utils.py:58-71 (`fill_covars`), src/hmmlearn/_utils.py:30-65 (`_validate_covars`),
src/hmmlearn/hmm.py:294-305 (property and setter).
-/

namespace Verif
open FloatLike NdArray

variable {α : Type} [FloatLike α]

/-- The four accepted values of `covariance_type`. -/
inductive CovType | spherical | diag | tied | full
deriving DecidableEq, Repr

/-- `np.eye(n) * x`. -/
def scaledEye (n : Nat) (x : α) : Fin n → Fin n → α := fun k l => (if k = l then 1 else 0) * x

/-- `np.diag` of a vector. -/
def npDiag {n : Nat} (v : Fin n → α) : Fin n → Fin n → α := fun k l => if k = l then v k else 0

/-- `fill_covars`, utils.py:58-71.  `np.diag` of a 2-D row extracts its diagonal and of a scalar
raises; `np.tile` of an array with fewer axes prepends axes of length one. -/
def fillCovars (covars : NdArray α) (ty : CovType) (nc nf : Nat) : Except PyErr (NdArray α) :=
  match ty with
  | .full => .ok covars
  | .diag =>
    match covars with
    | .d0 _ => .error .typeError
    | .d1 _ => .error (.valueError "Input must be 1- or 2-d.")
    | .d2 v => .ok (.d3 fun i => npDiag (v i))
    | @NdArray.d3 _ l m n v => .ok (.d2 (m := l) (n := min m n) fun i k =>
        v i ⟨k, by have := k.2; omega⟩ ⟨k, by have := k.2; omega⟩)
  | .tied =>
    match covars with
    | .d0 x => .ok (.d3 (l := nc) (m := 1) (n := 1) fun _ _ _ => x)
    | .d1 v => .ok (.d3 (l := nc) (m := 1) fun _ _ => v)
    | .d2 v => .ok (.d3 (l := nc) fun _ => v)
    | @NdArray.d3 _ l m n v => .ok (.d3 (l := nc * l) fun i =>
        v ⟨i % l, Nat.mod_lt _ (Nat.pos_of_ne_zero fun h0 => by
          have := i.2; simp [h0] at this)⟩)
  | .spherical => .ok (.d3 (l := covars.size) fun i => scaledEye nf (covars.flat i))

/-- `self.covars_[state]`, the covariance matrix with which `GaussianHMM` samples,
_emissions.py:178-181 with hmm.py:294-298. -/
def stateCovar (covars : NdArray α) (ty : CovType) (nc nf state : Nat) : Except PyErr (NdArray α) := do
  let c ← fillCovars covars ty nc nf
  match c.get state with
  | some m => return m
  | none => .error .indexError

/-- Library routine `scipy.linalg.eigvalsh`: eigenvalues of the symmetric matrix given by the lower
triangle.  A parameter of the model. -/
abbrev Eigvalsh (α : Type) := (n : Nat) → (Fin n → Fin n → α) → Fin n → α

/-- Symmetric within tolerance and no eigenvalue `≤ 0`, _utils.py:43-44 and :58-59. -/
def symPosDef (eig : Eigvalsh α) {n : Nat} (a : Fin n → Fin n → α) : Bool :=
  !(!(allcloseT a) || (List.finRange n).any fun i => le (eig n a i) 0)

/-- `_validate_covars`, _utils.py:30-65.  For `tied`, a 3-D array passes the shape test when its
first two axes agree and is then rejected with a `ValueError` by the symmetry test or by
`eigvalsh`. -/
def validateCovars (eig : Eigvalsh α) (covars : NdArray α) (ty : CovType) (nc : Nat) :
    Except PyErr Unit :=
  match ty with
  | .spherical =>
    match covars.shape with
    | [] => .error .typeError
    | n :: _ =>
      if n ≠ nc then .error (.valueError "'spherical' covars have length n_components")
      else if covars.any fun x => le x 0 then .error (.valueError "'spherical' covars must be positive")
      else .ok ()
  | .tied =>
    match covars with
    | .d0 _ | .d1 _ => .error .indexError
    | @NdArray.d2 _ m n v =>
      if h : m = n then
        if symPosDef eig (fun i => v (i.cast h.symm)) then .ok ()
        else .error (.valueError "'tied' covars must be symmetric, positive-definite")
      else .error (.valueError "'tied' covars must have shape (n_dim, n_dim)")
    | .d3 _ => .error (.valueError "'tied' covars")
  | .diag =>
    if covars.shape.length ≠ 2 then .error (.valueError "'diag' covars must have shape")
    else if covars.any fun x => le x 0 then .error (.valueError "'diag' covars must be positive")
    else .ok ()
  | .full =>
    match covars with
    | @NdArray.d3 _ l m n v =>
      if h : m = n then
        if (List.finRange l).all fun c => symPosDef eig (fun i => v c (i.cast h.symm)) then .ok ()
        else .error (.valueError "component of 'full' covars must be symmetric, positive-definite")
      else .error (.valueError "'full' covars must have shape")
    | _ => .error (.valueError "'full' covars must have shape")

/-- `GaussianHMM.covars_` setter, hmm.py:300-305: the new value of `_covars_`. -/
def setCovars (eig : Eigvalsh α) (ty : CovType) (nc : Nat) (covars : NdArray α) :
    Except PyErr (NdArray α) := do
  validateCovars eig covars ty nc
  return covars

end Verif
