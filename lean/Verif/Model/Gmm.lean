import Verif.Model.Gaussian

/-!
# Model of `GMMHMM`

src/hmmlearn/_emissions.py:184-307, src/hmmlearn/hmm.py:390-809.  The parts that depend on
`covariance_type` are collected in a `Kind`; priors are already broadcast to full arrays
(`_fix_priors_shape`, hmm.py:615-648).
-/

namespace Verif
open FloatLike Gaussian

namespace Gmm
variable {α : Type} [FloatLike α] {nc nm nf : Nat}

/-- An array of shape `(n_components, n_mix, n_features)`. -/
abbrev Means (α : Type) (nc nm nf : Nat) := Fin nc → Fin nm → Fin nf → α

/-- An array of shape `(n_components, n_mix)`. -/
abbrev Mix (α : Type) (nc nm : Nat) := Fin nc → Fin nm → α

/-- An entry of an `einsum('ijk,i...->jk...', post_comp_mix, V)`, where `f` reads the entry of `V`
off a sample. -/
def dotMix (pcm : List (Mix α nc nm)) (X : List (Obs α nf)) (f : Obs α nf → α) (j : Fin nc)
    (k : Fin nm) : α :=
  sumL (List.zipWith (fun p x => p j k * f x) pcm X)

/-- What depends on `covariance_type`; `C` is the type of `covars_`. -/
structure Kind (α : Type) (nc nm nf : Nat) (C : Type) where
  /-- `log_multivariate_normal_density(X, means_[i], covars_[i], covariance_type)` -/
  logDens : (Fin nm → Fin nf → α) → C → Fin nc → List (Obs α nf) → Except PyErr (List (Fin nm → α))
  /-- `np.zeros_like(covars_)` -/
  zero : C
  /-- `stats['c_n'] += c_n`, from `means_`, `post_comp_mix`, `X` -/
  acc : Means α nc nm nf → List (Mix α nc nm) → List (Obs α nf) → C → C
  /-- `c_n / c_d`, from `means_weight`, `centered_means`, `post_mix_sum`, `post_sum`, `stats['c_n']` -/
  upd : Mix α nc nm → Means α nc nm nf → Mix α nc nm → Row α nc → C → C

/-- `np.einsum('...i,...i', v, v)`. -/
def norm2 (v : Fin nf → α) : α := sumF fun l => v l * v l

/-- `covariance_type="spherical"`: _emissions.py:206-212, 289-293, hmm.py:781-791.  `alpha`, `beta`
are `covars_prior`, `covars_weight`. -/
def spherical (alpha beta : Mix α nc nm) : Kind α nc nm nf (Mix α nc nm) where
  logDens mu cv i X := .ok (X.map fun x => memo! (fun k => logDensitySpherical (mu k) (cv i k) x))
  zero := fun _ _ => 0
  acc mu pcm X c := memo! (fun j => memo! (fun k =>
    c j k + dotMix pcm X (fun x => norm2 fun l => x l - mu j k l) j k))
  upd lam cm pms _ c := memo! (fun j => memo! (fun k =>
    (lam j k * norm2 (cm j k) + ofNat' 2 * beta j k + c j k) /
      (ofNat' nf * (pms j k + 1) + ofNat' 2 * (alpha j k + 1))))

/-- `covariance_type="diag"`: _emissions.py:286-288, hmm.py:772-779. -/
def diag (alpha beta : Means α nc nm nf) : Kind α nc nm nf (Means α nc nm nf) where
  logDens mu cv i X := .ok (X.map fun x => memo! (fun k => logDensityDiag (mu k) (cv i k) x))
  zero := fun _ _ _ => 0
  acc mu pcm X c := memo! (fun j => memo! (fun k => memo! (fun l =>
    c j k l + dotMix pcm X (fun x => sq (x l - mu j k l)) j k)))
  upd lam cm pms _ c := memo! (fun j => memo! (fun k => memo! (fun l =>
    (lam j k * sq (cm j k l) + ofNat' 2 * beta j k l + c j k l) /
      (pms j k + 1 + ofNat' 2 * (alpha j k l + 1)))))

/-- `covariance_type="full"`: _emissions.py:282-285, hmm.py:760-770.  `psi`, `nu` are
`covars_prior`, `covars_weight`. -/
def full (psi : Fin nc → Fin nm → Sq α nf) (nu : Mix α nc nm) :
    Kind α nc nm nf (Fin nc → Fin nm → Sq α nf) where
  logDens mu cv i X := logDensityFull mu (cv i) X
  zero := fun _ _ _ _ => 0
  acc mu pcm X c := memo! (fun j => memo! (fun k => memo! (fun l => memo! (fun m =>
    c j k l m + dotMix pcm X (fun x => (x l - mu j k l) * (x m - mu j k m)) j k))))
  upd lam cm pms _ c := memo! (fun j => memo! (fun k => memo! (fun l => memo! (fun m =>
    (psi j k m l + lam j k * (cm j k l * cm j k m) + c j k l m) /
      (pms j k + 1 + nu j k + ofNat' nf + 1)))))

/-- `covariance_type="tied"` (one matrix per state, shared by its mixture components):
_emissions.py:294-296, hmm.py:793-802. -/
def tied (psi : Fin nc → Sq α nf) (nu : Row α nc) : Kind α nc nm nf (Fin nc → Sq α nf) where
  logDens mu cv i X := logDensityTied mu (cv i) X
  zero := fun _ _ _ => 0
  acc mu pcm X c := memo! (fun j => memo! (fun l => memo! (fun m =>
    c j l m + sumF fun k => dotMix pcm X (fun x => (x l - mu j k l) * (x m - mu j k m)) j k)))
  upd lam cm _ ps c := memo! (fun j => memo! (fun l => memo! (fun m =>
    (sumF (fun k => lam j k * (cm j k l * cm j k m)) + psi j m l + c j l m) /
      (ps j + ofNat' nm + nu j + ofNat' nf + 1))))

/-! ## Default hyper-parameters, `_init_covar_priors`, hmm.py:593-613 -/

/-- `covars_prior` of `spherical`: `-(n_mix + 2) / 2`. -/
def sphericalPrior (nm : Nat) : α := -(ofNat' nm + ofNat' 2) / ofNat' 2

/-- `covars_prior` of `diag`: `-1.5`. -/
def diagPrior : α := ofRat (-3 / 2)

/-- `covars_weight` of `full`: `-(1 + n_features + 1)`. -/
def fullWeight (nf : Nat) : α := -(1 + ofNat' nf + 1)

/-- `covars_weight` of `tied`: `-(n_mix + n_features + 1)`. -/
def tiedWeight (nm nf : Nat) : α := -(ofNat' nm + ofNat' nf + 1)

/-- The estimator with default covariance hyper-parameters. -/
def sphericalDefault : Kind α nc nm nf (Mix α nc nm) :=
  spherical (fun _ _ => sphericalPrior nm) fun _ _ => 0

/-- The same, `diag`. -/
def diagDefault : Kind α nc nm nf (Means α nc nm nf) := diag (fun _ _ _ => diagPrior) fun _ _ _ => 0

/-- The same, `full`. -/
def fullDefault : Kind α nc nm nf (Fin nc → Fin nm → Sq α nf) :=
  full (fun _ _ _ _ => 0) fun _ _ => fullWeight nf

/-- The same, `tied`. -/
def tiedDefault : Kind α nc nm nf (Fin nc → Sq α nf) :=
  tied (fun _ _ _ => 0) fun _ => tiedWeight nm nf

/-! ## The estimator -/

/-- `weights_`, `means_`, `covars_`. -/
structure Params (α : Type) (nc nm nf : Nat) (C : Type) where
  weights : Mix α nc nm
  means : Means α nc nm nf
  covars : C

/-- `weights_prior`, `means_prior`, `means_weight`. -/
structure Prior (α : Type) (nc nm nf : Nat) where
  weightsPrior : Mix α nc nm
  meansPrior : Means α nc nm nf
  meansWeight : Mix α nc nm

/-- `stats['post_mix_sum'], stats['post_sum'], stats['m_n'], stats['c_n']`.  The last two exist only
if their code is in `params`; otherwise they are never read. -/
structure Stats (α : Type) (nc nm nf : Nat) (C : Type) where
  postMixSum : Mix α nc nm
  postSum : Row α nc
  mN : Means α nc nm nf
  cN : C

section
variable {C : Type} [NeZero nm] (K : Kind α nc nm nf C)

/-- `_compute_log_weighted_gaussian_densities`, _emissions.py:203-212. -/
def logWeighted (p : Params α nc nm nf C) (X : List (Obs α nf)) (i : Fin nc) :
    Except PyErr (List (Fin nm → α)) :=
  (K.logDens (p.means i) p.covars i X).map fun rows =>
    rows.map fun r => memo! (fun k => r k + log (p.weights i k))

/-- The arrays of all states side by side: entry `[t, i, k]`. -/
def sideBySide (n : Nat) (ls : Fin nc → List (Fin nm → α)) : List (Mix α nc nm) :=
  (List.range n).map fun t => memo! (fun i => (ls i).getD t fun _ => 0)

/-- `_compute_log_likelihood`, _emissions.py:214-220. -/
def loglik (p : Params α nc nm nf C) (X : List (Obs α nf)) : Except PyErr (List (Row α nc)) := do
  let ls ← allOk (logWeighted K p X)
  return (sideBySide X.length ls).map fun r => memo! (fun i => scipyLogsumexp (r i))

/-- `post_mix`, _emissions.py:262-267. -/
def postMix (p : Params α nc nm nf C) (X : List (Obs α nf)) : Except PyErr (List (Mix α nc nm)) := do
  let ls ← allOk (logWeighted K p X)
  return (sideBySide X.length ls).map fun r => memo! (fun i =>
    let l := logNormalizeRow (r i)
    memo! (fun k => exp (l k)))

/-- `post_comp[:, :, None] * post_mix`, _emissions.py:269-270. -/
def postCompMix (post : List (Row α nc)) (pm : List (Mix α nc nm)) : List (Mix α nc nm) :=
  List.zipWith (fun a b => memo! (fun i => memo! (fun k => a i * b i k))) post pm

/-- `_initialize_sufficient_statistics`, _emissions.py:222-240. -/
def zero (pr : Prior α nc nm nf) (params : List Char) : Stats α nc nm nf C where
  postMixSum := fun _ _ => 0
  postSum := fun _ => 0
  mN := if 'm' ∈ params then fun i k l => pr.meansWeight i k * pr.meansPrior i k l else fun _ _ _ => 0
  cN := K.zero

/-- `_accumulate_sufficient_statistics`, _emissions.py:242-298. -/
def acc (params : List Char) (p : Params α nc nm nf C) (st : Stats α nc nm nf C) (X : List (Obs α nf))
    (post : List (Row α nc)) : Except PyErr (Stats α nc nm nf C) := do
  let pm ← postMix K p X
  let pcm := postCompMix post pm
  return {
    postMixSum := memo! (fun i => memo! (fun k => st.postMixSum i k + sumL (pcm.map fun r => r i k)))
    postSum := memo! (fun i => st.postSum i + sumPost post i)
    mN := if 'm' ∈ params then
        memo! (fun i => memo! (fun k => memo! (fun l => st.mN i k l + dotMix pcm X (fun x => x l) i k)))
      else st.mN
    cN := if 'c' ∈ params then K.acc p.means pcm X st.cN else st.cN }

/-- The new `weights_`, hmm.py:740-744. -/
def mstepWeights (pr : Prior α nc nm nf) (st : Stats α nc nm nf C) : Mix α nc nm :=
  memo! (fun i =>
    let d := st.postSum i + sumF fun k => pr.weightsPrior i k - 1
    memo! (fun k => (st.postMixSum i k + (pr.weightsPrior i k - 1)) / d))

/-- The new `means_`, hmm.py:746-756; `w` are the weights after their own update. -/
def mstepMeans (pr : Prior α nc nm nf) (w : Mix α nc nm) (st : Stats α nc nm nf C) :
    Means α nc nm nf :=
  memo! (fun i => memo! (fun k =>
    let d := if eq (w i k) 0 && (List.finRange nf).all (fun l => eq (st.mN i k l) 0) then 1
      else st.postMixSum i k + pr.meansWeight i k
    memo! (fun l => st.mN i k l / d)))

/-- `_do_mstep`, hmm.py:734-804. -/
def mstep (pr : Prior α nc nm nf) (params : List Char) (p : Params α nc nm nf C)
    (st : Stats α nc nm nf C) : Params α nc nm nf C :=
  let w := if 'w' ∈ params then mstepWeights pr st else p.weights
  let mu := if 'm' ∈ params then mstepMeans pr w st else p.means
  ⟨w, mu, if 'c' ∈ params then
      K.upd pr.meansWeight (fun i k l => mu i k l - pr.meansPrior i k l) st.postMixSum st.postSum st.cN
    else p.covars⟩

/-- `GMMHMM`. -/
def emission (pr : Prior α nc nm nf) :
    Emission α nc (Obs α nf) (Params α nc nm nf C) (Stats α nc nm nf C) where
  lik p X := (loglik K p X).map Gaussian.expRows
  loglik p X := loglik K p X
  zero params _ := zero K pr params
  acc params p st X post := acc K params p st X post
  mstep params p st := mstep K pr params p st

end
end Gmm
end Verif
