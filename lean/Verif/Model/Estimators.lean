import Verif.Model.Estimator
import Verif.Model.Categorical
import Verif.Model.Multinomial
import Verif.Model.Poisson
import Verif.Model.Gaussian
import Verif.Model.Covars

/-!
# The estimator classes

`CategoricalHMM`, `MultinomialHMM`, `PoissonHMM` and `GaussianHMM` (one per covariance type) as
instances of `Sub`: src/hmmlearn/hmm.py:26-387 and :812-1075, src/hmmlearn/_emissions.py.
-/

namespace Verif
open FloatLike

variable {α G : Type} [FloatLike α]

/-- `np.atleast_2d`. -/
def atleast2d {β : Type} : NdArray β → NdArray β
  | .d0 x => .d2 (m := 1) (n := 1) fun _ _ => x
  | .d1 v => .d2 (m := 1) fun _ => v
  | a => a

/-- `random_state.rand(m, n)` (row by row) followed by `normalize(a, axis=1)`. -/
def randRows (R : RandomLib α G) (m n : Nat) (g : G) : (Fin m → Fin n → α) × G :=
  let (v, g) := drawMany (drawMany R.rand n) m g
  (fun i => normalizeRow (v i), g)

/-! ## CategoricalHMM -/

/-- Attributes of `CategoricalHMM` (`n_features` is among the base attributes). -/
structure CatAttrs (α : Type) where
  emissionprobPrior : Nat → Nat → α
  /-- `emissionprob_` -/
  emissionprob : Option (NdArray α) := none

/-- `X.min() < 0`. -/
def anyNeg {d : Nat} (rows : List (Fin d → Int)) : Bool :=
  rows.any fun r => (List.finRange d).any fun j => decide (r j < 0)

/-- `X.max()` of an array without negative entries. -/
def maxNat {d : Nat} (rows : List (Fin d → Int)) : Nat :=
  (rows.map fun r => ((List.finRange d).map fun j => (r j).toNat).foldl max 0).foldl max 0

/-- `_check_and_set_n_features`, _emissions.py:53-68. -/
def catCheckFeatures {P : Type} (X : XArr α) : Py (Est α G P) Unit := fun e =>
  match X with
  | .floats _ => (.error (.valueError "Symbols should be integers"), e)
  | .ints rows =>
    if anyNeg rows then (.error (.valueError "Symbols should be nonnegative"), e)
    else
      match e.nFeatures with
      | some nf =>
        if (nf : Int) - 1 < maxNat rows then (.error (.valueError "Largest symbol"), e)
        else (.ok (), e)
      | none => (.ok (), { e with nFeatures := some (maxNat rows + 1) })

/-- `_check`, hmm.py:138-148. -/
def catCheck : Py (Est α G (CatAttrs α)) Unit := fun e =>
  match e.sub.emissionprob with
  | none => (.error (.attributeError "emissionprob_"), e)
  | some a =>
    let a := atleast2d a
    let e := { e with sub := { e.sub with emissionprob := some a } }
    let e := if e.nFeatures.isNone then { e with nFeatures := a.shape[1]? } else e
    if a.shape ≠ [e.nComponents, e.nFeatures.getD 0] then
      (.error (.valueError "emissionprob_ must have shape"), e)
    else (checkSum1 a, e)

/-- `_init`, hmm.py:128-136. -/
def catInit (R : RandomLib α G) (_X : XArr α) : Py (World α G (CatAttrs α)) Unit := do
  storeGen R
  let w ← Py.get
  let e := w.est
  if needsInit e.initParams 'e' e.sub.emissionprob.isSome then
    let v ← withSelfGen R (randRows R e.nComponents (e.nFeatures.getD 0))
    onEst (Py.modify fun e => { e with sub := { e.sub with emissionprob := some (.d2 v) } })
  else pure ()

/-- The symbols of `X`: `X.squeeze(1)`, _emissions.py:84.  Floating-point symbols are no indices;
`X` with more than one column (deprecated: flattened) is the subject of Verif/Model/WideSymbols.lean. -/
def catRows : XArr α → Except PyErr (List Int)
  | .floats _ => .error .indexError
  | @XArr.ints _ d rows =>
    if h : d = 1 then .ok (rows.map fun r => r ⟨0, by omega⟩) else .error .notImplemented

/-- `CategoricalHMM`. -/
def catSub : Sub α G (CatAttrs α) where
  Obs _ := Int
  Params nc nf := Categorical.Params α nc nf
  Stats nc nf := Categorical.Params α nc nf
  rows _ := catRows
  emission p _ _ := Categorical.emission fun i k => p.emissionprobPrior i k
  read p nc nf := p.emissionprob.bind (asMat nc nf)
  write θ p := { p with emissionprob := some (.d2 θ) }
  checkFeatures := catCheckFeatures
  -- _emissions.py:70-77
  nFit e :=
    let nc : Int := e.nComponents
    let nf : Int := e.nFeatures.getD 0
    [('s', nc - 1), ('t', nc * (nc - 1)), ('e', nc * (nf - 1))]
  initSub := catInit
  checkSub := catCheck
  -- _emissions.py:106-109
  sampleSub R _ {_ nf} θ z g :=
    let (u, g) := R.rand g
    if h : nf = 0 then (.error (.valueError "attempt to get argmax of an empty sequence"), g)
    else
      haveI : NeZero nf := ⟨h⟩
      (.ok ((argmaxBool fun j => lt u (cumsum (θ z) j)).val : Int), g)

/-! ## MultinomialHMM -/

/-- The `n_trials` attribute: a number, or one per row. -/
inductive NTrials where
  | scalar (n : Int)
  | perRow (l : List Int)
deriving DecidableEq

/-- Attributes of `MultinomialHMM`. -/
structure MultiAttrs (α : Type) where
  nTrials : Option NTrials
  /-- `emissionprob_` -/
  emissionprob : Option (NdArray α) := none

/-- `X.sum(axis=1)`. -/
def rowTotals {d : Nat} (rows : List (Fin d → Int)) : List Int :=
  rows.map fun r => ((List.finRange d).map r).sum

/-- `(X.sum(axis=1) == self.n_trials).all()` with numpy's broadcasting; arrays of different
lengths, neither of them one, raise `ValueError` (numpy ≥ 1.25). -/
def totalsMatch (tot : List Int) : NTrials → Bool
  | .scalar n => tot.all (· == n)
  | .perRow l =>
    if tot.length = l.length then tot == l
    else
      match tot, l with
      | _, [n] => tot.all (· == n)
      | [t], _ => l.all (t == ·)
      | _, _ => false

/-- The part of `_check_and_set_n_features` after the call of the base class's,
_emissions.py:318-324. -/
def multiCheckCounts (X : XArr α) : Py (Est α G (MultiAttrs α)) Unit := fun e =>
  match X with
  | .floats _ => (.error (.valueError "Symbol counts should be nonnegative integers"), e)
  | .ints rows =>
    if anyNeg rows then (.error (.valueError "Symbol counts should be nonnegative integers"), e)
    else
      match e.sub.nTrials with
      | none => (.ok (), { e with sub := { e.sub with nTrials := some (.perRow (rowTotals rows)) } })
      | some t =>
        if totalsMatch (rowTotals rows) t then (.ok (), e)
        else (.error (.valueError "Total count for each sample should add up"), e)

/-- `_check_and_set_n_features`, _emissions.py:312-324. -/
def multiCheckFeatures (X : XArr α) : Py (Est α G (MultiAttrs α)) Unit := do
  checkFeaturesBase X
  multiCheckCounts X

/-- `_check`, hmm.py:924-934. -/
def multiCheck : Py (Est α G (MultiAttrs α)) Unit := fun e =>
  match e.sub.emissionprob with
  | none => (.error (.attributeError "emissionprob_"), e)
  | some a =>
    let a := atleast2d a
    let e := { e with sub := { e.sub with emissionprob := some a } }
    let nf := e.nFeatures.getD (a.shape[1]?.getD 0)
    if a.shape ≠ [e.nComponents, nf] then (.error (.valueError "emissionprob_ must have shape"), e)
    else
      let e := { e with nFeatures := some nf }
      if e.sub.nTrials.isNone then (.error (.valueError "n_trials must be set"), e) else (.ok (), e)

/-- `_init`, hmm.py:915-922: `'e' in self.init_params`, no `_needs_init`. -/
def multiInit (R : RandomLib α G) (_X : XArr α) : Py (World α G (MultiAttrs α)) Unit := do
  storeGen R
  let w ← Py.get
  let e := w.est
  if 'e' ∈ e.initParams then
    let v ← withSelfGen R (randRows R e.nComponents (e.nFeatures.getD 0))
    onEst (Py.modify fun e => { e with sub := { e.sub with emissionprob := some (.d2 v) } })
  else pure ()

/-- Integer rows with `nf` columns (`multinomial.logpmf` raises for other column counts). -/
def countRowsOf (nf : Nat) {d : Nat} (rows : List (Fin d → Int)) : Except PyErr (List (Fin nf → Int)) :=
  if h : d = nf then .ok (rows.map fun r k => r (k.cast h.symm))
  else .error (.valueError "operands could not be broadcast together")

/-- The rows of `X`; `scipy.stats.multinomial` converts floats that are integers.  (Other floats are not
modelled.) -/
def countRows (nf : Nat) : XArr α → Except PyErr (List (Fin nf → Int))
  | @XArr.floats _ d rows =>
    if rows.all fun r => (List.finRange d).all fun j => (toInt? (r j)).isSome then
      countRowsOf nf (rows.map fun r j => (toInt? (r j)).getD 0)
    else .error .notImplemented
  | .ints rows => countRowsOf nf rows

/-- The single value of `np.unique(self.n_trials)`, _emissions.py:364-367. -/
def uniqueTrials : Option NTrials → Option Int
  | some (.scalar n) => some n
  | some (.perRow (n :: l)) => if l.all (· == n) then some n else none
  | _ => none

/-- `MultinomialHMM`. -/
def multiSub : Sub α G (MultiAttrs α) where
  Obs nf := Fin nf → Int
  Params nc nf := Multinomial.Params α nc nf
  Stats nc nf := Multinomial.Params α nc nf
  rows := countRows
  emission _ _ _ := Multinomial.emission
  read p nc nf := p.emissionprob.bind (asMat nc nf)
  write θ p := { p with emissionprob := some (.d2 θ) }
  checkFeatures := multiCheckFeatures
  -- _emissions.py:326-333
  nFit e :=
    let nc : Int := e.nComponents
    let nf : Int := e.nFeatures.getD 0
    [('s', nc - 1), ('t', nc * (nc - 1)), ('e', nc * (nf - 1))]
  initSub := multiInit
  checkSub := multiCheck
  -- _emissions.py:363-369
  sampleSub R p {_ _} θ z g :=
    match uniqueTrials p.nTrials with
    | none => (.error (.valueError "For sampling, a single n_trials must be given"), g)
    | some n => let (x, g) := R.multinomial n.toNat (θ z) g; (.ok x, g)

/-! ## PoissonHMM -/

/-- Attributes of `PoissonHMM`. -/
structure PoisAttrs (α : Type) where
  lambdasPrior : Nat → Nat → α
  lambdasWeight : Nat → Nat → α
  /-- `lambdas_` -/
  lambdas : Option (NdArray α) := none

/-- All entries of `X` as floats. -/
def XArr.flat : XArr α → List α
  | @XArr.ints _ d rows => (rows.map fun r => (List.finRange d).map fun j => ofInt' (r j)).flatten
  | @XArr.floats _ d rows => (rows.map fun r => (List.finRange d).map r).flatten

/-- `a.mean()`. -/
def meanL (l : List α) : α := sumL l / ofNat' l.length

/-- `a.var()`. -/
def varL (l : List α) : α :=
  let m := meanL l
  meanL (l.map fun x => (x - m) * (x - m))

/-- Integer rows as `poisson.logpmf(X, self.lambdas_[c])`, _emissions.py:382-393, pairs them with the `nf`
rates: `nf` columns, or one column, which numpy broadcasts.  Several columns against a single rate
broadcast as well, the other way round: `Model/ManyColumns.lean`. -/
def poisRowsOf (nf : Nat) {d : Nat} (rows : List (Fin d → Int)) : Except PyErr (List (Fin nf → Int)) :=
  if h : d = nf then .ok (rows.map fun r k => r (k.cast h.symm))
  else if h : d = 1 then .ok (rows.map fun r _ => r ((0 : Fin 1).cast h.symm))
  else if nf = 1 then .error .notImplemented
  else .error (.valueError "operands could not be broadcast together")

/-- A float among the counts: integers count as themselves; for other numbers scipy's `pmf` is 0, as for
`-1`.  (The statistics, _emissions.py:402-407, use the number itself instead of `-1`; they are NaN in any
case, because the posteriors of an impossible sequence are.) -/
def countOf (x : α) : Int := (toInt? x).getD (-1)

/-- The rows of `X`. -/
def poisRows (nf : Nat) : XArr α → Except PyErr (List (Fin nf → Int))
  | .floats rows => poisRowsOf nf (rows.map fun r j => countOf (r j))
  | .ints rows => poisRowsOf nf rows

/-- `_init`, hmm.py:1030-1044. -/
def poisInit (R : RandomLib α G) (X : XArr α) : Py (World α G (PoisAttrs α)) Unit := do
  storeGen R
  let w ← Py.get
  let e := w.est
  if needsInit e.initParams 'l' e.sub.lambdas.isSome then
    let m := meanL X.flat
    let s := varL X.flat
    let v ← withSelfGen R (drawMany (drawMany (R.gamma (m * m / s) (s / m)) (e.nFeatures.getD 0))
      e.nComponents)
    onEst (Py.modify fun e => { e with sub := { e.sub with lambdas := some (.d2 v) } })
  else pure ()

/-- `_check`, hmm.py:1046-1054. -/
def poisCheck : Py (Est α G (PoisAttrs α)) Unit := fun e =>
  match e.sub.lambdas with
  | none => (.error (.attributeError "lambdas_"), e)
  | some a =>
    let a := atleast2d a
    let e := { e with sub := { e.sub with lambdas := some a } }
    let nf := e.nFeatures.getD (a.shape[1]?.getD 0)
    if a.shape ≠ [e.nComponents, nf] then (.error (.valueError "lambdas_ must have shape"), e)
    else (.ok (), { e with nFeatures := some nf })

/-- `random_state.poisson(lam)` for a vector `lam`. -/
def poissonVec (R : RandomLib α G) : {k : Nat} → (Fin k → α) → G → (Fin k → Int) × G
  | 0, _, g => (Fin.elim0, g)
  | _ + 1, l, g =>
    let (x, g) := R.poisson (l 0) g
    let (v, g) := poissonVec R (fun j => l j.succ) g
    (Fin.cons x v, g)

/-- `PoissonHMM`. -/
def poisSub : Sub α G (PoisAttrs α) where
  Obs nf := Fin nf → Int
  Params nc nf := Poisson.Params α nc nf
  Stats nc nf := Poisson.Stats α nc nf
  rows := poisRows
  emission p _ _ := Poisson.emission (fun i k => p.lambdasPrior i k) fun i k => p.lambdasWeight i k
  read p nc nf := p.lambdas.bind (asMat nc nf)
  write θ p := { p with lambdas := some (.d2 θ) }
  checkFeatures := checkFeaturesBase
  -- _emissions.py:374-381
  nFit e :=
    let nc : Int := e.nComponents
    let nf : Int := e.nFeatures.getD 0
    [('s', nc - 1), ('t', nc * (nc - 1)), ('l', nc * nf)]
  initSub := poisInit
  checkSub := poisCheck
  -- _emissions.py:409-410: one Poisson variable per column
  sampleSub R _ {_ _} θ z g :=
    let (x, g) := poissonVec R (θ z) g
    (.ok x, g)

/-! ## GaussianHMM -/

/-- Attributes of `GaussianHMM`; the covariance type is a parameter of the class model (the
attribute `covariance_type` is in `Model/CovName.lean`). -/
structure GaussAttrs (α : Type) where
  minCovar : α
  meansPrior : Nat → Nat → α
  meansWeight : α
  covarsPrior : Nat → Nat → Nat → α
  covarsWeight : α
  /-- `means_` -/
  means : Option (NdArray α) := none
  /-- `_covars_` -/
  covars : Option (NdArray α) := none

/-- The rows of `X` as floats. -/
def XArr.floatRows : (X : XArr α) → List (Fin X.d → α)
  | .ints rows => rows.map fun r j => ofInt' (r j)
  | .floats rows => rows

/-- `np.cov(X.T)`: unbiased covariance of the columns. -/
def npCov {d : Nat} (rows : List (Fin d → α)) (k l : Fin d) : α :=
  let mk := meanL (rows.map fun r => r k)
  let ml := meanL (rows.map fun r => r l)
  sumL (rows.map fun r => (r k - mk) * (r l - ml)) / (ofNat' rows.length - 1)

/-- The template covariance `np.cov(X.T) + self.min_covar * np.eye(X.shape[1])`, hmm.py:317. -/
def initCov {d : Nat} (minCovar : α) (rows : List (Fin d → α)) (k l : Fin d) : α :=
  npCov rows k l + minCovar * (if k = l then 1 else 0)

/-- `distribute_covar_matrix_to_match_covariance_type`, _utils.py:69-86. -/
def distributeCovar {d : Nat} (cv : Fin d → Fin d → α) (ty : CovType) (nc : Nat) : NdArray α :=
  match ty with
  | .spherical =>
    let m := meanL ((List.finRange d).map fun k => (List.finRange d).map fun l => cv k l).flatten
    .d2 (m := nc) (n := d) fun _ _ => m * 1
  | .tied => .d2 cv
  | .diag => .d2 (m := nc) fun _ k => cv k k
  | .full => .d3 (l := nc) fun _ => cv

/-- The part of `_init` that sets `means_`, hmm.py:310-315. -/
def gaussInitMeans (R : RandomLib α G) (X : XArr α) : Py (World α G (GaussAttrs α)) Unit := do
  let w ← Py.get
  let e := w.est
  if needsInit e.initParams 'm' e.sub.means.isSome then
    if X.n < e.nComponents then Py.raise (.valueError "n_samples should be >= n_clusters")
    else
      let v ← withSelfGen R (R.kmeans e.nComponents X.floatRows)
      onEst (Py.modify fun e => { e with sub := { e.sub with means := some (.d2 v) } })
  else pure ()

/-- The part of `_init` that sets `_covars_`, hmm.py:316-322. -/
def gaussInitCovars (eig : Eigvalsh α) (ty : CovType) (X : XArr α) :
    Py (World α G (GaussAttrs α)) Unit := do
  let w ← Py.get
  let e := w.est
  if needsInit e.initParams 'c' e.sub.covars.isSome then
    let c ← Py.lift (setCovars eig ty e.nComponents
      (distributeCovar (initCov e.sub.minCovar X.floatRows) ty e.nComponents))
    onEst (Py.modify fun e => { e with sub := { e.sub with covars := some c } })
  else pure ()

/-- `_init`, hmm.py:307-322.  `hasattr(self, "covars_")` is whether `_covars_` was set. -/
def gaussInit (eig : Eigvalsh α) (ty : CovType) (R : RandomLib α G) (X : XArr α) :
    Py (World α G (GaussAttrs α)) Unit := do
  gaussInitMeans R X
  gaussInitCovars eig ty X

/-- `_check`, hmm.py:324-332: the shape of `means_` gives `n_features`; the covariances are not
looked at. -/
def gaussCheck : Py (Est α G (GaussAttrs α)) Unit := fun e =>
  match e.sub.means with
  | none => (.error (.attributeError "means_"), e)
  | some a =>
    match a.shape[1]? with
    | none => (.error .indexError, e)
    | some nf => (.ok (), { e with nFeatures := some nf })

/-- _emissions.py:114-127. -/
def gaussNFit (ty : CovType) (e : Est α G (GaussAttrs α)) : List (Char × Int) :=
  let nc : Int := e.nComponents
  let nf : Int := e.nFeatures.getD 0
  [('s', nc - 1), ('t', nc * (nc - 1)), ('m', nc * nf),
    ('c', match ty with
      | .spherical => nc
      | .diag => nc * nf
      | .full => nc * nf * (nf + 1) / 2
      | .tied => nf * (nf + 1) / 2)]

/-- The rows of `X` as `X - means`, stats.py:47-103 and vhmm.py:682, pairs them with means of `nf` features:
`nf` columns, or one column, which numpy broadcasts (the sums into statistics of `nf` columns,
_emissions.py:151-163 and :268-292, broadcast alike).  Several columns against a single feature broadcast the
other way round in the diagonal and spherical densities: `Model/ManyColumns.lean`. -/
def gaussRows (nf : Nat) (X : XArr α) : Except PyErr (List (Fin nf → α)) :=
  if h : X.d = nf then .ok (X.floatRows.map fun r k => r (k.cast h.symm))
  else if h : X.d = 1 then .ok (X.floatRows.map fun r _ => r ((0 : Fin 1).cast h.symm))
  else if nf = 1 then .error .notImplemented
  else .error (.valueError "operands could not be broadcast together")

/-- `a` as an `l × m × n` array. -/
def asCube (l m n : Nat) : NdArray α → Option (Fin l → Fin m → Fin n → α)
  | @NdArray.d3 _ l' m' n' v =>
    if h : l' = l ∧ m' = m ∧ n' = n then
      some fun i j k => v (i.cast h.1.symm) (j.cast h.2.1.symm) (k.cast h.2.2.symm)
    else none
  | _ => none

/-- Spherical covariances broadcast to `(nc, nf)`, stats.py:66-68. -/
def asSpherical (nc nf : Nat) (a : NdArray α) : Option (Fin nc → Fin nf → α) :=
  (asMat nc nf a).orElse fun _ =>
    ((asRow nc a).map fun v i _ => v i).orElse fun _ => (asMat nc 1 a).map fun v i _ => v i 0

/-- The covariance matrix used to sample from a state: `self.covars_[state]`, _emissions.py:178-181. -/
def gaussSample (ty : CovType) (R : RandomLib α G) (p : GaussAttrs α) {nc nf : Nat}
    (means : Fin nc → Fin nf → α) (z : Fin nc) (g : G) : Except PyErr (Fin nf → α) × G :=
  match p.covars with
  | none => (.error (.attributeError "_covars_"), g)
  | some c =>
    match stateCovar c ty nc nf z with
    | .error e => (.error e, g)
    | .ok m =>
      match asMat nf nf m with
      | none => (.error (.valueError "mean and cov must have same length"), g)
      | some m => let (x, g) := R.normal (means z) m g; (.ok x, g)

/-- `means_prior`, `means_weight`, `covars_weight`. -/
def GaussAttrs.prior (p : GaussAttrs α) (nc nf : Nat) : Gaussian.Prior α nc nf :=
  ⟨fun i k => p.meansPrior i k, p.meansWeight, p.covarsWeight⟩

/-- `GaussianHMM(covariance_type="diag")`. -/
def gaussDiagSub (eig : Eigvalsh α) : Sub α G (GaussAttrs α) where
  Obs nf := Fin nf → α
  Params nc nf := Gaussian.DiagParams α nc nf
  Stats nc nf := Gaussian.DiagStats α nc nf
  rows := gaussRows
  emission p nc nf := Gaussian.emissionDiag (p.prior nc nf) fun i k => p.covarsPrior i k 0
  read p nc nf := do
    let m ← p.means
    let m ← asMat nc nf m
    let c ← p.covars
    let c ← asMat nc nf c
    return ⟨m, c⟩
  write θ p := { p with means := some (.d2 θ.means), covars := some (.d2 θ.covars) }
  checkFeatures := checkFeaturesBase
  nFit := gaussNFit .diag
  initSub := gaussInit eig .diag
  checkSub := gaussCheck
  sampleSub R p {_ _} θ z g := gaussSample .diag R p θ.means z g

/-- `GaussianHMM(covariance_type="spherical")`. -/
def gaussSphericalSub (eig : Eigvalsh α) : Sub α G (GaussAttrs α) where
  Obs nf := Fin nf → α
  Params nc nf := Gaussian.DiagParams α nc nf
  Stats nc nf := Gaussian.DiagStats α nc nf
  rows := gaussRows
  emission p nc nf := Gaussian.emissionSpherical (p.prior nc nf) fun i k => p.covarsPrior i k 0
  read p nc nf := do
    let m ← p.means
    let m ← asMat nc nf m
    let c ← p.covars
    let c ← asSpherical nc nf c
    return ⟨m, c⟩
  write θ p := { p with means := some (.d2 θ.means), covars := some (.d2 θ.covars) }
  checkFeatures := checkFeaturesBase
  nFit := gaussNFit .spherical
  initSub := gaussInit eig .spherical
  checkSub := gaussCheck
  sampleSub R p {_ _} θ z g := gaussSample .spherical R p θ.means z g

/-- `GaussianHMM(covariance_type="full")`. -/
def gaussFullSub (eig : Eigvalsh α) : Sub α G (GaussAttrs α) where
  Obs nf := Fin nf → α
  Params nc nf := Gaussian.FullParams α nc nf
  Stats nc nf := Gaussian.FullStats α nc nf
  rows := gaussRows
  emission p nc nf := Gaussian.emissionFull (p.prior nc nf) fun i k l => p.covarsPrior i k l
  read p nc nf := do
    let m ← p.means
    let m ← asMat nc nf m
    let c ← p.covars
    let c ← asCube nc nf nf c
    return ⟨m, c⟩
  write θ p := { p with means := some (.d2 θ.means), covars := some (.d3 θ.covars) }
  checkFeatures := checkFeaturesBase
  nFit := gaussNFit .full
  initSub := gaussInit eig .full
  checkSub := gaussCheck
  sampleSub R p {_ _} θ z g := gaussSample .full R p θ.means z g

/-- `GaussianHMM(covariance_type="tied")`. -/
def gaussTiedSub (eig : Eigvalsh α) : Sub α G (GaussAttrs α) where
  Obs nf := Fin nf → α
  Params nc nf := Gaussian.TiedParams α nc nf
  Stats nc nf := Gaussian.FullStats α nc nf
  rows := gaussRows
  emission p nc nf := Gaussian.emissionTied (p.prior nc nf) fun k l => p.covarsPrior 0 k l
  read p nc nf := do
    let m ← p.means
    let m ← asMat nc nf m
    let c ← p.covars
    let c ← asMat nf nf c
    return ⟨m, c⟩
  write θ p := { p with means := some (.d2 θ.means), covars := some (.d2 θ.covar) }
  checkFeatures := checkFeaturesBase
  nFit := gaussNFit .tied
  initSub := gaussInit eig .tied
  checkSub := gaussCheck
  sampleSub R p {_ _} θ z g := gaussSample .tied R p θ.means z g

end Verif
