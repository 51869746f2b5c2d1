import Verif.Model.VEstimator
import Verif.Model.VGaussian

/-!
# The estimator object `VariationalGaussianHMM`

src/hmmlearn/vhmm.py:420-655 on the attributes as the user may have left them: `_init`, `_check`,
`_get_n_fit_scalars_per_param`, `means_`, `covars_`; `fit` and the inference methods are those of
`Verif/Model/VEstimator.lean`.

Not modelled: an invalid `covariance_type` (raises in `_get_n_fit_scalars_per_param` and in `_check`).
-/

set_option autoImplicit false

namespace Verif
open FloatLike

variable {α G : Type} [FloatLike α]

/-- Attributes of `VariationalGaussianHMM` (`n_features` is among the base attributes). -/
structure VGaussAttrs (α : Type) where
  /-- constructor arguments `means_prior`, `beta_prior`, `dof_prior`, `scale_prior` (`none`: `None`),
  vhmm.py:432-435 -/
  meansPrior : Option (NdArray α) := none
  betaPrior : Option (NdArray α) := none
  dofPrior : Option (NdArray α) := none
  scalePrior : Option (NdArray α) := none
  /-- `means_prior_` -/
  meansPri : Option (NdArray α) := none
  /-- `means_posterior_` -/
  meansPost : Option (NdArray α) := none
  /-- `beta_prior_` -/
  betaPri : Option (NdArray α) := none
  /-- `beta_posterior_` -/
  betaPost : Option (NdArray α) := none
  /-- `dof_prior_`; a number is a `d0` -/
  dofPri : Option (NdArray α) := none
  /-- `dof_posterior_` -/
  dofPost : Option (NdArray α) := none
  /-- `scale_prior_` -/
  scalePri : Option (NdArray α) := none
  /-- `scale_posterior_` -/
  scalePost : Option (NdArray α) := none
  /-- `_covars_` -/
  covars : Option (NdArray α) := none

/-! ## `_init` -/

/-- Squared Euclidean distance. -/
def sqDist {d : Nat} (x y : Fin d → α) : α := sumF fun k => (x k - y k) * (x k - y k)

/-- `KMeans.predict` for one sample (library routine of scikit-learn): the index of the nearest centre,
the first one among equals.  (scikit-learn drops the term `x·x` from the distances.) -/
def nearestCentre {n d : Nat} [NeZero n] (c : Fin n → Fin d → α) (x : Fin d → α) : Fin n :=
  (List.finRange n).foldl (fun best j => if lt (sqDist x (c j)) (sqDist x (c best)) then j else best) 0

/-- `np.bincount`: as long as the largest index asks for. -/
def bincount (l : List Nat) : List Nat :=
  match l with
  | [] => []
  | _ => (List.range (l.foldl Nat.max 0 + 1)).map fun i => l.count i

/-- `cluster_counts`, vhmm.py:479. -/
def clusterCounts {n d : Nat} [NeZero n] (c : Fin n → Fin d → α) (rows : List (Fin d → α)) : List Nat :=
  bincount (rows.map fun x => (nearestCentre c x).val)

/-- A list of counts as an array. -/
def countsArr (l : List Nat) : NdArray α := .d1 fun i : Fin l.length => ofNat' (l.get i)

/-- `a * counts[:, None, ...]`, vhmm.py:536-538, :553-554, :561-562: the counts broadcast along the first axis of
`a` (an `einsum` axis of length one broadcasts too).  There are never more counts than rows of `a`. -/
def timesCounts (counts : List Nat) : NdArray α → Except PyErr (NdArray α)
  | .d0 _ => .error .notImplemented
  | @NdArray.d1 _ n v =>
    match bcastIdx counts.length n with
    | some f => .ok (.d1 fun i => v i * ofNat' (counts.get (f i)))
    | none => .error (.valueError "operands could not be broadcast together")
  | @NdArray.d2 _ m _ v =>
    match bcastIdx counts.length m with
    | some f => .ok (.d2 fun i k => v i k * ofNat' (counts.get (f i)))
    | none => .error (.valueError "operands could not be broadcast together")
  | @NdArray.d3 _ l _ _ v =>
    match bcastIdx counts.length l with
    | some f => .ok (.d3 fun i j k => v i j k * ofNat' (counts.get (f i)))
    | none => .error (.valueError "operands could not be broadcast together")

/-- `a.mean(axis=1)` of a matrix. -/
def meanAxis1 : NdArray α → Except PyErr (NdArray α)
  | @NdArray.d2 _ _ n v => .ok (.d1 fun i => meanL ((List.finRange n).map (v i)))
  | _ => .error .notImplemented

/-- `a * x` for a scalar `x`. -/
def timesScalar (x : α) : NdArray α → NdArray α
  | .d0 v => .d0 (v * x)
  | .d1 v => .d1 fun i => v i * x
  | .d2 v => .d2 fun i j => v i j * x
  | .d3 v => .d3 fun i j k => v i j k * x

/-- `scale_posterior_` from `_covars_` and `dof_posterior_`, vhmm.py:536-538, :545, :553-554, :561-562. -/
def initScalePost (ty : CovType) (counts : List Nat) (covars : NdArray α) : Except PyErr (NdArray α) :=
  match ty with
  | .full | .diag => timesCounts counts covars
  | .tied => .ok (timesScalar (ofNat' counts.sum) covars)
  | .spherical => do timesCounts counts (← meanAxis1 covars)

/-- The default `scale_prior_`, vhmm.py:529-533, :542, :549-550, :558. -/
def defaultScale (ty : CovType) (nc nf : Nat) : NdArray α :=
  match ty with
  | .full => .d3 (l := nc) fun _ (k l : Fin nf) => (if k = l then 1 else 0) * ofRat (1 / 1000)
  | .tied => .d2 fun (k l : Fin nf) => (if k = l then 1 else 0) * ofRat (1 / 1000)
  | .diag => .d2 (m := nc) (n := nf) fun _ _ => ofRat (1 / 1000)
  | .spherical => .d1 (n := nc) fun _ => ofRat (1 / 1000)

/-- The default `dof_prior_`, vhmm.py:507-508, :515. -/
def defaultDof (ty : CovType) (nc nf : Nat) : NdArray α :=
  match ty with
  | .tied => .d0 (ofNat' nf)
  | _ => .d1 (n := nc) fun _ => ofNat' nf

/-- `dof_posterior_`, vhmm.py:511, :518. -/
def initDofPost (ty : CovType) (counts : List Nat) : NdArray α :=
  match ty with
  | .tied => .d0 (ofNat' counts.sum)
  | _ => countsArr counts

/-- vhmm.py:481-484. -/
def needsMeans (e : VEst α G (VGaussAttrs α)) : Bool :=
  needsInit e.initParams 'm' e.sub.sub.meansPri.isSome || needsInit e.initParams 'm' e.sub.sub.meansPost.isSome ||
    needsInit e.initParams 'm' e.sub.sub.betaPri.isSome || needsInit e.initParams 'm' e.sub.sub.betaPost.isSome

/-- vhmm.py:501-504. -/
def needsCovars (e : VEst α G (VGaussAttrs α)) : Bool :=
  needsInit e.initParams 'c' e.sub.sub.dofPri.isSome || needsInit e.initParams 'c' e.sub.sub.dofPost.isSome ||
    needsInit e.initParams 'c' e.sub.sub.scalePri.isSome || needsInit e.initParams 'c' e.sub.sub.scalePost.isSome

/-- The part of `_init` that sets the attributes of the means, vhmm.py:485-499. -/
def vgaussInitMeans {d : Nat} (X : List (Fin d → α)) (centres : NdArray α) (counts : List Nat)
    (e : VEst α G (VGaussAttrs α)) : VEst α G (VGaussAttrs α) :=
  if needsMeans e then
    { e with sub := { e.sub with sub := { e.sub.sub with
      meansPri := some (e.sub.sub.meansPrior.getD (.d2 (m := e.nComponents) fun _ k => meanL (X.map fun r => r k)))
      meansPost := some centres
      betaPri := some (e.sub.sub.betaPrior.getD (.d1 (n := e.nComponents) fun _ => 0 + 1))
      betaPost := some (countsArr counts) } } }
  else e

/-- The part of `_init` that sets the attributes of the covariances, vhmm.py:505-562. -/
def vgaussInitCovars (eig : Eigvalsh α) (ty : CovType) {d : Nat} (X : List (Fin d → α)) (counts : List Nat) :
    Py (VEst α G (VGaussAttrs α)) Unit := do
  let e ← Py.get
  if needsCovars e then
    Py.modify fun e => { e with sub := { e.sub with sub := { e.sub.sub with
      dofPri := some (e.sub.sub.dofPrior.getD (defaultDof ty e.nComponents (e.nFeatures.getD 0)))
      dofPost := some (initDofPost ty counts) } } }
    let c ← Py.lift (setCovars eig ty e.nComponents (distributeCovar (initCov (ofRat (1 / 1000)) X) ty e.nComponents))
    Py.modify fun e => { e with sub := { e.sub with sub := { e.sub.sub with
      covars := some c
      scalePri := some (e.sub.sub.scalePrior.getD (defaultScale ty e.nComponents (e.nFeatures.getD 0))) } } }
    let s ← Py.lift (initScalePost ty counts c)
    Py.modify fun e => { e with sub := { e.sub with sub := { e.sub.sub with scalePost := some s } } }
  else pure ()

/-- `_init`, vhmm.py:458-562, after `super()._init`: `KMeans` runs whether or not its result is needed. -/
def vgaussInit (eig : Eigvalsh α) (ty : CovType) (R : RandomLib α G) (X : XArr α) (_lens : List Int) :
    Py (World α G (VAttrs α (VGaussAttrs α))) Unit := do
  let w ← Py.get
  if h : w.est.nComponents = 0 then Py.raise (.valueError "n_clusters")
  else if X.n < w.est.nComponents then Py.raise (.valueError "n_samples should be >= n_clusters")
  else
    have : NeZero w.est.nComponents := ⟨h⟩
    let centres ← withSelfGen R (R.kmeans w.est.nComponents X.floatRows)
    let counts := clusterCounts centres X.floatRows
    onEst (Py.modify (vgaussInitMeans X.floatRows (.d2 centres) counts))
    onEst (vgaussInitCovars eig ty X.floatRows counts)

/-! ## `_check` -/

/-- An attribute that may be missing. -/
def attr (name : String) : Option (NdArray α) → Except PyErr (NdArray α)
  | none => .error (.attributeError name)
  | some a => .ok a

/-- A prior and a posterior attribute of a given shape. -/
def checkPair (name : String) (shape : List Nat) (pri post : Option (NdArray α)) : Except PyErr Unit := do
  let a ← attr (name ++ "_prior_") pri
  let b ← attr (name ++ "_posterior_") post
  if a.shape ≠ shape then .error (.valueError (name ++ "_prior_ have shape"))
  else if b.shape ≠ shape then .error (.valueError (name ++ "_posterior_ must have shape"))
  else .ok ()

/-- The shape of `scale_prior_` and `scale_posterior_`, vhmm.py:639-647. -/
def scaleShape (ty : CovType) (nc nf : Nat) : List Nat :=
  match ty with
  | .full => [nc, nf, nf]
  | .tied => [nf, nf]
  | .diag => [nc, nf]
  | .spherical => [nc]

/-- The shape of `dof_prior_` and `dof_posterior_`, vhmm.py:617-634; a number for `tied`. -/
def dofShape (ty : CovType) (nc : Nat) : List Nat :=
  match ty with
  | .tied => []
  | _ => [nc]

/-- `_check`, vhmm.py:583-655: shapes only.  `super()._check()` is not called: the shapes of the attributes of the
chain are not looked at. -/
def vgaussCheck (ty : CovType) : Py (VEst α G (VGaussAttrs α)) Unit := fun e =>
  (match e.nFeatures with
    | none => .error (.attributeError "n_features")
    | some nf => do
      checkPair "means" [e.nComponents, nf] e.sub.sub.meansPri e.sub.sub.meansPost
      checkPair "beta" [e.nComponents] e.sub.sub.betaPri e.sub.sub.betaPost
      checkPair "dof" (dofShape ty e.nComponents) e.sub.sub.dofPri e.sub.sub.dofPost
      checkPair "scale" (scaleShape ty e.nComponents nf) e.sub.sub.scalePri e.sub.sub.scalePost, e)

/-! ## The class -/

/-- `_get_n_fit_scalars_per_param`, vhmm.py:564-581. -/
def vgaussNFit (ty : CovType) (e : VEst α G (VGaussAttrs α)) : List (Char × Int) :=
  let nc : Int := e.nComponents
  let nf : Int := e.nFeatures.getD 0
  [('s', nc - 1), ('t', nc * (nc - 1)), ('m', nc * nf + nc),
    ('c', match ty with
      | .full => nc + nc * nf * (nf + 1) / 2
      | .tied => 1 + nf * (nf + 1) / 2
      | .diag => nc + nc * nf
      | .spherical => nc + nc)]

/-- What `BaseGaussianHMM` reads: `means_`, which is `means_posterior_` (vhmm.py:450-456), and `_covars_`. -/
def VGaussAttrs.gauss (p : VGaussAttrs α) : GaussAttrs α where
  minCovar := 0
  meansPrior _ _ := 0
  meansWeight := 0
  covarsPrior _ _ _ := 0
  covarsWeight := 0
  means := p.meansPost
  covars := p.covars

/-- One covariance type: how the arrays of the posteriors are read and written, and what `BaseGaussianHMM`
does with `means_` and `_covars_`. -/
structure VLayout (α G : Type) [FloatLike α] where
  ty : CovType
  Dof : Nat → Type
  Sc : Nat → Nat → Type
  St : Nat → Nat → Type
  kind : (nc nf : Nat) → VGaussian.Kind α nc nf (Dof nc) (Sc nc nf) (St nc nf)
  readDof : (nc : Nat) → NdArray α → Option (Dof nc)
  readSc : (nc nf : Nat) → NdArray α → Option (Sc nc nf)
  writeDof : {nc : Nat} → Dof nc → NdArray α
  writeSc : {nc nf : Nat} → Sc nc nf → NdArray α
  Params : Nat → Nat → Type
  Stats : Nat → Nat → Type
  emission : GaussAttrs α → (nc nf : Nat) → Emission α nc (Gaussian.Obs α nf) (Params nc nf) (Stats nc nf)
  read : GaussAttrs α → (nc nf : Nat) → Option (Params nc nf)
  sample : RandomLib α G → GaussAttrs α → {nc nf : Nat} → Params nc nf → Fin nc → G →
    Except PyErr (Gaussian.Obs α nf) × G

/-- A number. -/
def asNumber : NdArray α → Option α
  | .d0 x => some x
  | _ => none

/-- `covariance_type="full"`. -/
def vlayoutFull (eig : Eigvalsh α) : VLayout α G where
  ty := .full
  Dof := Row α
  Sc nc nf := Fin nc → Gaussian.Sq α nf
  St := Gaussian.FullStats α
  kind _ _ := VGaussian.full
  readDof := asRow
  readSc nc nf := asCube nc nf nf
  writeDof d := .d1 d
  writeSc s := .d3 s
  Params := Gaussian.FullParams α
  Stats := Gaussian.FullStats α
  emission := (gaussFullSub (G := G) eig).emission
  read := (gaussFullSub (G := G) eig).read
  sample R p {_ _} := (gaussFullSub (G := G) eig).sampleSub R p

/-- `covariance_type="tied"`. -/
def vlayoutTied (eig : Eigvalsh α) : VLayout α G where
  ty := .tied
  Dof _ := α
  Sc _ nf := Gaussian.Sq α nf
  St := Gaussian.FullStats α
  kind _ _ := VGaussian.tied
  readDof _ := asNumber
  readSc _ nf := asMat nf nf
  writeDof d := .d0 d
  writeSc s := .d2 s
  Params := Gaussian.TiedParams α
  Stats := Gaussian.FullStats α
  emission := (gaussTiedSub (G := G) eig).emission
  read := (gaussTiedSub (G := G) eig).read
  sample R p {_ _} := (gaussTiedSub (G := G) eig).sampleSub R p

/-- `covariance_type="diag"`. -/
def vlayoutDiag (eig : Eigvalsh α) : VLayout α G where
  ty := .diag
  Dof := Row α
  Sc nc nf := Fin nc → Fin nf → α
  St := Gaussian.DiagStats α
  kind _ _ := VGaussian.diag
  readDof := asRow
  readSc := asMat
  writeDof d := .d1 d
  writeSc s := .d2 s
  Params := Gaussian.DiagParams α
  Stats := Gaussian.DiagStats α
  emission := (gaussDiagSub (G := G) eig).emission
  read := (gaussDiagSub (G := G) eig).read
  sample R p {_ _} := (gaussDiagSub (G := G) eig).sampleSub R p

/-- `covariance_type="spherical"`. -/
def vlayoutSpherical (eig : Eigvalsh α) : VLayout α G where
  ty := .spherical
  Dof := Row α
  Sc nc _ := Row α nc
  St := Gaussian.DiagStats α
  kind _ _ := VGaussian.spherical
  readDof := asRow
  readSc nc _ := asRow nc
  writeDof d := .d1 d
  writeSc s := .d1 s
  Params := Gaussian.DiagParams α
  Stats := Gaussian.DiagStats α
  emission := (gaussSphericalSub (G := G) eig).emission
  read := (gaussSphericalSub (G := G) eig).read
  sample R p {_ _} := (gaussSphericalSub (G := G) eig).sampleSub R p

/-- What `VariationalGaussianHMM` inherits from `BaseGaussianHMM`, _emissions.py:112-181. -/
def vgaussCore (L : VLayout α G) : Sub α G (VAttrs α (VGaussAttrs α)) where
  Obs := Gaussian.Obs α
  Params := L.Params
  Stats := L.Stats
  rows := gaussRows
  emission p := L.emission p.sub.gauss
  read p := L.read p.sub.gauss
  write _ p := p
  checkFeatures := checkFeaturesBase
  nFit := vgaussNFit L.ty
  initSub _ _ := pure ()
  checkSub := pure ()
  sampleSub R p {_ _} θ z g := L.sample R p.sub.gauss θ z g

/-- `VariationalGaussianHMM` with the covariance type of `L`.  Training never reads `_covars_`: what the attribute
held stays until the first update. -/
def vgaussSub (L : VLayout α G) (sci : Sci α) (eig : Eigvalsh α) : VSub α G (VGaussAttrs α) where
  sci := sci
  core := vgaussCore L
  Post nc nf := VGaussian.Params α nc nf (L.Dof nc) (L.Sc nc nf)
  Prior nc nf := VGaussian.Prior α nc nf (L.Dof nc) (L.Sc nc nf)
  Weights nc nf := VGaussian.Params α nc nf (L.Dof nc) (L.Sc nc nf)
  Stats := L.St
  emission {nc nf} prior := VGaussian.emission (L.kind nc nf) sci prior
  readPrior p nc nf := do
    let b ← p.betaPri.bind (asRow nc)
    let m ← p.meansPri.bind (asMat nc nf)
    let d ← p.dofPri.bind (L.readDof nc)
    let s ← p.scalePri.bind (L.readSc nc nf)
    return ⟨b, m, d, s⟩
  readPost p nc nf := do
    let b ← p.betaPost.bind (asRow nc)
    let m ← p.meansPost.bind (asMat nc nf)
    let d ← p.dofPost.bind (L.readDof nc)
    let s ← p.scalePost.bind (L.readSc nc nf)
    return ⟨b, m, d, s, none⟩
  writePost θ p :=
    { p with
      betaPost := some (.d1 θ.beta)
      meansPost := some (.d2 θ.means)
      dofPost := some (L.writeDof θ.dof)
      scalePost := some (L.writeSc θ.scale)
      covars := θ.covars.map L.writeSc <|> p.covars }
  initSub := vgaussInit eig L.ty
  check := vgaussCheck L.ty

end Verif
