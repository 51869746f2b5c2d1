import Verif.Model.Estimators
import Verif.Model.Criteria
import Verif.Model.Gmm

/-!
# The estimator object of `GMMHMM`

src/hmmlearn/hmm.py:390-732, src/hmmlearn/_emissions.py:184-202 and :294-307: attributes,
hyper-parameter broadcasting, `_init`, `_check`, sampling.  Training and densities are in
`Verif/Model/Gmm.lean`.

`n_mix` and `covariance_type` are fixed per class model (`nm`, `GmmType`); reassigning them on an
existing object, an invalid `covariance_type` and `n_mix < 1` are not modelled.
-/

set_option autoImplicit false

namespace Verif
open FloatLike

variable {α G : Type} [FloatLike α]

/-- A numpy array of any number of axes; `data` at indices outside the shape is never read. -/
structure Tensor (α : Type) where
  shape : List Nat
  data : List Nat → α

namespace Tensor

omit [FloatLike α] in
/-- A scalar (`np.broadcast_to` takes Python numbers, too). -/
def scalar (x : α) : Tensor α := ⟨[], fun _ => x⟩

/-- An array with two axes. -/
def of2 {m n : Nat} (v : Fin m → Fin n → α) : Tensor α :=
  ⟨[m, n], fun
    | [i, j] => if h : i < m ∧ j < n then v ⟨i, h.1⟩ ⟨j, h.2⟩ else 0
    | _ => 0⟩

/-- An array with three axes. -/
def of3 {l m n : Nat} (v : Fin l → Fin m → Fin n → α) : Tensor α :=
  ⟨[l, m, n], fun
    | [i, j, k] => if h : i < l ∧ j < m ∧ k < n then v ⟨i, h.1⟩ ⟨j, h.2.1⟩ ⟨k, h.2.2⟩ else 0
    | _ => 0⟩

/-- An array with four axes. -/
def of4 {k l m n : Nat} (v : Fin k → Fin l → Fin m → Fin n → α) : Tensor α :=
  ⟨[k, l, m, n], fun
    | [a, i, j, b] =>
      if h : (a < k ∧ i < l) ∧ j < m ∧ b < n then v ⟨a, h.1.1⟩ ⟨i, h.1.2⟩ ⟨j, h.2.1⟩ ⟨b, h.2.2⟩ else 0
    | _ => 0⟩

omit [FloatLike α] in
/-- The elements with two axes. -/
def at2 (m n : Nat) (t : Tensor α) : Fin m → Fin n → α := fun i j => t.data [i, j]

omit [FloatLike α] in
/-- The elements with three axes. -/
def at3 (l m n : Nat) (t : Tensor α) : Fin l → Fin m → Fin n → α := fun i j k => t.data [i, j, k]

omit [FloatLike α] in
/-- The elements with four axes. -/
def at4 (k l m n : Nat) (t : Tensor α) : Fin k → Fin l → Fin m → Fin n → α :=
  fun a i j b => t.data [a, i, j, b]

/-- Whether the reversed shapes `s` (source) and `t` (target) are compatible: every axis of the
source is the target's or has length one. -/
def fits : List Nat → List Nat → Bool
  | [], _ => true
  | _ :: _, [] => false
  | a :: s, b :: t => (a == b || a == 1) && fits s t

/-- The source index (reversed) of a target index (reversed). -/
def pull : List Nat → List Nat → List Nat
  | [], _ => []
  | _ :: _, [] => []
  | a :: s, i :: t => (if a == 1 then 0 else i) :: pull s t

omit [FloatLike α] in
/-- `np.broadcast_to(t, shape).copy()`. -/
def broadcastTo (t : Tensor α) (shape : List Nat) : Except PyErr (Tensor α) :=
  if t.shape = shape then .ok t
  else if fits t.shape.reverse shape.reverse then
    .ok ⟨shape, fun i => t.data (pull t.shape.reverse i.reverse).reverse⟩
  else .error (.valueError "operands could not be broadcast together with remapped shapes")

end Tensor

/-- Attributes of `GMMHMM`; `none` is `None` for the hyper-parameters and "never set" for the
fitted attributes. -/
structure GmmAttrs (α : Type) where
  minCovar : α
  weightsPrior : Tensor α
  meansPrior : Tensor α
  meansWeight : Tensor α
  covarsPrior : Option (Tensor α)
  covarsWeight : Option (Tensor α)
  /-- `weights_` -/
  weights : Option (Tensor α) := none
  /-- `means_` -/
  means : Option (Tensor α) := none
  /-- `covars_` -/
  covars : Option (Tensor α) := none
  /-- whether `means_prior` and `means_weight` both are of integer type -/
  meansInt : Bool := false
  /-- whether `covars_` is of integer type (set so by the user) -/
  covarsInt : Bool := false

/-- What depends on `covariance_type`; `C` is the typed form of `covars_`. -/
structure GmmType (α : Type) (nm : Nat) where
  ty : CovType
  C : Nat → Nat → Type
  /-- shape of `covars_`, hmm.py:686-691 -/
  shape : (nc nf : Nat) → List Nat
  /-- shape of `covars_prior`, hmm.py:629-648 -/
  priorShape : (nc nf : Nat) → List Nat
  /-- shape of `covars_weight`, hmm.py:629-648 -/
  weightShape : (nc nf : Nat) → List Nat
  /-- default `covars_prior`, hmm.py:593-613 -/
  prior : (nf : Nat) → α
  /-- default `covars_weight` -/
  weight : (nf : Nat) → α
  /-- densities and M-step, from `covars_prior` and `covars_weight` -/
  kind : (nc nf : Nat) → Tensor α → Tensor α → Gmm.Kind α nc nm nf (C nc nf)
  /-- an array of the right shape as `C` -/
  read : (nc nf : Nat) → Tensor α → C nc nf
  /-- and back -/
  write : {nc nf : Nat} → C nc nf → Tensor α
  /-- the checks of hmm.py:699-732, given the right shape -/
  valid : (nc nf : Nat) → C nc nf → Bool
  /-- the initial value, hmm.py:575-591, from the template covariance -/
  init : (nc : Nat) → {d : Nat} → (Fin d → Fin d → α) → Tensor α
  /-- the matrix used to sample from component `k` of state `i`, _emissions.py:297-307 -/
  cov : {nc nf : Nat} → C nc nf → Fin nc → Fin nm → Fin nf → Fin nf → α

section types
variable {nm : Nat}

/-- `np.any(covars_ < 0)` is false. -/
def noneNeg {m n : Nat} (v : Fin m → Fin n → α) : Bool :=
  (List.finRange m).all fun i => (List.finRange n).all fun j => !lt (v i j) 0

/-- A matrix that passes hmm.py:707-714 or :719-728: symmetric within tolerance, finite (`eigvalsh`
raises `ValueError` otherwise), no negative eigenvalue.  (`nf = 0` is not modelled.) -/
def symPsd (eig : Eigvalsh α) {n : Nat} (a : Fin n → Fin n → α) : Bool :=
  allcloseT a && ((List.finRange n).all fun i => (List.finRange n).all fun j => isFinite (a i j)) &&
    (List.finRange n).all fun i => !lt (eig n a i) 0

/-- `covariance_type="spherical"`. -/
def gmmSpherical : GmmType α nm where
  ty := .spherical
  C nc _ := Gmm.Mix α nc nm
  shape nc _ := [nc, nm]
  priorShape nc _ := [nc, nm]
  weightShape nc _ := [nc, nm]
  prior _ := Gmm.sphericalPrior nm
  weight _ := 0
  kind nc _ p w := Gmm.spherical (p.at2 nc nm) (w.at2 nc nm)
  read nc _ t := t.at2 nc nm
  write c := .of2 c
  valid _ _ c := noneNeg c
  init nc _ cv := .of2 (m := nc) (n := nm) fun _ _ =>
    meanL ((List.finRange _).map fun k => (List.finRange _).map fun l => cv k l).flatten
  cov c i k := scaledEye _ (c i k)

/-- `covariance_type="diag"`. -/
def gmmDiag : GmmType α nm where
  ty := .diag
  C nc nf := Gmm.Means α nc nm nf
  shape nc nf := [nc, nm, nf]
  priorShape nc nf := [nc, nm, nf]
  weightShape nc nf := [nc, nm, nf]
  prior _ := Gmm.diagPrior
  weight _ := 0
  kind nc nf p w := Gmm.diag (p.at3 nc nm nf) (w.at3 nc nm nf)
  read nc nf t := t.at3 nc nm nf
  write c := .of3 c
  valid nc _ c := (List.finRange nc).all fun i => noneNeg (c i)
  init nc _ cv := .of3 (l := nc) (m := nm) fun _ _ k => cv k k
  cov c i k := npDiag (c i k)

/-- `covariance_type="full"`. -/
def gmmFull (eig : Eigvalsh α) : GmmType α nm where
  ty := .full
  C nc nf := Fin nc → Fin nm → Gaussian.Sq α nf
  shape nc nf := [nc, nm, nf, nf]
  priorShape nc nf := [nc, nm, nf, nf]
  weightShape nc _ := [nc, nm]
  prior _ := 0
  weight nf := Gmm.fullWeight nf
  kind nc nf p w := Gmm.full (p.at4 nc nm nf nf) (w.at2 nc nm)
  read nc nf t := t.at4 nc nm nf nf
  write c := .of4 c
  valid nc _ c := (List.finRange nc).all fun i => (List.finRange nm).all fun k => symPsd eig (c i k)
  init nc _ cv := .of4 (k := nc) (l := nm) fun _ _ => cv
  cov c i k := c i k

/-- `covariance_type="tied"`: one matrix per state. -/
def gmmTied (eig : Eigvalsh α) : GmmType α nm where
  ty := .tied
  C nc nf := Fin nc → Gaussian.Sq α nf
  shape nc nf := [nc, nf, nf]
  priorShape nc nf := [nc, nf, nf]
  weightShape nc _ := [nc]
  prior _ := 0
  weight nf := Gmm.tiedWeight nm nf
  kind nc nf p w := Gmm.tied (p.at3 nc nf nf) fun i => w.data [i]
  read nc nf t := t.at3 nc nf nf
  write c := .of3 c
  valid nc _ c := (List.finRange nc).all fun i => symPsd eig (c i)
  init nc _ cv := .of3 (l := nc) fun _ => cv
  cov c i _ := c i

end types

variable {nm : Nat}

/-! ## Hyper-parameters -/

/-- `_init_covar_priors`, hmm.py:593-613. -/
def gmmInitPriors (T : GmmType α nm) (nf : Nat) (p : GmmAttrs α) : GmmAttrs α :=
  { p with
    covarsPrior := some (p.covarsPrior.getD (.scalar (T.prior nf)))
    covarsWeight := some (p.covarsWeight.getD (.scalar (T.weight nf))) }

/-- One of the assignments of `_fix_priors_shape`. -/
def fixOne (get : GmmAttrs α → Tensor α) (set : Tensor α → GmmAttrs α → GmmAttrs α)
    (shape : List Nat) : Py (GmmAttrs α) Unit := fun p =>
  match (get p).broadcastTo shape with
  | .ok t => (.ok (), set t p)
  | .error e => (.error e, p)

/-- `_fix_priors_shape`, hmm.py:615-648. -/
def gmmFixPriors (T : GmmType α nm) (nc nf : Nat) : Py (GmmAttrs α) Unit := do
  fixOne GmmAttrs.weightsPrior (fun t p => { p with weightsPrior := t }) [nc, nm]
  fixOne GmmAttrs.meansPrior (fun t p => { p with meansPrior := t }) [nc, nm, nf]
  fixOne GmmAttrs.meansWeight (fun t p => { p with meansWeight := t }) [nc, nm]
  fixOne (fun p => p.covarsPrior.getD (.scalar 0)) (fun t p => { p with covarsPrior := some t })
    (T.priorShape nc nf)
  fixOne (fun p => p.covarsWeight.getD (.scalar 0)) (fun t p => { p with covarsWeight := some t })
    (T.weightShape nc nf)

/-- Both. -/
def gmmPriors (T : GmmType α nm) (nc nf : Nat) : Py (GmmAttrs α) Unit := fun p =>
  gmmFixPriors T nc nf (gmmInitPriors T nf p)

omit [FloatLike α] in
/-- A method that only touches the attributes of the subclass. -/
def onSub {P β : Type} (m : Py P β) : Py (Est α G P) β := fun e =>
  ((m e.sub).1, { e with sub := (m e.sub).2 })

/-! ## `_check` -/

/-- The checks of hmm.py:666-732 once the hyper-parameters have their shapes. -/
def gmmCheckArrays (T : GmmType α nm) (nc nf : Nat) (p : GmmAttrs α) : Except PyErr Unit :=
  match p.weights with
  | none => .error (.attributeError "weights_")
  | some w =>
    if w.shape ≠ [nc, nm] then .error (.valueError "weights_ must have shape (n_components, n_mix)")
    else if !((List.finRange nc).all fun i => isclose (sumF (w.at2 nc nm i)) 1) then
      .error (.valueError "weights_ rows must sum to 1")
    else
      match p.means with
      | none => .error (.attributeError "means_")
      | some m =>
        if m.shape ≠ [nc, nm, nf] then
          .error (.valueError "means_ must have shape (n_components, n_mix, n_features)")
        else
          match p.covars with
          | none => .error (.attributeError "covars_")
          | some c =>
            if c.shape ≠ T.shape nc nf then .error (.valueError "mixture covars must have shape")
            else if !T.valid nc nf (T.read nc nf c) then .error (.valueError "mixture covars")
            else .ok ()

/-- `n_features` from `means_.shape[2]` if unset, hmm.py:652-653. -/
def gmmCheckFeatures (e : Est α G (GmmAttrs α)) : Except PyErr Nat :=
  match e.nFeatures with
  | some nf => .ok nf
  | none =>
    match e.sub.means with
    | none => .error (.attributeError "means_")
    | some m =>
      match m.shape[2]? with
      | none => .error .indexError
      | some nf => .ok nf

/-- `_check` after `super()._check()`, hmm.py:650-732. -/
def gmmCheck (T : GmmType α nm) : Py (Est α G (GmmAttrs α)) Unit := fun e =>
  match gmmCheckFeatures e with
  | .error err => (.error err, e)
  | .ok nf =>
    let e := { e with nFeatures := some nf }
    match gmmPriors T e.nComponents nf e.sub with
    | (.error err, p) => (.error err, { e with sub := p })
    | (.ok _, p) => (gmmCheckArrays T e.nComponents nf p, { e with sub := p })

/-! ## `_init` -/

/-- `n` calls one after another. -/
def seqMany {σ β : Type} (f : Nat → Py σ β) : (n : Nat) → Py σ (Fin n → β)
  | 0 => pure Fin.elim0
  | n + 1 => do
    let v ← seqMany f n
    let x ← f n
    return Fin.snoc (α := fun _ => β) v x

omit [FloatLike α] in
/-- Draws from the generator behind `np.random`. -/
def withGlobalGen {P β : Type} (f : G → β × G) : Py (World α G P) β := fun w =>
  (.ok (f w.glob).1, { w with glob := (f w.glob).2 })

/-- `KMeans.predict` for one sample: the nearest centre (the first of several). -/
def nearest {n d : Nat} (centres : Fin n → Fin d → α) (x : Fin d → α) : Nat :=
  let dist (i : Fin n) : α := sumF fun k => (x k - centres i k) * (x k - centres i k)
  ((List.finRange n).foldl (fun (best : Option (Fin n)) i =>
    match best with
    | none => some i
    | some b => if lt (dist i) (dist b) then some i else some b) none).elim 0 Fin.val

/-- `main_centroid`: the mean of the centres, hmm.py:551. -/
def centroid {n d : Nat} (centres : Fin n → Fin d → α) (k : Fin d) : α :=
  meanL ((List.finRange n).map fun i => centres i k)

/-- One pass of the loop over the clusters, hmm.py:553-567: the means of the mixture of one state.
With fewer than `n_mix` samples they are drawn from `np.random`, whatever `random_state` is. -/
def gmmClusterMeans (R : RandomLib α G) (nm : Nat) (minCovar : α) {d nc : Nat}
    (rows : List (Fin d → α)) (centres : Fin nc → Fin d → α) (label : Nat) :
    Py (World α G (GmmAttrs α)) (Fin nm → Fin d → α) :=
  let cluster := rows.filter fun x => nearest centres x == label
  if nm ≤ cluster.length then withSelfGen R (R.kmeans nm cluster)
  else withGlobalGen (drawMany (R.normal (centroid centres) (initCov minCovar rows)) nm)

/-- The assignments at the end of `_init`, hmm.py:569-591. -/
def gmmSet (T : GmmType α nm) (X : XArr α) {nc : Nat} (means : Fin nc → Fin nm → Fin X.d → α)
    (ip : List Char) (p : GmmAttrs α) : GmmAttrs α :=
  { p with
    weights := if needsInit ip 'w' p.weights.isSome then
        some (.of2 (m := nc) (n := nm) fun _ _ => 1 / ofNat' nm) else p.weights
    means := if needsInit ip 'm' p.means.isSome then some (.of3 means) else p.means
    covars := if needsInit ip 'c' p.covars.isSome then
        some (T.init nc (initCov p.minCovar X.floatRows)) else p.covars
    covarsInt := if needsInit ip 'c' p.covars.isSome then false else p.covarsInt }

/-- `_init` after `super()._init`, hmm.py:535-591. -/
def gmmInit (T : GmmType α nm) (R : RandomLib α G) (X : XArr α) :
    Py (World α G (GmmAttrs α)) Unit := do
  let w ← Py.get
  onEst (onSub (gmmPriors T w.est.nComponents (w.est.nFeatures.getD 0)))
  if X.n < w.est.nComponents then Py.raise (.valueError "n_samples should be >= n_clusters")
  else
    let centres ← withSelfGen R (R.kmeans w.est.nComponents X.floatRows)
    let means ← seqMany (gmmClusterMeans R nm w.est.sub.minCovar X.floatRows centres) w.est.nComponents
    onEst (onSub (Py.modify (gmmSet T X means w.est.initParams)))

/-! ## Sampling -/

/-- `RandomState.choice(n, p=p)` of numpy: `p` must be non-negative and sum to one within
`sqrt(eps) = 2^-26`; then `cdf.searchsorted(u, side="right")` with `cdf = p.cumsum() / p.sum()`. -/
def npChoice (R : RandomLib α G) {n : Nat} [NeZero n] (p : Fin n → α) (g : G) :
    Except PyErr (Fin n) × G :=
  let s := sumF p
  if isNaN s then (.error (.valueError "probabilities contain NaN"), g)
  else if (List.finRange n).any fun j => lt (p j) 0 then
    (.error (.valueError "probabilities are not non-negative"), g)
  else if lt (ofRat (1 / 2 ^ 26)) (abs (s - 1)) then
    (.error (.valueError "probabilities do not sum to 1"), g)
  else
    let (u, g) := R.rand g
    (.ok (argmaxBool fun j => lt u (cumsum p j / cumsum p (Fin.ofNat n (n - 1)))), g)

/-- `_generate_sample_from_state`, _emissions.py:294-307. -/
def gmmSample (T : GmmType α nm) [NeZero nm] (R : RandomLib α G) {nc nf : Nat}
    (θ : Gmm.Params α nc nm nf (T.C nc nf)) (z : Fin nc) (g : G) : Except PyErr (Fin nf → α) × G :=
  match npChoice R (θ.weights z) g with
  | (.error e, g) => (.error e, g)
  | (.ok k, g) =>
    let (x, g) := R.normal (θ.means z k) (T.cov θ.covars z k) g
    (.ok x, g)

/-! ## The class -/

/-- `stats['m_n'] = lambdas[:, :, None] * mus` and `stats['c_n'] = np.zeros_like(self.covars_)`, _emissions.py:227-230,
are integer arrays when their operands are; the in-place additions of floats at :269 and :292 then raise
`UFuncTypeError`, a `TypeError` (`mi`, `ci`: whether they are). -/
def gmmInPlace {nc nf : Nat} {P S : Type} (mi ci : Bool) (E : Emission α nc (Fin nf → α) P S) :
    Emission α nc (Fin nf → α) P S :=
  { E with acc := fun params p st X post => do
      let st' ← E.acc params p st X post
      if (mi && 'm' ∈ params) || (ci && 'c' ∈ params) then .error .typeError else .ok st' }

/-- `GMMHMM`. -/
def gmmSub (T : GmmType α nm) [NeZero nm] : Sub α G (GmmAttrs α) where
  Obs nf := Fin nf → α
  Params nc nf := Gmm.Params α nc nm nf (T.C nc nf)
  Stats nc nf := Gmm.Stats α nc nm nf (T.C nc nf)
  rows := gaussRows
  emission p nc nf := gmmInPlace p.meansInt p.covarsInt (Gmm.emission
    (T.kind nc nf (p.covarsPrior.getD (.scalar 0)) (p.covarsWeight.getD (.scalar 0)))
    ⟨p.weightsPrior.at2 nc nm, p.meansPrior.at3 nc nm nf, p.meansWeight.at2 nc nm⟩)
  read p nc nf := do
    let w ← p.weights
    let m ← p.means
    let c ← p.covars
    if w.shape = [nc, nm] ∧ m.shape = [nc, nm, nf] ∧ c.shape = T.shape nc nf then
      return ⟨w.at2 nc nm, m.at3 nc nm nf, T.read nc nf c⟩
    else none
  write θ p := { p with
    weights := some (.of2 θ.weights), means := some (.of3 θ.means), covars := some (T.write θ.covars) }
  checkFeatures := checkFeaturesBase
  -- _emissions.py:186-201
  nFit e := gmmNFit T.ty e.nComponents nm (e.nFeatures.getD 0 : Nat)
  initSub := gmmInit T
  checkSub := gmmCheck T
  sampleSub R _ {_ _} θ z g := gmmSample T R θ z g

end Verif
