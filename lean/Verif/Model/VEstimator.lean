import Verif.Model.Estimators
import Verif.Model.Variational

/-!
# The variational estimator objects

`VariationalBaseHMM`, src/hmmlearn/base.py:1031-1271, and `VariationalCategoricalHMM`,
src/hmmlearn/vhmm.py:19-231, on the attributes as the user may have left them: constructor arguments,
`_init`, `_check`, `fit` and the inference methods inherited from `_AbstractHMM`, base.py:129-778.

Not modelled: what `Verif/Model/Estimator.lean` leaves out; the attributes `*_subnorm_` (written and read
inside one E-step).
-/

set_option autoImplicit false

namespace Verif
open FloatLike

variable {α G Q : Type} [FloatLike α]

/-! ## Broadcasting -/

/-- The index map of numpy's broadcasting of an axis of length `m` to length `n`. -/
def bcastIdx (m n : Nat) : Option (Fin n → Fin m) :=
  if h : m = n then some fun i => i.cast h.symm
  else if h : m = 1 then some fun _ => ⟨0, by omega⟩
  else none

/-- `np.full(n, a)`: a scalar, or an array that broadcasts (leading axes of length one are dropped). -/
def fullRow (n : Nat) : NdArray α → Except PyErr (Fin n → α)
  | .d0 x => .ok fun _ => x
  | @NdArray.d1 _ m v =>
    match bcastIdx m n with
    | some f => .ok fun i => v (f i)
    | none => .error (.valueError "could not broadcast input array")
  | @NdArray.d2 _ 1 m v =>
    match bcastIdx m n with
    | some f => .ok fun i => v 0 (f i)
    | none => .error (.valueError "could not broadcast input array")
  | @NdArray.d3 _ 1 1 m v =>
    match bcastIdx m n with
    | some f => .ok fun i => v 0 0 (f i)
    | none => .error (.valueError "could not broadcast input array")
  | _ => .error (.valueError "could not broadcast input array")

/-- `np.full((m, n), a)`. -/
def fullMat (m n : Nat) : NdArray α → Except PyErr (Fin m → Fin n → α)
  | .d0 x => .ok fun _ _ => x
  | @NdArray.d1 _ n' v =>
    match bcastIdx n' n with
    | some f => .ok fun _ j => v (f j)
    | none => .error (.valueError "could not broadcast input array")
  | @NdArray.d2 _ m' n' v =>
    match bcastIdx m' m, bcastIdx n' n with
    | some f, some g => .ok fun i j => v (f i) (g j)
    | _, _ => .error (.valueError "could not broadcast input array")
  | @NdArray.d3 _ 1 m' n' v =>
    match bcastIdx m' m, bcastIdx n' n with
    | some f, some g => .ok fun i j => v 0 (f i) (g j)
    | _, _ => .error (.valueError "could not broadcast input array")
  | _ => .error (.valueError "could not broadcast input array")

/-! ## The object -/

/-- Attributes of `VariationalBaseHMM`. -/
structure VChain (α : Type) where
  /-- constructor arguments `startprob_prior`, `transmat_prior` (`none`: `None`), base.py:1046-1047 -/
  startprobPrior : Option (NdArray α) := none
  transmatPrior : Option (NdArray α) := none
  /-- `startprob_prior_` -/
  startPrior : Option (NdArray α) := none
  /-- `startprob_posterior_` -/
  startPost : Option (NdArray α) := none
  /-- `transmat_prior_` -/
  transPrior : Option (NdArray α) := none
  /-- `transmat_posterior_` -/
  transPost : Option (NdArray α) := none

/-- Attributes of a variational estimator: those of `VariationalBaseHMM` and those of the subclass. -/
structure VAttrs (α Q : Type) where
  chain : VChain α
  sub : Q

/-- A variational estimator.  The fields `startprobPrior`, `transmatPrior` of `Est` (arrays of
`BaseHMM`) have no counterpart here and are not used. -/
abbrev VEst (α G Q : Type) := Est α G (VAttrs α Q)

/-! ## What a subclass supplies -/

/-- The methods of a variational subclass. -/
structure VSub (α G Q : Type) [FloatLike α] where
  sci : Sci α
  /-- What the inherited inference methods use: the rows of `X`, `_compute_likelihood`,
  `_compute_log_likelihood` at the point parameters, `_generate_sample_from_state`,
  `_check_and_set_n_features`, `_get_n_fit_scalars_per_param`.  Its `_init`, `_check`, M-step and
  statistics are not used. -/
  core : Sub α G (VAttrs α Q)
  Post : Nat → Nat → Type
  Prior : Nat → Nat → Type
  Weights : Nat → Nat → Type
  Stats : Nat → Nat → Type
  emission : {nc nf : Nat} → Prior nc nf →
    VEmission α nc (core.Obs nf) (Post nc nf) (Weights nc nf) (Stats nc nf)
  /-- the attributes `*_prior_` of the emissions, when they have the expected shapes -/
  readPrior : Q → (nc nf : Nat) → Option (Prior nc nf)
  /-- the attributes `*_posterior_` and the point parameters of the emissions -/
  readPost : Q → (nc nf : Nat) → Option (Post nc nf)
  /-- their assignment -/
  writePost : {nc nf : Nat} → Post nc nf → Q → Q
  /-- `_init`, after `super()._init(X, lengths)` -/
  initSub : RandomLib α G → XArr α → List Int → Py (World α G (VAttrs α Q)) Unit
  /-- `_check` -/
  check : Py (VEst α G Q) Unit

/-! ## `_init` -/

/-- The draws of `VariationalBaseHMM._init`, base.py:1064-1089: Dirichlet draws times the number of
sequences and of samples per state. -/
def vinitDraws (R : RandomLib α G) (nc : Nat) (needS needT : Bool) (lens : List Int) (g : G) :
    (Option (NdArray α) × Option (NdArray α)) × G :=
  let a : Fin nc → α := fun _ => 1 / ofNat' nc
  let (s, g) := if needS then
      let (v, g) := R.dirichlet a g
      (some (NdArray.d1 fun i => v i * ofNat' lens.length), g)
    else (none, g)
  let (t, g) := if needT then
      let (v, g) := drawMany (R.dirichlet a) nc g
      (some (NdArray.d2 fun i j => v i j * (ofInt' lens.sum / ofNat' nc)), g)
    else (none, g)
  ((s, t), g)

/-- `startprob_prior_`, base.py:1068-1073. -/
def startPriorOf (nc : Nat) : Option (NdArray α) → Except PyErr (Fin nc → α)
  | none => .ok fun _ => 1 / ofNat' nc
  | some a => fullRow nc a

/-- `transmat_prior_`, base.py:1079-1084. -/
def transPriorOf (nc : Nat) : Option (NdArray α) → Except PyErr (Fin nc → Fin nc → α)
  | none => .ok fun _ _ => 1 / ofNat' nc
  | some a => fullMat nc nc a

/-- base.py:1066-1067: one of the two attributes is missing, or `init_params` contains `'s'`. -/
def needsStart (e : VEst α G Q) : Bool :=
  needsInit e.initParams 's' e.sub.chain.startPost.isSome || needsInit e.initParams 's' e.sub.chain.startPrior.isSome

/-- base.py:1077-1078. -/
def needsTrans (e : VEst α G Q) : Bool :=
  needsInit e.initParams 't' e.sub.chain.transPost.isSome || needsInit e.initParams 't' e.sub.chain.transPrior.isSome

/-- An exception that is raised only where the value is needed. -/
def whenNeeded {β : Type} (need : Bool) (r : Except PyErr β) : Except PyErr (Option β) :=
  if need then r.map some else .ok none

/-- `VariationalBaseHMM._init`, base.py:1051-1099.  A `transmat_prior` that does not broadcast raises after
the start distribution was initialised. -/
def VSub.initBase (V : VSub α G Q) (R : RandomLib α G) (X : XArr α) (lens : List Int) :
    Py (World α G (VAttrs α Q)) Unit := do
  onEst (V.core.checkFeatures X)
  let w ← Py.get
  let e := w.est
  let needS := needsStart e
  let needT := needsTrans e
  let sp ← Py.lift (whenNeeded needS (startPriorOf e.nComponents e.sub.chain.startprobPrior))
  let tp := whenNeeded needT (transPriorOf e.nComponents e.sub.chain.transmatPrior)
  let (s, t) ← withSelfGen R (vinitDraws R e.nComponents needS (needT && tp.toBool) lens)
  onEst (Py.modify fun e => { e with sub := { e.sub with chain := { e.sub.chain with
    startPrior := sp.map NdArray.d1 <|> e.sub.chain.startPrior
    startPost := s <|> e.sub.chain.startPost } } })
  let tp ← Py.lift tp
  onEst (Py.modify fun e => { e with sub := { e.sub with chain := { e.sub.chain with
    transPrior := tp.map NdArray.d2 <|> e.sub.chain.transPrior
    transPost := t <|> e.sub.chain.transPost } } })
  let w ← Py.get
  let table := V.core.nFit w.est
  match w.est.params.find? fun c => !(table.any fun p => p.1 == c) with
  | some c => Py.raise (.keyError (String.ofList [c]))
  | none => pure ()

/-- `_init` of the class. -/
def VSub.init (V : VSub α G Q) (R : RandomLib α G) (X : XArr α) (lens : List Int) :
    Py (World α G (VAttrs α Q)) Unit := do
  V.initBase R X lens
  V.initSub R X lens

/-! ## `_check` -/

/-- `len(a) != n` for an attribute that may be missing or a scalar. -/
def checkLen (name : String) (n : Nat) : Option (NdArray α) → Except PyErr Unit
  | none => .error (.attributeError name)
  | some a =>
    match a.shape with
    | [] => .error .typeError
    | m :: _ => if m ≠ n then .error (.valueError (name ++ " must have length n_components")) else .ok ()

/-- `a.shape != shape` for an attribute that may be missing. -/
def checkShape (name : String) (shape : List Nat) : Option (NdArray α) → Except PyErr Unit
  | none => .error (.attributeError name)
  | some a => if a.shape ≠ shape then .error (.valueError (name ++ " has the wrong shape")) else .ok ()

/-- `VariationalBaseHMM._check`, base.py:1122-1150: shapes only. -/
def vcheckBase (e : VEst α G Q) : Except PyErr Unit := do
  checkLen "startprob_prior_" e.nComponents e.sub.chain.startPrior
  checkLen "startprob_posterior_" e.nComponents e.sub.chain.startPost
  checkShape "transmat_prior_" [e.nComponents, e.nComponents] e.sub.chain.transPrior
  checkShape "transmat_posterior_" [e.nComponents, e.nComponents] e.sub.chain.transPost

/-! ## `fit` -/

/-- The attributes as the loop of `fit` reads them. -/
structure VReady (V : VSub α G Q) (e : VEst α G Q) where
  nf : Nat
  pos : e.nComponents ≠ 0
  startPrior : Fin e.nComponents → α
  transPrior : Fin e.nComponents → Fin e.nComponents → α
  prior : V.Prior e.nComponents nf
  θ : VTheta α e.nComponents (V.Post e.nComponents nf)

/-- `none` for shapes that `_check` lets through and that are not modelled (`startprob_posterior_` or
`startprob_prior_` with more than one axis).  Training does not read `startprob_` and `transmat_`: one that is missing
or was set by the user with another shape stays as it is until the M step assigns it. -/
def VSub.ready (V : VSub α G Q) (e : VEst α G Q) : Option (VReady V e) :=
  if h : e.nComponents = 0 then none
  else
    match e.nFeatures with
    | none => none
    | some nf => do
      let sp ← e.sub.chain.startPrior.bind (asRow e.nComponents)
      let tp ← e.sub.chain.transPrior.bind (asMat e.nComponents e.nComponents)
      let s ← e.sub.chain.startPost.bind (asRow e.nComponents)
      let t ← e.sub.chain.transPost.bind (asMat e.nComponents e.nComponents)
      let pr ← V.readPrior e.sub.sub e.nComponents nf
      let q ← V.readPost e.sub.sub e.nComponents nf
      return ⟨nf, h, sp, tp, pr, ⟨s, t, e.startprob.bind (asRow e.nComponents),
        e.transmat.bind (asMat e.nComponents e.nComponents), q⟩⟩

/-- The attributes after training; a point parameter that was not computed stays as it was. -/
def VSub.put (V : VSub α G Q) (e : VEst α G Q) {nf : Nat}
    (θ : VTheta α e.nComponents (V.Post e.nComponents nf)) (mon : Monitor α) : VEst α G Q :=
  { e with
    startprob := θ.startprob.map NdArray.d1 <|> e.startprob
    transmat := θ.transmat.map NdArray.d2 <|> e.transmat
    sub :=
      { chain := { e.sub.chain with startPost := some (.d1 θ.startPost), transPost := some (.d2 θ.transPost) }
        sub := V.writePost θ.emission e.sub.sub }
    monitor := mon }

/-- The loop of `fit`, base.py:483-500, with `self.monitor_._reset()`. -/
def VSub.loop (V : VSub α G Q) (X : XArr α) (lengths : Option (List Int)) : Py (VEst α G Q) Unit := fun e =>
  if e.nIter = 0 then (.ok (), { e with monitor := e.monitor.reset })
  else
    match implOf e.implementation with
    | .error err => (.error err, { e with monitor := e.monitor.reset })
    | .ok impl =>
      match V.ready e with
      | none => (.error .notImplemented, { e with monitor := e.monitor.reset })
      | some r =>
        match V.core.rows r.nf X with
        | .error err => (do
            let _ ← splitXLengths (List.replicate X.n ()) lengths
            .error err, { e with monitor := e.monitor.reset })
        | .ok rows =>
          haveI : NeZero e.nComponents := ⟨r.pos⟩
          let cfg : Config α e.nComponents := ⟨r.startPrior, r.transPrior, e.params, impl, e.nIter⟩
          let out := (V.emission r.prior).fitFrom V.sci cfg rows lengths r.θ e.monitor
          (match out.raised with
            | none => .ok ()
            | some err => .error err,
            V.put e out.state out.monitor)

/-- `fit`, base.py:453-500. -/
def VSub.fit (V : VSub α G Q) (R : RandomLib α G) (X : RawX α) (lengths : Option (List Int)) :
    Py (World α G (VAttrs α Q)) Unit := do
  let X ← Py.lift (checkArray X)
  V.init R X (lengths.getD [(X.n : Int)])
  onEst V.check
  onEst (V.loop X lengths)

/-! ## The inference methods -/

/-- `check_is_fitted(self, "startprob_")` and `self._check()`, base.py:242-243, :335-336, :427-428. -/
def VSub.checkFitted (V : VSub α G Q) : Py (VEst α G Q) Unit := do
  let e ← Py.get
  if e.startprob.isNone then Py.raise .notFitted else V.check

/-- `_score`, base.py:233-249. -/
def VSub.scoreSamples (V : VSub α G Q) (X : RawX α) (lengths : Option (List Int)) (post : Bool) :
    Py (VEst α G Q) (α × List (List α)) := do
  V.checkFitted
  V.core.scoreBody X lengths post

/-- `decode`, base.py:300-356. -/
def VSub.decode (V : VSub α G Q) (X : RawX α) (lengths : Option (List Int)) (algorithm : Option String) :
    Py (VEst α G Q) (α × List Nat) := do
  V.checkFitted
  V.core.decodeBody X lengths algorithm

/-- `score`, base.py:209-231. -/
def VSub.score (V : VSub α G Q) (X : RawX α) (lengths : Option (List Int)) : Py (VEst α G Q) α := do
  let r ← V.scoreSamples X lengths false
  return r.1

/-- `predict_proba`, base.py:378-396. -/
def VSub.predictProba (V : VSub α G Q) (X : RawX α) (lengths : Option (List Int)) :
    Py (VEst α G Q) (List (List α)) := do
  let r ← V.scoreSamples X lengths true
  return r.2

/-- `predict`, base.py:358-376. -/
def VSub.predict (V : VSub α G Q) (X : RawX α) (lengths : Option (List Int)) :
    Py (VEst α G Q) (List Nat) := do
  let r ← V.decode X lengths none
  return r.2

/-- `sample`, base.py:398-448. -/
def VSub.sample (V : VSub α G Q) (R : RandomLib α G) (n : Int) (seed : Option Nat) (currstate : Option Nat) :
    Py (World α G (VAttrs α Q)) (List Nat × ((nf : Nat) × List (V.core.Obs nf))) := do
  onEst V.checkFitted
  V.core.sampleBody R n seed currstate

/-! ## VariationalCategoricalHMM -/

/-- Attributes of `VariationalCategoricalHMM` (`n_features` is among the base attributes). -/
structure VCatAttrs (α : Type) where
  /-- constructor argument `emissionprob_prior` (`none`: `None`), vhmm.py:135 -/
  emissionprobPrior : Option (NdArray α) := none
  /-- `emissionprob_prior_` -/
  emPrior : Option (NdArray α) := none
  /-- `emissionprob_posterior_` -/
  emPost : Option (NdArray α) := none
  /-- `emissionprob_` -/
  emissionprob : Option (NdArray α) := none

/-- `_init`, vhmm.py:138-158.  Only `emissionprob_posterior_` is tested.  `alpha=[init] * n_features` is
one-dimensional only for a scalar `init`; otherwise numpy raises `ValueError` ("object too deep for desired
array"), as for a concentration that is not positive. -/
def vcatInit (R : RandomLib α G) (_X : XArr α) (lens : List Int) : Py (World α G (VAttrs α (VCatAttrs α))) Unit := do
  let w ← Py.get
  let e := w.est
  let nc := e.nComponents
  let nf := e.nFeatures.getD 0
  if needsInit e.initParams 'e' e.sub.sub.emPost.isSome then
    let init : NdArray α := e.sub.sub.emissionprobPrior.getD (.d0 (1 / ofNat' nf))
    let p ← Py.lift (fullMat nc nf init)
    onEst (Py.modify fun e => { e with sub := { e.sub with sub := { e.sub.sub with emPrior := some (.d2 p) } } })
    match init with
    | .d0 x =>
      if le x 0 then Py.raise (.valueError "alpha <= 0")
      else
        let v ← withSelfGen R (drawMany (R.dirichlet fun _ : Fin nf => x) nc)
        onEst (Py.modify fun e => { e with sub := { e.sub with sub := { e.sub.sub with
          emPost := some (.d2 fun i k => v i k * ofInt' lens.sum / ofNat' nc) } } })
    | _ => Py.raise (.valueError "object too deep for desired array")
  else pure ()

/-- `_check`, vhmm.py:169-196. -/
def vcatCheck : Py (VEst α G (VCatAttrs α)) Unit := fun e =>
  match vcheckBase e with
  | .error err => (.error err, e)
  | .ok () =>
    match e.sub.sub.emPrior with
    | none => (.error (.attributeError "emissionprob_prior_"), e)
    | some pr =>
      let pr := atleast2d pr
      let e := { e with sub := { e.sub with sub := { e.sub.sub with emPrior := some pr } } }
      match e.sub.sub.emPost with
      | none => (.error (.attributeError "emissionprob_posterior_"), e)
      | some po =>
        let po := atleast2d po
        let e := { e with sub := { e.sub with sub := { e.sub.sub with emPost := some po } } }
        if pr.shape ≠ po.shape then (.error (.valueError "emissionprob_prior_ and emissionprob_posterior_"), e)
        else
          let e := if e.nFeatures.isNone then { e with nFeatures := po.shape[1]? } else e
          if po.shape ≠ [e.nComponents, e.nFeatures.getD 0] then
            (.error (.valueError "emissionprob_ must have shape"), e)
          else (.ok (), e)

/-- What `VariationalCategoricalHMM` inherits from `BaseCategoricalHMM`, _emissions.py:50-109. -/
def vcatCore : Sub α G (VAttrs α (VCatAttrs α)) where
  Obs _ := Int
  Params nc nf := Categorical.Params α nc nf
  Stats nc nf := Categorical.Params α nc nf
  rows _ := catRows
  emission _ _ _ := Categorical.emission fun _ _ => 1
  read p nc nf := p.sub.emissionprob.bind (asMat nc nf)
  write _ p := p
  checkFeatures := catCheckFeatures
  -- _emissions.py:70-77
  nFit e :=
    let nc : Int := e.nComponents
    let nf : Int := e.nFeatures.getD 0
    [('s', nc - 1), ('t', nc * (nc - 1)), ('e', nc * (nf - 1))]
  initSub _ _ := pure ()
  checkSub := pure ()
  -- _emissions.py:106-109
  sampleSub R _ {_ nf} θ z g :=
    let (u, g) := R.rand g
    if h : nf = 0 then (.error (.valueError "attempt to get argmax of an empty sequence"), g)
    else
      haveI : NeZero nf := ⟨h⟩
      (.ok ((argmaxBool fun j => lt u (cumsum (θ z) j)).val : Int), g)

/-- `VariationalCategoricalHMM`. -/
def vcatSub (sci : Sci α) : VSub α G (VCatAttrs α) where
  sci := sci
  core := vcatCore
  Post nc nf := VCategorical.Params α nc nf
  Prior nc nf := Fin nc → Fin nf → α
  Weights nc nf := Categorical.Params α nc nf
  Stats nc nf := Categorical.Params α nc nf
  emission prior := VCategorical.emission sci prior
  readPrior p nc nf := p.emPrior.bind (asMat nc nf)
  readPost p nc nf := do
    let post ← p.emPost.bind (asMat nc nf)
    return ⟨post, p.emissionprob.bind (asMat nc nf)⟩
  writePost θ p :=
    { p with emPost := some (.d2 θ.post), emissionprob := θ.prob.map NdArray.d2 <|> p.emissionprob }
  initSub := vcatInit
  check := vcatCheck

end Verif
