import Verif.Model.VGaussEstimator
import Verif.Model.GmmEstimator

/-!
# What `_init` logs, src/hmmlearn/base.py:523-533, :937-945 and :1089-1097

`Sub.init` and `VSub.init` follow the attributes; here `_init` also keeps the warnings it sends to the logger.
Messages are their arguments, not their wording.
-/

set_option autoImplicit false

namespace Verif
open FloatLike

/-- A warning of `_init`. -/
inductive InitWarning where
  /-- "Even though the %r attribute is set, it will be overwritten", base.py:526-529 -/
  | overwritten (name : String) (code : Char)
  /-- "Fitting a model with %d free scalar parameters with only %d data points", base.py:942-945, :1094-1097 -/
  | degenerate (scalars : Int) (points : Nat)
  deriving DecidableEq

/-- A call that logs: what it logs, and what it does. -/
def Logged (σ β : Type) := σ → List InitWarning × (Except PyErr β × σ)

namespace Logged
variable {σ β γ : Type}

instance : Monad (Logged σ) where
  pure b := fun s => ([], (.ok b, s))
  bind x f := fun s =>
    match x s with
    | (l, (.ok b, s')) => (l ++ (f b s').1, (f b s').2)
    | (l, (.error e, s')) => (l, (.error e, s'))

/-- A call that logs nothing. -/
def quiet (m : Py σ β) : Logged σ β := fun s => ([], m s)

/-- `_log.warning`. -/
def warn (e : InitWarning) : Logged σ Unit := fun s => ([e], (.ok (), s))

end Logged

open Logged

/-- `_needs_init`, base.py:523-533. -/
def needsInitLog {σ : Type} (initParams : List Char) (code : Char) (name : String) (isSet : Bool) : Logged σ Bool :=
  if code ∈ initParams then do
    if isSet then warn (.overwritten name code) else pure ()
    pure true
  else if !isSet then pure true
  else pure false

/-- A disjunction of calls of `_needs_init` with the same code: the calls after the first that holds are not made. -/
def anyNeedsInitLog {σ : Type} (initParams : List Char) (code : Char) : List (String × Bool) → Logged σ Bool
  | [] => pure false
  | (name, isSet) :: rest => do
    if ← needsInitLog initParams code name isSet then pure true
    else anyNeedsInitLog initParams code rest

/-- `n_fit_scalars_per_param[p]`. -/
def fitScalars (table : List (Char × Int)) (p : Char) : Except PyErr Int :=
  match table.lookup p with
  | some n => .ok n
  | none => .error (.keyError (String.ofList [p]))

/-- `sum(n_fit_scalars_per_param[p] for p in self.params)`, base.py:939-940 and :1091-1092. -/
def sumFitScalars (table : List (Char × Int)) : List Char → Except PyErr Int
  | [] => .ok 0
  | p :: ps => do
    let n ← fitScalars table p
    let m ← sumFitScalars table ps
    .ok (n + m)

/-- base.py:937-945 and :1089-1097. -/
def checkSizeLog {σ : Type} (table : List (Char × Int)) (params : List Char) (size : Nat) : Logged σ Unit := do
  let n ← quiet (Py.lift (sumFitScalars table params))
  if (size : Int) < n then warn (.degenerate n size) else pure ()

section
variable {α G P : Type} [FloatLike α]

omit [FloatLike α] in
/-- `X.size`. -/
def XArr.size (X : XArr α) : Nat := X.n * X.d

/-- `BaseHMM._init`, base.py:919-945. -/
def Sub.initBaseLog (S : Sub α G P) (R : RandomLib α G) (X : XArr α) : Logged (World α G P) Unit := do
  quiet (onEst (S.checkFeatures X))
  let w ← quiet Py.get
  let e := w.est
  let needS ← needsInitLog e.initParams 's' "startprob_" e.startprob.isSome
  let needT ← needsInitLog e.initParams 't' "transmat_" e.transmat.isSome
  let (s, t) ← quiet (withSelfGen R (initDraws R e.nComponents needS needT))
  quiet (onEst (Py.modify fun e => { e with startprob := s <|> e.startprob, transmat := t <|> e.transmat }))
  let w ← quiet Py.get
  checkSizeLog (S.nFit w.est) w.est.params X.size

/-- `_init` of the class: `BaseHMM._init`, then what the class adds. -/
def Sub.initLog (S : Sub α G P) (own : RandomLib α G → XArr α → Logged (World α G P) Unit) (R : RandomLib α G)
    (X : XArr α) : Logged (World α G P) Unit := do
  S.initBaseLog R X
  own R X

/-- hmm.py:131-136. -/
def catInitLog (R : RandomLib α G) (_X : XArr α) : Logged (World α G (CatAttrs α)) Unit := do
  quiet (storeGen R)
  let w ← quiet Py.get
  let e := w.est
  if ← needsInitLog e.initParams 'e' "emissionprob_" e.sub.emissionprob.isSome then
    let v ← quiet (withSelfGen R (randRows R e.nComponents (e.nFeatures.getD 0)))
    quiet (onEst (Py.modify fun e => { e with sub := { e.sub with emissionprob := some (.d2 v) } }))
  else pure ()

/-- hmm.py:915-922: `_needs_init` is not called. -/
def multiInitLog (R : RandomLib α G) (X : XArr α) : Logged (World α G (MultiAttrs α)) Unit := quiet (multiInit R X)

/-- hmm.py:1029-1044. -/
def poisInitLog (R : RandomLib α G) (X : XArr α) : Logged (World α G (PoisAttrs α)) Unit := do
  quiet (storeGen R)
  let w ← quiet Py.get
  let e := w.est
  if ← needsInitLog e.initParams 'l' "lambdas_" e.sub.lambdas.isSome then
    let m := meanL X.flat
    let s := varL X.flat
    let v ← quiet (withSelfGen R (drawMany (drawMany (R.gamma (m * m / s) (s / m)) (e.nFeatures.getD 0))
      e.nComponents))
    quiet (onEst (Py.modify fun e => { e with sub := { e.sub with lambdas := some (.d2 v) } }))
  else pure ()

/-- hmm.py:310-315. -/
def gaussInitMeansLog (R : RandomLib α G) (X : XArr α) : Logged (World α G (GaussAttrs α)) Unit := do
  let w ← quiet Py.get
  let e := w.est
  if ← needsInitLog e.initParams 'm' "means_" e.sub.means.isSome then
    if X.n < e.nComponents then quiet (Py.raise (.valueError "n_samples should be >= n_clusters"))
    else
      let v ← quiet (withSelfGen R (R.kmeans e.nComponents X.floatRows))
      quiet (onEst (Py.modify fun e => { e with sub := { e.sub with means := some (.d2 v) } }))
  else pure ()

/-- hmm.py:316-322. -/
def gaussInitCovarsLog (eig : Eigvalsh α) (ty : CovType) (X : XArr α) : Logged (World α G (GaussAttrs α)) Unit := do
  let w ← quiet Py.get
  let e := w.est
  if ← needsInitLog e.initParams 'c' "covars_" e.sub.covars.isSome then
    let c ← quiet (Py.lift (setCovars eig ty e.nComponents
      (distributeCovar (initCov e.sub.minCovar X.floatRows) ty e.nComponents)))
    quiet (onEst (Py.modify fun e => { e with sub := { e.sub with covars := some c } }))
  else pure ()

/-- hmm.py:307-322. -/
def gaussInitLog (eig : Eigvalsh α) (ty : CovType) (R : RandomLib α G) (X : XArr α) :
    Logged (World α G (GaussAttrs α)) Unit := do
  gaussInitMeansLog R X
  gaussInitCovarsLog eig ty X

variable {nm : Nat}

/-- `if self._needs_init(code, name): m`. -/
def whenInit {σ : Type} (initParams : List Char) (code : Char) (name : String) (isSet : Bool) (m : Py σ Unit) :
    Logged σ Unit := do
  if ← needsInitLog initParams code name isSet then quiet m else pure ()

/-- hmm.py:569-591. -/
def gmmSetLog (T : GmmType α nm) (X : XArr α) {nc : Nat} (means : Fin nc → Fin nm → Fin X.d → α)
    (ip : List Char) : Logged (GmmAttrs α) Unit := do
  let p ← quiet Py.get
  whenInit ip 'w' "weights_" p.weights.isSome (Py.modify fun p => { p with
    weights := some (.of2 (m := nc) (n := nm) fun _ _ => 1 / ofNat' nm) })
  let p ← quiet Py.get
  whenInit ip 'm' "means_" p.means.isSome (Py.modify fun p => { p with means := some (.of3 means) })
  let p ← quiet Py.get
  whenInit ip 'c' "covars_" p.covars.isSome (Py.modify fun p => { p with
    covars := some (T.init nc (initCov p.minCovar X.floatRows))
    covarsInt := false })

omit [FloatLike α] in
/-- A method that does not use the generators. -/
def onEstLog {β : Type} (m : Logged (Est α G P) β) : Logged (World α G P) β := fun w =>
  ((m w.est).1, ((m w.est).2.1, { w with est := (m w.est).2.2 }))

omit [FloatLike α] in
/-- A method that only touches the attributes of the subclass. -/
def onSubLog {β : Type} (m : Logged P β) : Logged (Est α G P) β := fun e =>
  ((m e.sub).1, ((m e.sub).2.1, { e with sub := (m e.sub).2.2 }))

/-- hmm.py:535-591. -/
def gmmInitLog (T : GmmType α nm) (R : RandomLib α G) (X : XArr α) : Logged (World α G (GmmAttrs α)) Unit := do
  let w ← quiet Py.get
  quiet (onEst (onSub (gmmPriors T w.est.nComponents (w.est.nFeatures.getD 0))))
  if X.n < w.est.nComponents then quiet (Py.raise (.valueError "n_samples should be >= n_clusters"))
  else
    let centres ← quiet (withSelfGen R (R.kmeans w.est.nComponents X.floatRows))
    let means ← quiet (seqMany (gmmClusterMeans R nm w.est.sub.minCovar X.floatRows centres) w.est.nComponents)
    onEstLog (onSubLog (gmmSetLog T X means w.est.initParams))

end

section variational
variable {α G Q : Type} [FloatLike α]

/-- `VariationalBaseHMM._init`, base.py:1051-1099. -/
def VSub.initBaseLog (V : VSub α G Q) (R : RandomLib α G) (X : XArr α) (lens : List Int) :
    Logged (World α G (VAttrs α Q)) Unit := do
  quiet (onEst (V.core.checkFeatures X))
  let w ← quiet Py.get
  let e := w.est
  let c := e.sub.chain
  let needS ← anyNeedsInitLog e.initParams 's'
    [("startprob_posterior_", c.startPost.isSome), ("startprob_prior_", c.startPrior.isSome)]
  let sp ← quiet (Py.lift (whenNeeded needS (startPriorOf e.nComponents c.startprobPrior)))
  let needT ← anyNeedsInitLog e.initParams 't'
    [("transmat_posterior_", c.transPost.isSome), ("transmat_prior_", c.transPrior.isSome)]
  let tp := whenNeeded needT (transPriorOf e.nComponents c.transmatPrior)
  let (s, t) ← quiet (withSelfGen R (vinitDraws R e.nComponents needS (needT && tp.toBool) lens))
  quiet (onEst (Py.modify fun e => { e with sub := { e.sub with chain := { e.sub.chain with
    startPrior := sp.map NdArray.d1 <|> e.sub.chain.startPrior
    startPost := s <|> e.sub.chain.startPost } } }))
  let tp ← quiet (Py.lift tp)
  quiet (onEst (Py.modify fun e => { e with sub := { e.sub with chain := { e.sub.chain with
    transPrior := tp.map NdArray.d2 <|> e.sub.chain.transPrior
    transPost := t <|> e.sub.chain.transPost } } }))
  let w ← quiet Py.get
  checkSizeLog (V.core.nFit w.est) w.est.params X.size

/-- `_init` of the class. -/
def VSub.initLog (V : VSub α G Q)
    (own : RandomLib α G → XArr α → List Int → Logged (World α G (VAttrs α Q)) Unit) (R : RandomLib α G)
    (X : XArr α) (lens : List Int) : Logged (World α G (VAttrs α Q)) Unit := do
  V.initBaseLog R X lens
  own R X lens

/-- vhmm.py:147-160. -/
def vcatInitLog (R : RandomLib α G) (_X : XArr α) (lens : List Int) :
    Logged (World α G (VAttrs α (VCatAttrs α))) Unit := do
  let w ← quiet Py.get
  let e := w.est
  let nc := e.nComponents
  let nf := e.nFeatures.getD 0
  if ← needsInitLog e.initParams 'e' "emissionprob_posterior_" e.sub.sub.emPost.isSome then
    let init : NdArray α := e.sub.sub.emissionprobPrior.getD (.d0 (1 / ofNat' nf))
    let p ← quiet (Py.lift (fullMat nc nf init))
    quiet (onEst (Py.modify fun e => { e with sub := { e.sub with sub := { e.sub.sub with
      emPrior := some (.d2 p) } } }))
    match init with
    | .d0 x =>
      if le x 0 then quiet (Py.raise (.valueError "alpha <= 0"))
      else
        let v ← quiet (withSelfGen R (drawMany (R.dirichlet fun _ : Fin nf => x) nc))
        quiet (onEst (Py.modify fun e => { e with sub := { e.sub with sub := { e.sub.sub with
          emPost := some (.d2 fun i k => v i k * ofInt' lens.sum / ofNat' nc) } } }))
    | _ => quiet (Py.raise (.valueError "object too deep for desired array"))
  else pure ()

/-- vhmm.py:481-499. -/
def vgaussInitMeansLog {d : Nat} (X : List (Fin d → α)) (centres : NdArray α) (counts : List Nat) :
    Logged (VEst α G (VGaussAttrs α)) Unit := do
  let e ← quiet Py.get
  let q := e.sub.sub
  if ← anyNeedsInitLog e.initParams 'm' [("means_prior_", q.meansPri.isSome), ("means_posterior_", q.meansPost.isSome),
      ("beta_prior_", q.betaPri.isSome), ("beta_posterior_", q.betaPost.isSome)] then
    quiet (Py.modify fun e => { e with sub := { e.sub with sub := { e.sub.sub with
      meansPri := some (e.sub.sub.meansPrior.getD (.d2 (m := e.nComponents) fun _ k => meanL (X.map fun r => r k)))
      meansPost := some centres
      betaPri := some (e.sub.sub.betaPrior.getD (.d1 (n := e.nComponents) fun _ => 0 + 1))
      betaPost := some (countsArr counts) } } })
  else pure ()

/-- vhmm.py:501-562. -/
def vgaussInitCovarsLog (eig : Eigvalsh α) (ty : CovType) {d : Nat} (X : List (Fin d → α)) (counts : List Nat) :
    Logged (VEst α G (VGaussAttrs α)) Unit := do
  let e ← quiet Py.get
  let q := e.sub.sub
  if ← anyNeedsInitLog e.initParams 'c' [("dof_prior_", q.dofPri.isSome), ("dof_posterior_", q.dofPost.isSome),
      ("scale_prior_", q.scalePri.isSome), ("scale_posterior_", q.scalePost.isSome)] then
    quiet (Py.modify fun e => { e with sub := { e.sub with sub := { e.sub.sub with
      dofPri := some (e.sub.sub.dofPrior.getD (defaultDof ty e.nComponents (e.nFeatures.getD 0)))
      dofPost := some (initDofPost ty counts) } } })
    let c ← quiet (Py.lift (setCovars eig ty e.nComponents
      (distributeCovar (initCov (ofRat (1 / 1000)) X) ty e.nComponents)))
    quiet (Py.modify fun e => { e with sub := { e.sub with sub := { e.sub.sub with
      covars := some c
      scalePri := some (e.sub.sub.scalePrior.getD (defaultScale ty e.nComponents (e.nFeatures.getD 0))) } } })
    let s ← quiet (Py.lift (initScalePost ty counts c))
    quiet (Py.modify fun e => { e with sub := { e.sub with sub := { e.sub.sub with scalePost := some s } } })
  else pure ()

/-- vhmm.py:458-562. -/
def vgaussInitLog (eig : Eigvalsh α) (ty : CovType) (R : RandomLib α G) (X : XArr α) (_lens : List Int) :
    Logged (World α G (VAttrs α (VGaussAttrs α))) Unit := do
  let w ← quiet Py.get
  if h : w.est.nComponents = 0 then quiet (Py.raise (.valueError "n_clusters"))
  else if X.n < w.est.nComponents then quiet (Py.raise (.valueError "n_samples should be >= n_clusters"))
  else
    have : NeZero w.est.nComponents := ⟨h⟩
    let centres ← quiet (withSelfGen R (R.kmeans w.est.nComponents X.floatRows))
    let counts := clusterCounts centres X.floatRows
    onEstLog (vgaussInitMeansLog X.floatRows (.d2 centres) counts)
    onEstLog (vgaussInitCovarsLog eig ty X.floatRows counts)

end variational
end Verif
