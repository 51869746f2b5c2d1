import Verif.Model.Py
import Verif.Model.Train
import Verif.Model.NdArray

/-!
# The estimator objects: attributes, validation, initialisation and the public methods

src/hmmlearn/base.py.  The typed part of the model (`Verif/Model/Base.lean`, `Train.lean`) starts
after `_check` has passed; this file models what happens before, on the attributes as the user may
have left them: absent, of any shape and with any value.  What a subclass overrides is a `Sub`;
the four subclasses are in `Verif/Model/Estimators.lean`.

Not modelled here: warnings (`Verif/Model/InitLog.lean`, `FitLog.lean`), `verbose`, sklearn's `get_params`/`clone`, `n_components` that is not a
natural number, input that `check_array` would convert (lists, sparse matrices, strings).
-/

namespace Verif
open FloatLike

/-! ## Random numbers -/

/-- numpy's generator, as uninterpreted functions on its state `G`. -/
structure RandomLib (α G : Type) where
  /-- `np.random.RandomState(seed)` -/
  ofSeed : Nat → G
  /-- `.rand()` -/
  rand : G → α × G
  /-- `.dirichlet(a)` -/
  dirichlet : {n : Nat} → (Fin n → α) → G → (Fin n → α) × G
  /-- `.gamma(shape, scale)` -/
  gamma : α → α → G → α × G
  /-- `.poisson(lam)` -/
  poisson : α → G → Int × G
  /-- `scipy.stats.multinomial.rvs(n, p)` -/
  multinomial : {k : Nat} → Nat → (Fin k → α) → G → (Fin k → Int) × G
  /-- `.multivariate_normal(mean, cov)` -/
  normal : {k : Nat} → (Fin k → α) → (Fin k → Fin k → α) → G → (Fin k → α) × G
  /-- cluster centres of `KMeans(n_clusters=n, random_state=rng).fit(X)` -/
  kmeans : (n : Nat) → {d : Nat} → List (Fin d → α) → G → (Fin n → Fin d → α) × G

/-- `n` successive draws (numpy's `size=` argument). -/
def drawMany {β G : Type} (d : G → β × G) : (n : Nat) → G → (Fin n → β) × G
  | 0, g => (Fin.elim0, g)
  | n + 1, g =>
    let (x, g1) := d g
    let (v, g2) := drawMany d n g1
    (Fin.cons x v, g2)

/-- The `random_state` attribute.  `global` is the generator object behind `np.random`, which
`check_random_state(None)` returns; `gen` is a generator object owned by the estimator. -/
inductive RandomState (G : Type) where
  | none
  | global
  | seed (n : Nat)
  | gen (g : G)

/-! ## Input arrays -/

/-- The argument `X`, as an integer or a floating-point array. -/
inductive RawX (α : Type) where
  | ints (a : NdArray Int)
  | floats (a : NdArray α)

/-- `X` after `check_array`: a list of rows with `d` columns. -/
inductive XArr (α : Type) where
  | ints {d : Nat} (rows : List (Fin d → Int))
  | floats {d : Nat} (rows : List (Fin d → α))

namespace XArr
variable {α : Type}

/-- `X.shape[0]`. -/
def n : XArr α → Nat
  | ints rows => rows.length
  | floats rows => rows.length

/-- `X.shape[1]`. -/
def d : XArr α → Nat
  | @ints _ d _ => d
  | @floats _ d _ => d

end XArr

/-- `sklearn.utils.check_array(X)` with default options: two-dimensional, at least one row and one
column, all entries finite. -/
def checkArray {α : Type} [FloatLike α] : RawX α → Except PyErr (XArr α)
  | .ints (@NdArray.d2 _ m n v) =>
    if m = 0 ∨ n = 0 then .error (.valueError "Found array with 0 sample(s) or feature(s)")
    else .ok (.ints (List.ofFn v))
  | .floats (@NdArray.d2 _ m n v) =>
    if m = 0 ∨ n = 0 then .error (.valueError "Found array with 0 sample(s) or feature(s)")
    else if (List.finRange m).all fun i => (List.finRange n).all fun j => isFinite (v i j) then
      .ok (.floats (List.ofFn v))
    else .error (.valueError "Input contains NaN or infinity")
  | _ => .error (.valueError "Expected 2D array")

/-! ## The object -/

/-- Attributes of an estimator; `none` is an attribute that was never set.  `P` holds the
attributes of the subclass.  Priors are broadcast to functions of the indices. -/
structure Est (α G P : Type) where
  /-- constructor arguments, base.py:136-181 and :827-862 -/
  nComponents : Nat
  startprobPrior : Nat → α
  transmatPrior : Nat → Nat → α
  algorithm : String
  randomState : RandomState G
  nIter : Nat
  tol : α
  params : List Char
  initParams : List Char
  implementation : String
  /-- `monitor_` -/
  monitor : Monitor α
  /-- `startprob_` -/
  startprob : Option (NdArray α) := none
  /-- `transmat_` -/
  transmat : Option (NdArray α) := none
  /-- `n_features` -/
  nFeatures : Option Nat := none
  sub : P

/-- The estimator and the state of the generator behind `np.random`. -/
structure World (α G P : Type) where
  est : Est α G P
  glob : G

/-- Constructor arguments, base.py:827-832. -/
structure Args (α G P : Type) where
  nComponents : Nat
  startprobPrior : Nat → α
  transmatPrior : Nat → Nat → α
  algorithm : String
  randomState : RandomState G
  nIter : Nat
  tol : α
  params : List Char
  initParams : List Char
  implementation : String
  nFeatures : Option Nat
  sub : P

section
variable {α G P : Type} [FloatLike α]

omit [FloatLike α] in
/-- `BaseHMM.__init__`, base.py:827-862: `monitor_` is built here, from the constructor's `tol`
and `n_iter`. -/
def construct (a : Args α G P) : Est α G P where
  nComponents := a.nComponents
  startprobPrior := a.startprobPrior
  transmatPrior := a.transmatPrior
  algorithm := a.algorithm
  randomState := a.randomState
  nIter := a.nIter
  tol := a.tol
  params := a.params
  initParams := a.initParams
  implementation := a.implementation
  monitor := { tol := a.tol, nIter := a.nIter }
  nFeatures := a.nFeatures
  sub := a.sub

/-! ## Generators -/

omit [FloatLike α] in
/-- `check_random_state(self.random_state)` followed by draws `f`: `None` is the global generator,
an integer a new generator that is dropped afterwards, an object is advanced in place. -/
def withSelfGen {β : Type} (R : RandomLib α G) (f : G → β × G) : Py (World α G P) β := fun w =>
  match w.est.randomState with
  | .none | .global => (.ok (f w.glob).1, { w with glob := (f w.glob).2 })
  | .seed n => (.ok (f (R.ofSeed n)).1, w)
  | .gen g => (.ok (f g).1, { w with est := { w.est with randomState := .gen (f g).2 } })

omit [FloatLike α] in
/-- `self.random_state = check_random_state(self.random_state)`, hmm.py:131, :917, :1032. -/
def storeGen (R : RandomLib α G) : Py (World α G P) Unit :=
  Py.modify fun w => { w with est := { w.est with randomState :=
    match w.est.randomState with
    | .none | .global => .global
    | .seed n => .gen (R.ofSeed n)
    | .gen g => .gen g } }

omit [FloatLike α] in
/-- A method that does not use the generators. -/
def onEst {β : Type} (m : Py (Est α G P) β) : Py (World α G P) β := fun w =>
  ((m w.est).1, { w with est := (m w.est).2 })

/-! ## Validation -/

/-- `a.sum(axis=-1)`, flattened. -/
def rowSums : NdArray α → List α
  | .d0 x => [x]
  | .d1 v => [sumF v]
  | .d2 v => List.ofFn fun i => sumF (v i)
  | @NdArray.d3 _ l m _ v => (List.ofFn (n := l) fun i => List.ofFn (n := m) fun j => sumF (v i j)).flatten

/-- `_check_sum_1`, base.py:947-956: `np.allclose(s, 1)`. -/
def checkSum1 (a : NdArray α) : Except PyErr Unit :=
  if (rowSums a).all fun s => isclose s 1 then .ok () else .error (.valueError "must sum to 1")

/-- `BaseHMM._check`, base.py:958-977.  `len(startprob_)` is the length of the first axis only. -/
def checkBase (e : Est α G P) : Except PyErr Unit :=
  match e.startprob with
  | none => .error (.attributeError "startprob_")
  | some sp =>
    match sp.shape with
    | [] => .error .typeError
    | n :: _ =>
      if n ≠ e.nComponents then .error (.valueError "startprob_ must have length n_components")
      else do
        checkSum1 sp
        match e.transmat with
        | none => .error (.attributeError "transmat_")
        | some tm =>
          if tm.shape ≠ [e.nComponents, e.nComponents] then
            .error (.valueError "transmat_ must have shape (n_components, n_components)")
          else checkSum1 tm

omit [FloatLike α] in
/-- `_check_and_set_n_features`, base.py:535-543. -/
def checkFeaturesBase (X : XArr α) : Py (Est α G P) Unit := fun e =>
  match e.nFeatures with
  | some nf =>
    if nf ≠ X.d then (.error (.valueError "Unexpected number of dimensions"), e) else (.ok (), e)
  | none => (.ok (), { e with nFeatures := some X.d })

/-- `_needs_init`, base.py:523-533 (without the warning; with it in `Verif/Model/InitLog.lean`). -/
def needsInit (initParams : List Char) (code : Char) (isSet : Bool) : Bool :=
  if code ∈ initParams then true else !isSet

end

/-! ## What a subclass supplies -/

/-- The overridden methods of a subclass.  `Obs`, `Params`, `Stats` are the typed counterparts for
`n_components = nc`, `n_features = nf`. -/
structure Sub (α G P : Type) [FloatLike α] where
  Obs : Nat → Type
  Params : Nat → Nat → Type
  Stats : Nat → Nat → Type
  /-- the rows of `X` as the emission code reads them, or the exception it raises -/
  rows : (nf : Nat) → XArr α → Except PyErr (List (Obs nf))
  /-- the emission code, given the attributes (priors) -/
  emission : P → (nc nf : Nat) → Emission α nc (Obs nf) (Params nc nf) (Stats nc nf)
  /-- the emission parameters, when their shapes are as the emission code expects -/
  read : P → (nc nf : Nat) → Option (Params nc nf)
  /-- assignment of the emission parameters -/
  write : {nc nf : Nat} → Params nc nf → P → P
  /-- `_check_and_set_n_features` -/
  checkFeatures : XArr α → Py (Est α G P) Unit
  /-- `_get_n_fit_scalars_per_param` -/
  nFit : Est α G P → List (Char × Int)
  /-- `_init`, after `super()._init(X, lengths)` -/
  initSub : RandomLib α G → XArr α → Py (World α G P) Unit
  /-- `_check`, after `super()._check()` -/
  checkSub : Py (Est α G P) Unit
  /-- `_generate_sample_from_state` -/
  sampleSub : RandomLib α G → P → {nc nf : Nat} → Params nc nf → Fin nc → G → Except PyErr (Obs nf) × G

variable {α G P : Type} [FloatLike α]

/-! ## `_init` -/

/-- The draws of `BaseHMM._init`, base.py:928-936. -/
def initDraws (R : RandomLib α G) (nc : Nat) (needS needT : Bool) (g : G) :
    (Option (NdArray α) × Option (NdArray α)) × G :=
  let a : Fin nc → α := fun _ => 1 / ofNat' nc
  let (s, g) := if needS then
      let (v, g) := R.dirichlet a g; (some (NdArray.d1 v), g)
    else (none, g)
  let (t, g) := if needT then
      let (v, g) := drawMany (R.dirichlet a) nc g; (some (NdArray.d2 v), g)
    else (none, g)
  ((s, t), g)

/-- `BaseHMM._init`, base.py:919-945.  The number of scalars is only compared with `X.size` for a
warning, but a code of `params` missing from the table raises `KeyError`. -/
def Sub.initBase (S : Sub α G P) (R : RandomLib α G) (X : XArr α) : Py (World α G P) Unit := do
  onEst (S.checkFeatures X)
  let w ← Py.get
  let e := w.est
  let (s, t) ← withSelfGen R (initDraws R e.nComponents (needsInit e.initParams 's' e.startprob.isSome)
    (needsInit e.initParams 't' e.transmat.isSome))
  onEst (Py.modify fun e => { e with startprob := s <|> e.startprob, transmat := t <|> e.transmat })
  let w ← Py.get
  let table := S.nFit w.est
  match w.est.params.find? fun c => !(table.any fun p => p.1 == c) with
  | some c => Py.raise (.keyError (String.ofList [c]))
  | none => pure ()

/-- `_init` of the class. -/
def Sub.init (S : Sub α G P) (R : RandomLib α G) (X : XArr α) : Py (World α G P) Unit := do
  S.initBase R X
  S.initSub R X

/-- `_check` of the class. -/
def Sub.check (S : Sub α G P) : Py (Est α G P) Unit := do
  let e ← Py.get
  Py.lift (checkBase e)
  S.checkSub

/-! ## The public methods -/

/-- The dictionaries at base.py:244-247, :708-711 and :755-758. -/
def implOf (s : String) : Except PyErr Impl :=
  if s = "scaling" then .ok .scaling else if s = "log" then .ok .log else .error (.keyError s)

/-- base.py:339-345. -/
def algOf (s : String) : Except PyErr Alg :=
  if s = "viterbi" then .ok .viterbi else if s = "map" then .ok .map
  else .error (.valueError "Unknown decoder")

/-- Python's `a or d` for an optional string: `None` and the empty string are false (base.py:338). -/
def pyOr (a : Option String) (d : String) : String :=
  match a with
  | none => d
  | some s => if s = "" then d else s

/-- `a` as a vector of length `n`. -/
def asRow (n : Nat) : NdArray α → Option (Fin n → α)
  | @NdArray.d1 _ m v => if h : m = n then some fun i => v (i.cast h.symm) else none
  | _ => none

/-- `a` as an `m × n` matrix. -/
def asMat (m n : Nat) : NdArray α → Option (Fin m → Fin n → α)
  | @NdArray.d2 _ m' n' v =>
    if h : m' = m ∧ n' = n then some fun i j => v (i.cast h.1.symm) (j.cast h.2.symm) else none
  | _ => none

/-- The parameters as the extension module and the emission code read them. -/
structure Ready (S : Sub α G P) (e : Est α G P) where
  nf : Nat
  pos : e.nComponents ≠ 0
  θ : Theta α e.nComponents (S.Params e.nComponents nf)

/-- `none` when `startprob_` is not one-dimensional, or the emission parameters do not have the
expected shape. -/
def Sub.ready (S : Sub α G P) (e : Est α G P) : Option (Ready S e) :=
  if h : e.nComponents = 0 then none
  else
    match e.nFeatures with
    | none => none
    | some nf => do
      let s ← e.startprob
      let π ← asRow e.nComponents s
      let t ← e.transmat
      let A ← asMat e.nComponents e.nComponents t
      let p ← S.read e.sub e.nComponents nf
      return ⟨nf, h, ⟨π, A, p⟩⟩

/-- Run `k` on the model and the rows of `X`.  Parameters that `_check` lets through with a shape
the extension module rejects, and input the emission code rejects, raise once the loop over the
sequences has started, that is after `split_X_lengths`. -/
def Sub.withModel {β : Type} (S : Sub α G P) (e : Est α G P) (impl : Impl) (X : XArr α)
    (lengths : Option (List Int))
    (k : {nc : Nat} → {Obs : Type} → [NeZero nc] → Hmm α nc Obs → List Obs → Except PyErr β) :
    Except PyErr β :=
  match S.ready e with
  | none => do
    let _ ← splitXLengths (List.replicate X.n ()) lengths
    .error (.valueError "array has incorrect number of dimensions")
  | some r =>
    match S.rows r.nf X with
    | .error err => do
      let _ ← splitXLengths (List.replicate X.n ()) lengths
      .error err
    | .ok rows =>
      haveI : NeZero e.nComponents := ⟨r.pos⟩
      k ((S.emission e.sub e.nComponents r.nf).toHmm impl r.θ) rows

/-- `check_is_fitted(self, "startprob_")` and `self._check()`. -/
def Sub.checkFitted (S : Sub α G P) : Py (Est α G P) Unit := do
  let e ← Py.get
  if e.startprob.isNone then Py.raise .notFitted else S.check

/-- `_score` after the checks, base.py:245-249: log probability and posteriors (one list per sample). -/
def Sub.scoreBody (S : Sub α G P) (X : RawX α) (lengths : Option (List Int)) (post : Bool) :
    Py (Est α G P) (α × List (List α)) := do
  let e ← Py.get
  let X ← Py.lift (checkArray X)
  let impl ← Py.lift (implOf e.implementation)
  Py.lift (S.withModel e impl X lengths fun m rows =>
    (scoreCore m rows lengths post).map fun r => (r.1, r.2.map List.ofFn))

/-- `_score`, base.py:233-249. -/
def Sub.scoreSamples (S : Sub α G P) (X : RawX α) (lengths : Option (List Int)) (post : Bool) :
    Py (Est α G P) (α × List (List α)) := do
  S.checkFitted
  S.scoreBody X lengths post

/-- `decode` after the checks, base.py:337-356; `algorithm` is the argument, `none` for the estimator's
own. -/
def Sub.decodeBody (S : Sub α G P) (X : RawX α) (lengths : Option (List Int)) (algorithm : Option String) :
    Py (Est α G P) (α × List Nat) := do
  let e ← Py.get
  let alg ← Py.lift (algOf (pyOr algorithm e.algorithm))
  let X ← Py.lift (checkArray X)
  match alg with
  | .viterbi => Py.lift (S.withModel e .log X lengths fun m rows =>
      (Verif.decode m .viterbi rows lengths).map fun r => (r.1, r.2.map Fin.val))
  | .map =>
    match implOf e.implementation with
    | .error err => Py.lift (do
        let _ ← splitXLengths (List.replicate X.n ()) lengths
        .error err)
    | .ok impl => Py.lift (S.withModel e impl X lengths fun m rows =>
        (Verif.decode m .map rows lengths).map fun r => (r.1, r.2.map Fin.val))

/-- `decode`, base.py:300-356. -/
def Sub.decode (S : Sub α G P) (X : RawX α) (lengths : Option (List Int)) (algorithm : Option String) :
    Py (Est α G P) (α × List Nat) := do
  S.checkFitted
  S.decodeBody X lengths algorithm

/-- `score`, base.py:209-231. -/
def Sub.score (S : Sub α G P) (X : RawX α) (lengths : Option (List Int)) : Py (Est α G P) α := do
  let r ← S.scoreSamples X lengths false
  return r.1

/-- `predict_proba`, base.py:378-396. -/
def Sub.predictProba (S : Sub α G P) (X : RawX α) (lengths : Option (List Int)) :
    Py (Est α G P) (List (List α)) := do
  let r ← S.scoreSamples X lengths true
  return r.2

/-- `predict`, base.py:358-376. -/
def Sub.predict (S : Sub α G P) (X : RawX α) (lengths : Option (List Int)) :
    Py (Est α G P) (List Nat) := do
  let r ← S.decode X lengths none
  return r.2

/-- `self.startprob_, self.transmat_, ...` after training. -/
def Sub.put (S : Sub α G P) (e : Est α G P) {nf : Nat}
    (θ : Theta α e.nComponents (S.Params e.nComponents nf)) (mon : Monitor α) : Est α G P :=
  { e with
    startprob := some (.d1 θ.startprob)
    transmat := some (.d2 θ.transmat)
    sub := S.write θ.emission e.sub
    monitor := mon }

/-- The attributes training uses. -/
def Est.config (e : Est α G P) (impl : Impl) : Config α e.nComponents where
  startprobPrior i := e.startprobPrior i
  transmatPrior i j := e.transmatPrior i j
  params := e.params
  implementation := impl
  nIter := e.nIter

/-- The loop of `fit`, base.py:485-500. -/
def Sub.loopFrom (S : Sub α G P) (X : XArr α) (lengths : Option (List Int)) :
    Py (Est α G P) Unit := fun e =>
  if e.nIter = 0 then (.ok (), e)
  else
    match implOf e.implementation with
    | .error err => (.error err, e)
    | .ok impl =>
      match S.ready e with
      | none => (do
          let _ ← splitXLengths (List.replicate X.n ()) lengths
          .error (.valueError "array has incorrect number of dimensions"), e)
      | some r =>
        match S.rows r.nf X with
        | .error err => (do
            let _ ← splitXLengths (List.replicate X.n ()) lengths
            .error err, e)
        | .ok rows =>
          haveI : NeZero e.nComponents := ⟨r.pos⟩
          let out := fitFrom (S.emission e.sub e.nComponents r.nf) (e.config impl) rows lengths r.θ e.monitor
          (match out.raised with
            | none => .ok ()
            | some err => .error err,
            S.put e out.state out.monitor)

/-- The end of `fit`, base.py:484-500: `self.monitor_._reset()` and the loop. -/
def Sub.loop (S : Sub α G P) (X : XArr α) (lengths : Option (List Int)) : Py (Est α G P) Unit := fun e =>
  S.loopFrom X lengths { e with monitor := e.monitor.reset }

/-- `fit`, base.py:453-500. -/
def Sub.fit (S : Sub α G P) (R : RandomLib α G) (X : RawX α) (lengths : Option (List Int)) :
    Py (World α G P) Unit := do
  let X ← Py.lift (checkArray X)
  S.init R X
  onEst S.check
  onEst (S.loop X lengths)

/-! ## `sample` -/

section
variable {nc : Nat} [NeZero nc] {Obs : Type}

/-- `(cdf > random_state.rand()).argmax()`, base.py:435 and :442-443. -/
def drawState (R : RandomLib α G) (p : Row α nc) (g : G) : Fin nc × G :=
  let (u, g) := R.rand g
  (argmaxBool fun j => lt u (cumsum p j), g)

/-- The loop of `sample`, base.py:441-446: `n` further states and observations. -/
def sampleLoop (R : RandomLib α G) (A : Mat α nc) (em : Fin nc → G → Except PyErr Obs × G) :
    Nat → Fin nc → G → Except PyErr (List (Fin nc × Obs)) × G
  | 0, _, g => (.ok [], g)
  | n + 1, cur, g =>
    let (z, g) := drawState R (A cur) g
    match em z g with
    | (.error e, g) => (.error e, g)
    | (.ok x, g) =>
      match sampleLoop R A em n z g with
      | (.error e, g) => (.error e, g)
      | (.ok rest, g) => (.ok ((z, x) :: rest), g)

/-- The body of `sample`, base.py:430-448, on a checked model. -/
def sampleCore (R : RandomLib α G) (π : Row α nc) (A : Mat α nc)
    (em : Fin nc → G → Except PyErr Obs × G) (n : Int) (currstate : Option (Fin nc)) (g : G) :
    Except PyErr (List (Fin nc × Obs)) × G :=
  let (z, g) := match currstate with
    | some z => (z, g)
    | none => drawState R π g
  match em z g with
  | (.error e, g) => (.error e, g)
  | (.ok x, g) =>
    match sampleLoop R A em (n - 1).toNat z g with
    | (.error e, g) => (.error e, g)
    | (.ok rest, g) => (.ok ((z, x) :: rest), g)

end

/-- The body of `sample`, base.py:430-448, on parameters `θ`: the states and the observations. -/
def Sub.sampleWith (S : Sub α G P) (R : RandomLib α G) (p : P) {nc nf : Nat} [NeZero nc]
    (θ : Theta α nc (S.Params nc nf)) (n : Int) (c : Option (Fin nc)) (g : G) :
    Except PyErr (List Nat × ((nf : Nat) × List (S.Obs nf))) × G :=
  match sampleCore R θ.startprob θ.transmat (S.sampleSub R p θ.emission) n c g with
  | (.error err, g) => (.error err, g)
  | (.ok l, g) => (.ok (l.map fun p => p.1.val, ⟨nf, l.map Prod.snd⟩), g)

/-- What `sample` does once a generator is chosen.  A `currstate` outside `range(n_components)` is
in `Model/StateIndex.lean`; a `startprob_` that is not one-dimensional is not modelled. -/
def Sub.sampleFrom (S : Sub α G P) (R : RandomLib α G) (e : Est α G P) (n : Int)
    (currstate : Option Nat) (g : G) : Except PyErr (List Nat × ((nf : Nat) × List (S.Obs nf))) × G :=
  match S.ready e with
  | none => (.error .notImplemented, g)
  | some r =>
    haveI : NeZero e.nComponents := ⟨r.pos⟩
    match currstate with
    | none => S.sampleWith R e.sub r.θ n none g
    | some c =>
      if h : c < e.nComponents then S.sampleWith R e.sub r.θ n (some ⟨c, h⟩) g
      else (.error .notImplemented, g)

/-- `sample` after the checks, base.py:429-448, with `random_state` an integer seed or `None`. -/
def Sub.sampleBody (S : Sub α G P) (R : RandomLib α G) (n : Int) (seed : Option Nat)
    (currstate : Option Nat) : Py (World α G P) (List Nat × ((nf : Nat) × List (S.Obs nf))) := do
  let w ← Py.get
  match seed with
  | some k => Py.lift (S.sampleFrom R w.est n currstate (R.ofSeed k)).1
  | none => do
    let r ← withSelfGen R (S.sampleFrom R w.est n currstate)
    Py.lift r

/-- `sample`, base.py:398-448. -/
def Sub.sample (S : Sub α G P) (R : RandomLib α G) (n : Int) (seed : Option Nat)
    (currstate : Option Nat) : Py (World α G P) (List Nat × ((nf : Nat) × List (S.Obs nf))) := do
  onEst S.checkFitted
  S.sampleBody R n seed currstate

end Verif
