import Verif.Spec.Objects
import Verif.Props.Initialise
import Verif.Spec.Usable

/-!
# Specification: `fit` of an estimator object
-/

set_option autoImplicit false

namespace Verif.Spec
open FloatLike XF

variable {G P : Type} {nc nf : ℕ}

/-- A hidden chain with one row of emission parameters per state. -/
structure RowsPoint (nc nf : ℕ) where
  π : Fin nc → ℝ
  A : Fin nc → Fin nc → ℝ
  B : Fin nc → Fin nf → ℝ

/-- The arguments of the constructor other than `random_state` and the hyper-parameters of the class. -/
structure SameSettings (e e' : Est XF G P) : Prop where
  nComponents : e'.nComponents = e.nComponents
  startprobPrior : e'.startprobPrior = e.startprobPrior
  transmatPrior : e'.transmatPrior = e.transmatPrior
  algorithm : e'.algorithm = e.algorithm
  nIter : e'.nIter = e.nIter
  tol : e'.tol = e.tol
  params : e'.params = e.params
  initParams : e'.initParams = e.initParams
  implementation : e'.implementation = e.implementation

/-- What one kind of model is, for a data set: how an object stores it, its likelihood, the objective of
training, between which successive models the objective must not decrease, which starting points keep
every state in use, and what it means that the object answers for the model. -/
structure Training (G P M : Type) where
  stores : Est XF G P → M → Prop
  lik : M → ℝ
  obj : M → ℝ
  mono : M → M → Prop
  used : M → Prop
  answers : Est XF G P → M → Prop

/-- `res` is how `fit`, called on the object `e`, ended (exception and final object) when training started
from the model `m₀`: only a `scaling` pass that underflows can raise; training ran through
models `m 0, …, m n`; the object holds the last one and `monitor_.history` the log-likelihoods of the
others; the objective does not decrease; and if `fit` returned and the first model kept every state
in use, the methods of the object answer for the last model. -/
structure TrainsFrom {M : Type} (T : Training G P M) (m₀ : M) (e : Est XF G P) (impl : Impl)
    (res : Except PyErr Unit × Est XF G P) : Prop where
  returns : res.1 = .ok () ∨ impl = .scaling ∧ res.1 = .error .underflow
  settings : SameSettings e res.2
  run : ∃ (n : ℕ) (m : ℕ → M), m 0 = m₀ ∧ n ≤ e.nIter ∧ (res.1 = .ok () → 0 < n) ∧ T.stores res.2 (m n) ∧
    res.2.monitor.history = (List.range n).map (fun k => fin (Real.log (T.lik (m k)))) ∧
    (∀ k ≤ n, 0 < T.lik (m k)) ∧ (∀ k < n, T.mono (m k) (m (k + 1)) → T.obj (m k) ≤ T.obj (m (k + 1))) ∧
    (res.1 = .ok () → T.used m₀ → T.answers res.2 (m n))

/-- The attributes of a chain. -/
structure StoresChain (e : Est XF G P) (nf : ℕ) (π : Fin nc → ℝ) (A : Fin nc → Fin nc → ℝ) : Prop where
  nComponents : e.nComponents = nc
  nFeatures : e.nFeatures = some nf
  startprob : e.startprob = some (vec π)
  transmat : e.transmat = some (mat A)

/-- `CategoricalHMM`. -/
def StoresCat (e : Est XF G (CatAttrs XF)) (m : RowsPoint nc nf) : Prop :=
  StoresChain e nf m.π m.A ∧ e.sub.emissionprob = some (mat m.B)

/-- `MultinomialHMM`. -/
def StoresMulti (e : Est XF G (MultiAttrs XF)) (m : RowsPoint nc nf) : Prop :=
  StoresChain e nf m.π m.A ∧ e.sub.emissionprob = some (mat m.B) ∧ e.sub.nTrials.isSome

/-- `PoissonHMM`. -/
def StoresPois (e : Est XF G (PoisAttrs XF)) (m : RowsPoint nc nf) : Prop :=
  StoresChain e nf m.π m.A ∧ e.sub.lambdas = some (mat m.B)

/-! ## Where training starts -/

/-- What is assumed of numpy's generator: Dirichlet draws with equal concentrations are positive and sum to
one, uniform and Gamma draws are positive.  (Each fails with probability zero.) -/
structure PositiveDraws (R : RandomLib XF G) : Prop where
  dirichlet : ∀ {n : ℕ} (a : ℝ) (g : G), n ≠ 0 → 0 < a → ∃ p : Fin n → ℝ, (∀ i, 0 < p i) ∧ ∑ i, p i = 1 ∧
    (R.dirichlet (fun _ : Fin n => fin a) g).1 = fun i => fin (p i)
  rand : ∀ g, ∃ u, 0 < u ∧ (R.rand g).1 = fin u
  gamma : ∀ (a b : ℝ) (g : G), 0 < a → 0 < b → ∃ u, 0 < u ∧ (R.gamma (fin a) (fin b) g).1 = fin u

/-- A parameter at the start of training: what the object holds, or a positive draw. -/
structure Starts {β : Type} (fresh : Prop) (attr : Option β) (v : β) (pos : Prop) : Prop where
  keeps : ¬ fresh → attr = some v
  draws : fresh → pos

/-- The chain from which the object `e` starts. -/
structure StartsChain (e : Est XF G P) (π : Fin nc → ℝ) (A : Fin nc → Fin nc → ℝ) : Prop where
  π_nonneg : ∀ i, 0 ≤ π i
  A_nonneg : ∀ i j, 0 ≤ A i j
  π_sum : ∑ i, π i = 1
  A_sum : ∀ i, ∑ j, A i j = 1
  startprob : Starts (Fresh e 's' e.startprob) e.startprob (vec π) (∀ i, 0 < π i)
  transmat : Starts (Fresh e 't' e.transmat) e.transmat (mat A) (∀ i j, 0 < A i j)

/-- What the user may have set: distributions of the right length. -/
structure GivenChain (e : Est XF G P) : Prop where
  startprob : ¬ Fresh e 's' e.startprob → ∃ π : Fin e.nComponents → ℝ,
    e.startprob = some (vec π) ∧ (∀ i, 0 ≤ π i) ∧ ∑ i, π i = 1
  transmat : ¬ Fresh e 't' e.transmat → ∃ A : Fin e.nComponents → Fin e.nComponents → ℝ,
    e.transmat = some (mat A) ∧ (∀ i j, 0 ≤ A i j) ∧ ∀ i, ∑ j, A i j = 1

/-- Arguments of the constructor under which training maximises the likelihood: flat priors, at least one
iteration. -/
structure FlatChain (e : Est XF G P) (impl : Impl) : Prop where
  nComponents : e.nComponents ≠ 0
  startprobPrior : ∀ i, e.startprobPrior i = fin 1
  transmatPrior : ∀ i j, e.transmatPrior i j = fin 1
  nIter : e.nIter ≠ 0
  implementation : e.implementation = implName impl

/-- One row of emission parameters per state: kept, or drawn positive. -/
def StartsRows (fresh : Prop) (attr : Option (NdArray XF)) (B : Fin nc → Fin nf → ℝ) : Prop :=
  Starts fresh attr (mat B) (∀ i k, 0 < B i k)

/-- The model from which a `CategoricalHMM` starts. -/
structure StartsCat (e : Est XF G (CatAttrs XF)) (m : RowsPoint nc nf) : Prop where
  chain : StartsChain e m.π m.A
  nonneg : ∀ i k, 0 ≤ m.B i k
  sum : ∀ i, ∑ k, m.B i k = 1
  rows : StartsRows (Fresh e 'e' e.sub.emissionprob) e.sub.emissionprob m.B

/-- What the user may have set in a `CategoricalHMM`. -/
structure GivenCat (e : Est XF G (CatAttrs XF)) (nf : ℕ) : Prop where
  chain : GivenChain e
  rows : ¬ Fresh e 'e' e.sub.emissionprob → ∃ B : Fin e.nComponents → Fin nf → ℝ,
    e.sub.emissionprob = some (mat B) ∧ (∀ i k, 0 ≤ B i k) ∧ ∀ i, ∑ k, B i k = 1

/-- Training that maximises the likelihood of `ss`, where `b m` are the emission weights of the model `m`. -/
noncomputable def likTraining {D M : Type} (params : List Char) (ss : List (ObsSeq D)) (π : M → Fin nc → ℝ)
    (A : M → Fin nc → Fin nc → ℝ) (b : M → D → Fin nc → ℝ) (stores answers : Est XF G P → M → Prop)
    (used : M → Prop) : Training G P M where
  stores := stores
  lik m := dataLikelihood (π m) (A m) (b m) ss
  obj m := Real.log (dataLikelihood (π m) (A m) (b m) ss)
  mono _ _ := True
  used m := 't' ∈ params ∧ UsedBeforeLast (π m) (A m) (b m) ss ∧ used m
  answers := answers

/-- `CategoricalHMM`. -/
noncomputable def catTraining (params : List Char) (ss : List (ObsSeq (Fin nf))) :
    Training G (CatAttrs XF) (RowsPoint nc nf) :=
  likTraining params ss (·.π) (·.A) (fun m => catB m.B) StoresCat
    (fun e m => Answers catSub e symbolsX m.π m.A (catB m.B)) fun _ => True

/-- The model from which a `PoissonHMM` starts. -/
structure StartsPois (e : Est XF G (PoisAttrs XF)) (m : RowsPoint nc nf) : Prop where
  chain : StartsChain e m.π m.A
  nonneg : ∀ i k, 0 ≤ m.B i k
  rows : StartsRows (Fresh e 'l' e.sub.lambdas) e.sub.lambdas m.B

/-- What the user may have set in a `PoissonHMM`. -/
structure GivenPois (e : Est XF G (PoisAttrs XF)) (nf : ℕ) : Prop where
  chain : GivenChain e
  rows : ¬ Fresh e 'l' e.sub.lambdas → ∃ l : Fin e.nComponents → Fin nf → ℝ,
    e.sub.lambdas = some (mat l) ∧ ∀ i k, 0 ≤ l i k

/-- `PoissonHMM`. -/
noncomputable def poisTraining (params : List Char) (ss : List (ObsSeq (Fin nf → ℕ))) :
    Training G (PoisAttrs XF) (RowsPoint nc nf) :=
  likTraining params ss (·.π) (·.A) (fun m => poissonB m.B) StoresPois
    (fun e m => Answers poisSub e countsX m.π m.A (poissonB m.B)) fun _ => True

/-- The model from which a `MultinomialHMM` starts (its `_init` looks at `init_params` only). -/
structure StartsMulti (e : Est XF G (MultiAttrs XF)) (m : RowsPoint nc nf) : Prop where
  chain : StartsChain e m.π m.A
  nonneg : ∀ i k, 0 ≤ m.B i k
  sum : ∀ i, ∑ k, m.B i k = 1
  rows : StartsRows ('e' ∈ e.initParams) e.sub.emissionprob m.B

/-- What the user may have set in a `MultinomialHMM`. -/
structure GivenMulti (e : Est XF G (MultiAttrs XF)) (nf : ℕ) : Prop where
  chain : GivenChain e
  rows : 'e' ∉ e.initParams → ∃ B : Fin e.nComponents → Fin nf → ℝ,
    e.sub.emissionprob = some (mat B) ∧ (∀ i k, 0 ≤ B i k) ∧ ∀ i, ∑ k, B i k = 1

/-- `MultinomialHMM`. -/
noncomputable def multiTraining (params : List Char) (ss : List (ObsSeq (Fin nf → ℕ))) :
    Training G (MultiAttrs XF) (RowsPoint nc nf) :=
  likTraining params ss (·.π) (·.A) (fun m => multinomialB m.B) StoresMulti
    (fun e m => Answers multiSub e countsX m.π m.A (multinomialB m.B)) fun _ => True

end Verif.Spec
