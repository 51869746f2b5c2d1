import Verif.Spec.ObjectFit
import Verif.Spec.VCategorical
import Verif.Model.VEstimator

/-!
# Specification: variational estimator objects
-/

set_option autoImplicit false

namespace Verif.Spec
open FloatLike XF

variable {G Q : Type} {nc nf : ℕ}

/-- The inference methods of a variational class. -/
noncomputable abbrev vmethodsOf (V : VSub XF G Q) : Methods G (VAttrs XF Q) := ⟨V.score, V.predictProba, V.decode, V.predict⟩

/-! ## Training -/

/-- What one kind of variational model is, for a data set: how an object stores the posterior concentrations
`m` (and the priors), the lower bound, what the successive posteriors of a training run are, how an object
stores the point parameters, and what it means that the object answers for them. -/
structure VTraining (G Q M : Type) where
  stores : VEst XF G Q → M → Prop
  bound : M → ℝ
  updates : (ℕ → M) → Prop
  points : VEst XF G Q → M → Prop
  answers : VEst XF G Q → M → Prop

/-- `res` is how `fit`, called on the object `e`, ended (exception and final object) when training started
from the posteriors `m₀`: only a `scaling` pass that underflows can raise; training ran through posteriors
`m 0, …, m n`, each the conjugate update of the one before; the object holds the last ones and
`monitor_.history` the lower bounds of the others; these do not decrease; the point parameters are those of
the last posteriors, and if `fit` returned the methods of the object answer for them. -/
structure VTrainsFrom {M : Type} (T : VTraining G Q M) (m₀ : M) (e : VEst XF G Q) (impl : Impl)
    (res : Except PyErr Unit × VEst XF G Q) : Prop where
  returns : res.1 = .ok () ∨ impl = .scaling ∧ res.1 = .error .underflow
  settings : SameSettings e res.2
  args : res.2.sub.chain.startprobPrior = e.sub.chain.startprobPrior ∧
    res.2.sub.chain.transmatPrior = e.sub.chain.transmatPrior
  run : ∃ (n : ℕ) (m : ℕ → M), m 0 = m₀ ∧ n ≤ e.nIter ∧ (res.1 = .ok () → 0 < n) ∧ T.updates m ∧
    T.stores res.2 (m n) ∧ res.2.monitor.history = (List.range n).map (fun k => fin (T.bound (m k))) ∧
    (∀ k, T.bound (m k) ≤ T.bound (m (k + 1))) ∧ (0 < n → T.points res.2 (m n)) ∧
    (res.1 = .ok () → T.answers res.2 (m n))

/-- Posterior concentrations of a categorical model. -/
structure CatPost (nc nf : ℕ) where
  s : Fin nc → ℝ
  t : Fin nc → Fin nc → ℝ
  e : Fin nc → Fin nf → ℝ

/-- Prior and posterior concentrations of the chain. -/
structure VStoresChain (e : VEst XF G Q) (nf : ℕ) (sp : Fin nc → ℝ) (tp : Fin nc → Fin nc → ℝ) (s : Fin nc → ℝ)
    (t : Fin nc → Fin nc → ℝ) : Prop where
  nComponents : e.nComponents = nc
  nFeatures : e.nFeatures = some nf
  startPrior : e.sub.chain.startPrior = some (vec sp)
  transPrior : e.sub.chain.transPrior = some (mat tp)
  startPost : e.sub.chain.startPost = some (vec s)
  transPost : e.sub.chain.transPost = some (mat t)

/-- `VariationalCategoricalHMM` with prior concentrations `p` and posterior concentrations `m`. -/
structure VStoresCat (p : CatPost nc nf) (e : VEst XF G (VCatAttrs XF)) (m : CatPost nc nf) : Prop where
  chain : VStoresChain e nf p.s p.t m.s m.t
  emPrior : e.sub.sub.emPrior = some (mat p.e)
  emPost : e.sub.sub.emPost = some (mat m.e)

/-- The point parameters of the chain that training updates: the means of the posteriors. -/
structure VPointsChain (params : List Char) (e : VEst XF G Q) (s : Fin nc → ℝ) (t : Fin nc → Fin nc → ℝ) : Prop where
  startprob : 's' ∈ params → e.startprob = some (vec (dirMean s))
  transmat : 't' ∈ params → e.transmat = some (mat fun i => dirMean (t i))

/-- Training of a `VariationalCategoricalHMM`. -/
noncomputable def vcatTraining (sci : Sci XF) (p : CatPost nc nf) (params : List Char) (ss : List (ObsSeq (Fin nf))) :
    VTraining G (VCatAttrs XF) (CatPost nc nf) where
  stores := VStoresCat p
  bound m := catLowerBound p.s p.t p.e ss m.s m.t m.e
  updates m := CatUpdates p.s p.t p.e params ss (fun k => (m k).s) (fun k => (m k).t) (fun k => (m k).e)
  points e m := VPointsChain params e m.s m.t ∧
    ('e' ∈ params → e.sub.sub.emissionprob = some (mat fun i => dirMean (m.e i)))
  answers e m := 's' ∈ params → 't' ∈ params → 'e' ∈ params →
    AnswersBy (vmethodsOf (vcatSub sci)) e symbolsX (dirMean m.s) (fun i => dirMean (m.t i))
      (catB fun i => dirMean (m.e i))

/-! ## Where training starts -/

/-- `init_params` asks for initialisation, or one of the attributes is missing. -/
def FreshPair {β : Type} (e : VEst XF G Q) (code : Char) (a b : Option β) : Prop :=
  code ∈ e.initParams ∨ a = none ∨ b = none

/-- What may be passed as `startprob_prior`, and the concentrations it stands for. -/
inductive StartArg : Option (NdArray XF) → (Fin nc → ℝ) → Prop
  | default : StartArg none fun _ => 1 / nc
  | scalar (x : ℝ) : StartArg (some (.d0 (fin x))) fun _ => x
  | array (p : Fin nc → ℝ) : StartArg (some (vec p)) p

/-- What may be passed as `transmat_prior`. -/
inductive TransArg : Option (NdArray XF) → (Fin nc → Fin nc → ℝ) → Prop
  | default : TransArg none fun _ _ => 1 / nc
  | scalar (x : ℝ) : TransArg (some (.d0 (fin x))) fun _ _ => x
  | row (p : Fin nc → ℝ) : TransArg (some (vec p)) fun _ => p
  | array (p : Fin nc → Fin nc → ℝ) : TransArg (some (mat p)) p

/-- What can be passed as `emissionprob_prior` (an array cannot: see `C78_array_prior`). -/
inductive EmissionArg : Option (NdArray XF) → ℝ → Prop
  | default : EmissionArg none (1 / nf)
  | scalar (x : ℝ) : EmissionArg (some (.d0 (fin x))) x

/-- The chain from which the object `e` starts on `ns` sequences with `nx` samples: what it holds, or the prior
of the constructor and a posterior drawn with as many pseudo-counts as there are sequences, and samples
per state. -/
structure VStartsChain (e : VEst XF G Q) (ns nx : ℕ) (sp : Fin nc → ℝ) (tp : Fin nc → Fin nc → ℝ) (s : Fin nc → ℝ)
    (t : Fin nc → Fin nc → ℝ) : Prop where
  sp_pos : ∀ i, 0 < sp i
  tp_pos : ∀ i j, 0 < tp i j
  s_pos : ∀ i, 0 < s i
  t_pos : ∀ i j, 0 < t i j
  start_keeps : ¬ FreshPair e 's' e.sub.chain.startPost e.sub.chain.startPrior →
    e.sub.chain.startPrior = some (vec sp) ∧ e.sub.chain.startPost = some (vec s)
  start_draws : FreshPair e 's' e.sub.chain.startPost e.sub.chain.startPrior →
    StartArg e.sub.chain.startprobPrior sp ∧ ∑ i, s i = ns
  trans_keeps : ¬ FreshPair e 't' e.sub.chain.transPost e.sub.chain.transPrior →
    e.sub.chain.transPrior = some (mat tp) ∧ e.sub.chain.transPost = some (mat t)
  trans_draws : FreshPair e 't' e.sub.chain.transPost e.sub.chain.transPrior →
    TransArg e.sub.chain.transmatPrior tp ∧ ∀ i, ∑ j, t i j = nx / nc

/-- What the user may have passed and set: positive concentrations of the right shape. -/
structure VGivenChain (e : VEst XF G Q) : Prop where
  start : FreshPair e 's' e.sub.chain.startPost e.sub.chain.startPrior → ∃ sp : Fin e.nComponents → ℝ,
    StartArg e.sub.chain.startprobPrior sp ∧ ∀ i, 0 < sp i
  start_set : ¬ FreshPair e 's' e.sub.chain.startPost e.sub.chain.startPrior → ∃ sp s : Fin e.nComponents → ℝ,
    e.sub.chain.startPrior = some (vec sp) ∧ e.sub.chain.startPost = some (vec s) ∧ (∀ i, 0 < sp i) ∧ ∀ i, 0 < s i
  trans : FreshPair e 't' e.sub.chain.transPost e.sub.chain.transPrior →
    ∃ tp : Fin e.nComponents → Fin e.nComponents → ℝ, TransArg e.sub.chain.transmatPrior tp ∧ ∀ i j, 0 < tp i j
  trans_set : ¬ FreshPair e 't' e.sub.chain.transPost e.sub.chain.transPrior →
    ∃ tp t : Fin e.nComponents → Fin e.nComponents → ℝ, e.sub.chain.transPrior = some (mat tp) ∧
      e.sub.chain.transPost = some (mat t) ∧ (∀ i j, 0 < tp i j) ∧ ∀ i j, 0 < t i j
  /-- `startprob_` and `transmat_`, if an earlier `fit` or the user set them, have the right shapes -/
  startprob : ∃ v : Option (Fin e.nComponents → ℝ), e.startprob = v.map vec
  transmat : ∃ v : Option (Fin e.nComponents → Fin e.nComponents → ℝ), e.transmat = v.map mat

/-- The same with the emissions of a `VariationalCategoricalHMM`. -/
structure VStartsCat (e : VEst XF G (VCatAttrs XF)) (ns nx : ℕ) (p m : CatPost nc nf) : Prop where
  chain : VStartsChain e ns nx p.s p.t m.s m.t
  ep_pos : ∀ i k, 0 < p.e i k
  e_pos : ∀ i k, 0 < m.e i k
  keeps : ¬ Fresh e 'e' e.sub.sub.emPost → e.sub.sub.emPrior = some (mat p.e) ∧ e.sub.sub.emPost = some (mat m.e)
  draws : Fresh e 'e' e.sub.sub.emPost →
    ∃ x, EmissionArg (nf := nf) e.sub.sub.emissionprobPrior x ∧ p.e = (fun _ _ => x) ∧ ∀ i, ∑ k, m.e i k = nx / nc

/-- What the user may have passed and set in a `VariationalCategoricalHMM`. -/
structure VGivenCat (e : VEst XF G (VCatAttrs XF)) (nf : ℕ) : Prop where
  chain : VGivenChain e
  emission : Fresh e 'e' e.sub.sub.emPost → ∃ x, EmissionArg (nf := nf) e.sub.sub.emissionprobPrior x ∧ 0 < x
  emission_set : ¬ Fresh e 'e' e.sub.sub.emPost → ∃ ep em : Fin e.nComponents → Fin nf → ℝ,
    e.sub.sub.emPrior = some (mat ep) ∧ e.sub.sub.emPost = some (mat em) ∧ (∀ i k, 0 < ep i k) ∧ ∀ i k, 0 < em i k
  emissionprob : ∃ v : Option (Fin e.nComponents → Fin nf → ℝ), e.sub.sub.emissionprob = v.map mat

end Verif.Spec
