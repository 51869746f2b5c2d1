import Verif.Spec.VObjects
import Verif.Spec.VGaussian
import Verif.Spec.GaussFit
import Verif.Model.VGaussEstimator

/-!
# Specification: `fit` of a `VariationalGaussianHMM` object
-/

set_option autoImplicit false

namespace Verif.Spec
open FloatLike XF

variable {G : Type} {nc nf : ℕ}

/-! ## Clusters -/

/-- `i` is the first of the centres nearest to `x`. -/
def Nearest (c : Fin nc → Fin nf → ℝ) (x : Fin nf → ℝ) (i : Fin nc) : Prop :=
  (∀ j, ∑ k, (x k - c i k) ^ 2 ≤ ∑ k, (x k - c j k) ^ 2) ∧ ∀ j < i, ∑ k, (x k - c i k) ^ 2 < ∑ k, (x k - c j k) ^ 2

open scoped Classical in
/-- Number of samples in a cluster. -/
noncomputable def clusterSize (c : Fin nc → Fin nf → ℝ) (l : List (Fin nf → ℝ)) (i : Fin nc) : ℕ :=
  l.countP fun x => decide (Nearest c x i)

/-! ## Arrays -/

/-- How degrees of freedom are stored: one number if all states share them. -/
def StoresDof (ty : CovType) (ν : Fin nc → ℝ) (a : NdArray XF) : Prop :=
  match ty with
  | .tied => ∃ x, a = .d0 (fin x) ∧ ∀ i, ν i = x
  | _ => a = vec ν

/-- How matrices are stored. -/
def StoresScale (ty : CovType) (S : Fin nc → Matrix (Fin nf) (Fin nf) ℝ) (a : NdArray XF) : Prop :=
  match ty with
  | .full => a = cube S
  | .tied => ∃ M, a = mat M ∧ ∀ i, S i = M
  | .diag => ∃ v, a = mat v ∧ ∀ i, S i = Matrix.diagonal (v i)
  | .spherical => ∃ v, a = vec v ∧ ∀ i, S i = v i • (1 : Matrix (Fin nf) (Fin nf) ℝ)

/-- Posterior laws of a Gaussian model: concentrations of the chain, one normal–Wishart law per state. -/
structure GaussPost (nc nf : ℕ) where
  s : Fin nc → ℝ
  t : Fin nc → Fin nc → ℝ
  p : Fin nc → NW nf

/-- `VariationalGaussianHMM` with priors `p` and posteriors `m`. -/
structure VStoresGauss (ty : CovType) (p : GaussPost nc nf) (e : VEst XF G (VGaussAttrs XF)) (m : GaussPost nc nf) : Prop where
  chain : VStoresChain e nf p.s p.t m.s m.t
  betaPri : e.sub.sub.betaPri = some (vec fun i => (p.p i).β)
  betaPost : e.sub.sub.betaPost = some (vec fun i => (m.p i).β)
  meansPri : e.sub.sub.meansPri = some (mat fun i => (p.p i).m)
  meansPost : e.sub.sub.meansPost = some (mat fun i => (m.p i).m)
  dofPri : ∃ a, e.sub.sub.dofPri = some a ∧ StoresDof ty (fun i => (p.p i).ν) a
  dofPost : ∃ a, e.sub.sub.dofPost = some a ∧ StoresDof ty (fun i => (m.p i).ν) a
  scalePri : ∃ a, e.sub.sub.scalePri = some a ∧ StoresScale ty (fun i => (p.p i).S) a
  scalePost : ∃ a, e.sub.sub.scalePost = some a ∧ StoresScale ty (fun i => (m.p i).S) a

/-- Variances that the density of `diag` and `spherical` does not replace. -/
def Resolved (ty : CovType) (p : Fin nc → NW nf) : Prop :=
  (ty = .diag ∨ ty = .spherical) → ∀ i k, tinyVar ≤ (p i).covar k k

/-- Training of a `VariationalGaussianHMM`: the point parameters are the means of the posteriors of the chain, the
means, and the inverse scale over the degrees of freedom; the methods answer for the Gaussian HMM they make. -/
noncomputable def vgaussTraining [NeZero nc] (ty : CovType) (V : VSub XF G (VGaussAttrs XF)) (p : GaussPost nc nf)
    (params : List Char) (ss : List (ObsSeq (Fin nf → ℝ))) : VTraining G (VGaussAttrs XF) (GaussPost nc nf) where
  stores := VStoresGauss ty p
  bound m := gaussLowerBound ty p.s p.t p.p ss m.s m.t m.p
  updates m := GaussUpdates ty p.s p.t p.p params ss (fun k => (m k).s) (fun k => (m k).t) (fun k => (m k).p)
  points e m := VPointsChain params e m.s m.t ∧
    ('c' ∈ params → ∃ a, e.sub.sub.covars = some a ∧ StoresScale ty (fun i => (m.p i).covar) a)
  answers e m := 's' ∈ params → 't' ∈ params → 'c' ∈ params → Resolved ty m.p →
    AnswersBy (vmethodsOf V) e realsX (dirMean m.s) (fun i => dirMean (m.t i)) (mvnB (fun i => (m.p i).m) fun i => (m.p i).covar)

/-! ## Where training starts -/

/-- What may be passed as `means_prior`: nothing (the mean of the data) or an array. -/
inductive MeansArg (l : List (Fin nf → ℝ)) : Option (NdArray XF) → (Fin nc → Fin nf → ℝ) → Prop
  | default : MeansArg l none fun _ => colMean l
  | array (m : Fin nc → Fin nf → ℝ) : MeansArg l (some (mat m)) m

/-- What may be passed as `beta_prior`. -/
inductive BetaArg : Option (NdArray XF) → (Fin nc → ℝ) → Prop
  | default : BetaArg none fun _ => 1
  | array (b : Fin nc → ℝ) : BetaArg (some (vec b)) b

/-- What may be passed as `dof_prior`. -/
inductive DofArg (ty : CovType) (nf : ℕ) : Option (NdArray XF) → (Fin nc → ℝ) → Prop
  | default : DofArg ty nf none fun _ => nf
  | array (a : NdArray XF) (ν : Fin nc → ℝ) (h : StoresDof ty ν a) : DofArg ty nf (some a) ν

/-- What may be passed as `scale_prior`. -/
inductive ScaleArg (ty : CovType) : Option (NdArray XF) → (Fin nc → Matrix (Fin nf) (Fin nf) ℝ) → Prop
  | default : ScaleArg ty none fun _ => (1 / 1000 : ℝ) • 1
  | array (a : NdArray XF) (S : Fin nc → Matrix (Fin nf) (Fin nf) ℝ) (h : StoresScale ty S a) : ScaleArg ty (some a) S

/-- `init_params` asks for the initialisation of the means, or one of their four attributes is missing. -/
def FreshMeans (e : VEst XF G (VGaussAttrs XF)) : Prop :=
  'm' ∈ e.initParams ∨ e.sub.sub.meansPri = none ∨ e.sub.sub.meansPost = none ∨ e.sub.sub.betaPri = none ∨
    e.sub.sub.betaPost = none

/-- The same for the covariances. -/
def FreshCovars (e : VEst XF G (VGaussAttrs XF)) : Prop :=
  'c' ∈ e.initParams ∨ e.sub.sub.dofPri = none ∨ e.sub.sub.dofPost = none ∨ e.sub.sub.scalePri = none ∨
    e.sub.sub.scalePost = none

/-- The part of a covariance matrix the covariance type keeps (`spherical`: the mean of all its entries). -/
noncomputable def templatePart (ty : CovType) (T : Matrix (Fin nf) (Fin nf) ℝ) : Matrix (Fin nf) (Fin nf) ℝ :=
  match ty with
  | .full | .tied => T
  | .diag => Matrix.diagonal T.diag
  | .spherical => ((∑ k, ∑ l, T k l) / (nf * nf)) • (1 : Matrix (Fin nf) (Fin nf) ℝ)

/-- Priors `p` and posteriors `m` from which the object `e` starts on `ns` sequences with the samples `l`: what it
holds; or the priors of the constructor, means at the centres `c` found by `KMeans`, as many pseudo-observations
as samples in the cluster, and the scale for which every covariance is that of the data. -/
structure VStartsGauss (ty : CovType) (R : RandomLib XF G) (e : VEst XF G (VGaussAttrs XF)) (ns : ℕ) (l : List (Fin nf → ℝ))
    (p m : GaussPost nc nf) : Prop where
  chain : VStartsChain e ns l.length p.s p.t m.s m.t
  prior : ∀ i, (p.p i).Proper
  proper : ∀ i, (m.p i).Proper
  keepsMeans : ¬ FreshMeans e → e.sub.sub.meansPri = some (mat fun i => (p.p i).m) ∧
    e.sub.sub.meansPost = some (mat fun i => (m.p i).m) ∧ e.sub.sub.betaPri = some (vec fun i => (p.p i).β) ∧
    e.sub.sub.betaPost = some (vec fun i => (m.p i).β)
  keepsCovars : ¬ FreshCovars e → (∃ a, e.sub.sub.dofPri = some a ∧ StoresDof ty (fun i => (p.p i).ν) a) ∧
    (∃ a, e.sub.sub.dofPost = some a ∧ StoresDof ty (fun i => (m.p i).ν) a) ∧
    (∃ a, e.sub.sub.scalePri = some a ∧ StoresScale ty (fun i => (p.p i).S) a) ∧
    ∃ a, e.sub.sub.scalePost = some a ∧ StoresScale ty (fun i => (m.p i).S) a
  init : ∃ g c, (R.kmeans nc (l.map fun x k => fin (x k)) g).1 = (fun i k => fin (c i k)) ∧
    (FreshMeans e → MeansArg l e.sub.sub.meansPrior (fun i => (p.p i).m) ∧ BetaArg e.sub.sub.betaPrior (fun i => (p.p i).β) ∧
      ∀ i, (m.p i).m = c i ∧ (m.p i).β = clusterSize c l i) ∧
    (FreshCovars e → DofArg ty nf e.sub.sub.dofPrior (fun i => (p.p i).ν) ∧ ScaleArg ty e.sub.sub.scalePrior (fun i => (p.p i).S) ∧
      ∀ i, (m.p i).ν = shareCount ty (fun i => clusterSize c l i) i ∧
        (m.p i).S = (m.p i).ν • templatePart ty (templateCov (1 / 1000) l))

/-- What the user may have passed and set: laws that exist, in arrays of the right shape. -/
structure VGivenGauss (ty : CovType) (e : VEst XF G (VGaussAttrs XF)) (l : List (Fin nf → ℝ)) : Prop where
  chain : VGivenChain e
  means : FreshMeans e → ∃ (m : Fin e.nComponents → Fin nf → ℝ) (β : Fin e.nComponents → ℝ),
    MeansArg l e.sub.sub.meansPrior m ∧ BetaArg e.sub.sub.betaPrior β ∧ ∀ i, 0 < β i
  means_set : ¬ FreshMeans e → ∃ (m₀ m : Fin e.nComponents → Fin nf → ℝ) (β₀ β : Fin e.nComponents → ℝ),
    e.sub.sub.meansPri = some (mat m₀) ∧ e.sub.sub.meansPost = some (mat m) ∧ e.sub.sub.betaPri = some (vec β₀) ∧
    e.sub.sub.betaPost = some (vec β) ∧ (∀ i, 0 < β₀ i) ∧ ∀ i, 0 < β i
  covars : FreshCovars e → ∃ (ν : Fin e.nComponents → ℝ) (S : Fin e.nComponents → Matrix (Fin nf) (Fin nf) ℝ),
    DofArg ty nf e.sub.sub.dofPrior ν ∧ ScaleArg ty e.sub.sub.scalePrior S ∧ (∀ i, (nf : ℝ) - 1 < ν i) ∧ ∀ i, (S i).PosDef
  covars_set : ¬ FreshCovars e → ∃ (ν₀ ν : Fin e.nComponents → ℝ) (S₀ S : Fin e.nComponents → Matrix (Fin nf) (Fin nf) ℝ),
    (∃ a, e.sub.sub.dofPri = some a ∧ StoresDof ty ν₀ a) ∧ (∃ a, e.sub.sub.dofPost = some a ∧ StoresDof ty ν a) ∧
    (∃ a, e.sub.sub.scalePri = some a ∧ StoresScale ty S₀ a) ∧ (∃ a, e.sub.sub.scalePost = some a ∧ StoresScale ty S a) ∧
    (∀ i, (nf : ℝ) - 1 < ν₀ i) ∧ (∀ i, (nf : ℝ) - 1 < ν i) ∧ (∀ i, (S₀ i).PosDef) ∧ ∀ i, (S i).PosDef

/-- Enough samples: at least one per state (`KMeans` insists), two for a covariance; and whatever the random numbers,
`KMeans` leaves no cluster empty, and none with fewer samples than columns if they become degrees of
freedom. -/
structure VEnough (ty : CovType) (R : RandomLib XF G) (e : VEst XF G (VGaussAttrs XF)) (l : List (Fin nf → ℝ)) : Prop where
  states : e.nComponents ≤ l.length
  two : FreshCovars e → 2 ≤ l.length
  clusters : ∀ g c, (R.kmeans e.nComponents (l.map fun x k => fin (x k)) g).1 = (fun i k => fin (c i k)) →
    (FreshMeans e → ∀ i, clusterSize c l i ≠ 0) ∧
    (FreshCovars e → ∀ i, (nf : ℝ) ≤ shareCount ty (fun i => clusterSize c l i) i)

/-- A call of `fit` on the object in `w` with the sequences `ss`, `lengths = ls`. -/
structure VGaussCall (ty : CovType) (R : RandomLib XF G) (impl : Impl) (w : World XF G (VAttrs XF (VGaussAttrs XF)))
    (ss : List (ObsSeq (Fin nf → ℝ))) (ls : Option (List Int)) : Prop where
  draws : PositiveDraws R
  centres : RealCentres R
  columns : nf ≠ 0
  nIter : w.est.nIter ≠ 0
  implementation : w.est.implementation = implName impl
  transmat : 't' ∈ w.est.params ∨ w.est.transmat.isSome
  params : ∀ c ∈ w.est.params, c ∈ ['s', 't', 'm', 'c']
  meansToo : 'c' ∈ w.est.params → 'm' ∈ w.est.params
  given : VGivenGauss ty w.est (samples ss)
  features : w.est.nFeatures = some nf ∨ w.est.nFeatures = none
  data : ss ≠ []
  enough : VEnough ty R w.est (samples ss)
  lengths : LengthsFor ss ls

end Verif.Spec
