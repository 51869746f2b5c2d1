import Verif.Spec.ObjectFit
import Verif.Spec.Gaussian
import Verif.Spec.Mvn

/-!
# Specification: `fit` of a `GaussianHMM` object
-/

set_option autoImplicit false

namespace Verif.Spec
open FloatLike XF

variable {G M : Type} {nc nf : ℕ}

/-! ## The data -/

/-- Mean of a column. -/
noncomputable def colMean (l : List (Fin nf → ℝ)) (k : Fin nf) : ℝ := (l.map fun x => x k).sum / l.length

/-- The unbiased sample covariance. -/
noncomputable def sampleCov (l : List (Fin nf → ℝ)) : Matrix (Fin nf) (Fin nf) ℝ :=
  ((l.length : ℝ) - 1)⁻¹ • (l.map fun x => Matrix.vecMulVec (fun k => x k - colMean l k) fun k => x k - colMean l k).sum

/-- The sample covariance plus `min_covar` on the diagonal. -/
noncomputable def templateCov (mc : ℝ) (l : List (Fin nf → ℝ)) : Matrix (Fin nf) (Fin nf) ℝ := sampleCov l + mc • 1

/-! ## The four kinds of covariance -/

/-- The models `M` of one covariance type. -/
structure GaussForm (nc nf : ℕ) (M : Type) where
  π : M → Fin nc → ℝ
  A : M → Fin nc → Fin nc → ℝ
  mu : M → Fin nc → Fin nf → ℝ
  /-- The arrays in which `_covars_` may hold the covariances. -/
  stored : M → NdArray XF → Prop
  /-- Covariances from which training may start. -/
  proper : M → Prop
  /-- The covariances taken from the template. -/
  template : Matrix (Fin nf) (Fin nf) ℝ → M → Prop
  /-- The emission weights. -/
  b : M → (Fin nf → ℝ) → Fin nc → ℝ

/-- `diag`: the diagonal of the template in every state. -/
noncomputable def diagForm (nc nf : ℕ) : GaussForm nc nf (DiagPoint nc nf) where
  π := (·.π)
  A := (·.A)
  mu := (·.mu)
  stored m c := c = mat m.v
  proper _ := True
  template T m := ∀ i k, m.v i k = T k k
  b m := diagB m.mu m.v

/-- `spherical`: the mean of all entries of the template in every state. -/
noncomputable def sphericalForm (nc nf : ℕ) : GaussForm nc nf (DiagPoint nc nf) where
  π := (·.π)
  A := (·.A)
  mu := (·.mu)
  stored m c := ∃ s : Fin nc → ℝ, (∀ i k, m.v i k = s i) ∧ StoresSpherical nc nf s c
  proper _ := True
  template T m := ∀ i k, m.v i k = (∑ k, ∑ l, T k l) / (nf * nf)
  b m := diagB m.mu m.v

/-- `full`: the template in every state. -/
noncomputable def fullForm (nc nf : ℕ) : GaussForm nc nf (FullPoint nc nf) where
  π := (·.π)
  A := (·.A)
  mu := (·.mu)
  stored m c := c = cube m.S
  proper m := ∀ i, (m.S i).PosSemidef
  template T m := ∀ i, m.S i = T
  b m := fullB m.mu m.S

/-- `tied`: the template. -/
noncomputable def tiedForm (nc nf : ℕ) : GaussForm nc nf (TiedPoint nc nf) where
  π := (·.π)
  A := (·.A)
  mu := (·.mu)
  stored m c := c = mat m.S
  proper m := m.S.PosSemidef
  template T m := m.S = T
  b m := fullB m.mu fun _ => m.S

/-! ## Start of training -/

/-- What is assumed of `KMeans`: the centres of real data are real. -/
def RealCentres (R : RandomLib XF G) : Prop :=
  ∀ (n : ℕ) {d : ℕ} (l : List (Fin d → ℝ)) (g : G), ∃ c : Fin n → Fin d → ℝ,
    (R.kmeans n (l.map fun x k => fin (x k)) g).1 = fun i k => fin (c i k)

/-- The model from which a `GaussianHMM` starts on the samples `l`. -/
structure StartsGauss (K : GaussForm nc nf M) (R : RandomLib XF G) (e : Est XF G (GaussAttrs XF))
    (l : List (Fin nf → ℝ)) (m : M) : Prop where
  chain : StartsChain e (K.π m) (K.A m)
  proper : K.proper m
  keepsMeans : ¬ Fresh e 'm' e.sub.means → e.sub.means = some (mat (K.mu m))
  centres : Fresh e 'm' e.sub.means → ∃ g, (R.kmeans nc (l.map fun x k => fin (x k)) g).1 = fun i k => fin (K.mu m i k)
  keepsCovars : ¬ Fresh e 'c' e.sub.covars → ∃ c, e.sub.covars = some c ∧ K.stored m c
  template : Fresh e 'c' e.sub.covars → ∃ mc, e.sub.minCovar = fin mc ∧ K.template (templateCov mc l) m

/-- What the user may have set in a `GaussianHMM`. -/
structure GivenGauss (K : GaussForm nc nf M) (e : Est XF G (GaussAttrs XF)) : Prop where
  chain : GivenChain e
  means : ¬ Fresh e 'm' e.sub.means → ∃ mu : Fin nc → Fin nf → ℝ, e.sub.means = some (mat mu)
  covars : ¬ Fresh e 'c' e.sub.covars → ∃ c m, e.sub.covars = some c ∧ K.stored m c ∧ K.proper m

/-- Enough samples for what has to be computed from them, and a positive `min_covar`. -/
structure Enough (e : Est XF G (GaussAttrs XF)) (l : List (Fin nf → ℝ)) : Prop where
  centres : Fresh e 'm' e.sub.means → e.nComponents ≤ l.length
  covars : Fresh e 'c' e.sub.covars → 2 ≤ l.length ∧ ∃ mc, 0 < mc ∧ e.sub.minCovar = fin mc

/-- How an object holds a model. -/
def StoresGauss (K : GaussForm nc nf M) (e : Est XF G (GaussAttrs XF)) (m : M) : Prop :=
  StoresChain e nf (K.π m) (K.A m) ∧ e.sub.means = some (mat (K.mu m)) ∧ ∃ c, e.sub.covars = some c ∧ K.stored m c

/-- `means_prior`, `means_weight`, `covars_weight`. -/
structure PriorIs (e : Est XF G (GaussAttrs XF)) (g : GaussPrior nc nf) : Prop where
  means : ∀ (i : Fin nc) (k : Fin nf), e.sub.meansPrior i k = fin (g.mp i k)
  meansWeight : e.sub.meansWeight = fin g.mw
  covarsWeight : e.sub.covarsWeight = fin g.cw

/-- Training of a `GaussianHMM` on `ss`. -/
noncomputable def gaussTraining (K : GaussForm nc nf M) (S : Sub XF G (GaussAttrs XF)) (params : List Char)
    (ss : List (ObsSeq (Fin nf → ℝ))) (obj : M → ℝ) (mono : M → M → Prop) : Training G (GaussAttrs XF) M where
  stores := StoresGauss K
  lik m := dataLikelihood (K.π m) (K.A m) (K.b m) ss
  obj := obj
  mono := mono
  used m := 't' ∈ params ∧ UsedBeforeLast (K.π m) (K.A m) (K.b m) ss
  answers e m := Answers S e realsX (K.π m) (K.A m) (K.b m)

/-- A call of `fit` on the object in `w` with the sequences `ss`, `lengths = ls`. -/
structure GaussCall (K : GaussForm nc nf M) (R : RandomLib XF G) (impl : Impl) (w : World XF G (GaussAttrs XF))
    (ss : List (ObsSeq (Fin nf → ℝ))) (ls : Option (List Int)) : Prop where
  draws : PositiveDraws R
  centres : RealCentres R
  columns : nf ≠ 0
  settings : FlatChain w.est impl
  params : ∀ c ∈ w.est.params, c ∈ ['s', 't', 'm', 'c']
  meansToo : 'c' ∈ w.est.params → 'm' ∈ w.est.params
  given : GivenGauss K w.est
  features : w.est.nFeatures = some nf ∨ w.est.nFeatures = none
  data : ss ≠ []
  enough : Enough w.est (samples ss)
  lengths : LengthsFor ss ls

/-- The object ends as the training of a model from which it may start leaves it. -/
def FitsGauss (K : GaussForm nc nf M) (S : Sub XF G (GaussAttrs XF)) (R : RandomLib XF G) (impl : Impl)
    (w : World XF G (GaussAttrs XF)) (ss : List (ObsSeq (Fin nf → ℝ))) (ls : Option (List Int)) (obj : M → ℝ)
    (mono : M → M → Prop) : Prop :=
  ∃ m₀ : M, StartsGauss K R w.est (samples ss) m₀ ∧
    TrainsFrom (gaussTraining K S w.est.params ss obj mono) m₀ w.est impl
      ((S.fit R (realsX (samples ss)) ls w).1, (S.fit R (realsX (samples ss)) ls w).2.est)

/-- Everything is initialised from the data and trained, some sequence has two samples. -/
structure GaussFresh (w : World XF G (GaussAttrs XF)) (ss : List (ObsSeq (Fin nf → ℝ))) (ls : Option (List Int)) : Prop where
  settings : FlatChain w.est .log
  init : ∀ c ∈ ['s', 't', 'm', 'c'], c ∈ w.est.initParams
  params : w.est.params = ['s', 't', 'm', 'c']
  features : w.est.nFeatures = some nf ∨ w.est.nFeatures = none
  minCovar : ∃ mc, 0 < mc ∧ w.est.sub.minCovar = fin mc
  long : ∃ s ∈ ss, s.n ≠ 0
  enough : w.est.nComponents ≤ (samples ss).length
  lengths : LengthsFor ss ls

/-- `fit` returns and the methods of the object answer for a model it then holds. -/
def GaussTrained (K : GaussForm nc nf M) (S : Sub XF G (GaussAttrs XF)) (R : RandomLib XF G)
    (w : World XF G (GaussAttrs XF)) (ss : List (ObsSeq (Fin nf → ℝ))) (ls : Option (List Int)) : Prop :=
  (S.fit R (realsX (samples ss)) ls w).1 = .ok () ∧ ∃ m, StoresGauss K (S.fit R (realsX (samples ss)) ls w).2.est m ∧
    Answers S (S.fit R (realsX (samples ss)) ls w).2.est realsX (K.π m) (K.A m) (K.b m)

end Verif.Spec
