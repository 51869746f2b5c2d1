import Verif.Spec.GaussFit
import Verif.Spec.GmmModel
import Verif.Props.GmmCheck

/-!
# Specification: `fit` of a `GMMHMM` object
-/

set_option autoImplicit false

namespace Verif.Spec
open FloatLike XF
open scoped Classical

variable {G V : Type} {nc nm nf : ℕ}

/-! ## Arrays -/

/-- `t` is the array `v`. -/
def Is2 {m n : ℕ} (t : Tensor XF) (v : Fin m → Fin n → ℝ) : Prop :=
  t.shape = [m, n] ∧ ∀ (i : Fin m) (j : Fin n), t.data [i, j] = fin (v i j)

/-- `t` is the array `v`. -/
def Is3 {l m n : ℕ} (t : Tensor XF) (v : Fin l → Fin m → Fin n → ℝ) : Prop :=
  t.shape = [l, m, n] ∧ ∀ (i : Fin l) (j : Fin m) (k : Fin n), t.data [i, j, k] = fin (v i j k)

/-- `t` is the array `v`. -/
def Is4 {k l m n : ℕ} (t : Tensor XF) (v : Fin k → Fin l → Fin m → Fin n → ℝ) : Prop :=
  t.shape = [k, l, m, n] ∧ ∀ (h : Fin k) (i : Fin l) (j : Fin m) (o : Fin n), t.data [h, i, j, o] = fin (v h i j o)

/-- `idx` is an index into an array of that shape. -/
def InShape (shape idx : List ℕ) : Prop := idx.length = shape.length ∧ ∀ k < shape.length, idx.getD k 0 < shape.getD k 0

/-- `t` broadcasts to `shape` and is `a` throughout: the number `a`, or what became of it in an earlier call. -/
def Throughout (t : Tensor XF) (shape : List ℕ) (a : ℝ) : Prop :=
  Broadcasts t.shape shape ∧ ∀ idx, InShape t.shape idx → t.data idx = fin a

/-! ## The default hyper-parameters -/

/-- The default of `covars_prior`. -/
noncomputable def covPriorDefault (ty : CovType) (nm : ℕ) : ℝ :=
  match ty with
  | .spherical => -((nm : ℝ) + 2) / 2
  | .diag => -3 / 2
  | .full => 0
  | .tied => 0

/-- The default of `covars_weight`. -/
noncomputable def covWeightDefault (ty : CovType) (nm nf : ℕ) : ℝ :=
  match ty with
  | .spherical => 0
  | .diag => 0
  | .full => -(1 + (nf : ℝ) + 1)
  | .tied => -((nm : ℝ) + nf + 1)

/-- The hyper-parameters are the defaults (floating-point numbers): not given, or left so by an earlier call.
If `covars_` was set by the user, it holds floating-point numbers, too. -/
structure DefaultPriors (ty : CovType) (nc nm nf : ℕ) (p : GmmAttrs XF) : Prop where
  weights : Throughout p.weightsPrior [nc, nm] 1
  means : Throughout p.meansPrior [nc, nm, nf] 0
  meansWeight : Throughout p.meansWeight [nc, nm] 0
  covars : ∀ t, p.covarsPrior = some t → Throughout t (gmmPriorShape ty nc nm nf) (covPriorDefault ty nm)
  covarsWeight : ∀ t, p.covarsWeight = some t → Throughout t (gmmWeightShape ty nc nm nf) (covWeightDefault ty nm nf)
  floats : p.meansInt = false ∧ p.covarsInt = false

/-! ## The four kinds of covariance -/

/-- The covariances `V` of one type. -/
structure GmmForm (nc nm nf : ℕ) (V : Type) where
  ty : CovType
  /-- The arrays in which `covars_` may hold them. -/
  stored : V → Tensor XF → Prop
  /-- Those that `_check` accepts. -/
  proper : V → Prop
  /-- Those taken from the template. -/
  template : Matrix (Fin nf) (Fin nf) ℝ → V → Prop
  /-- The component densities. -/
  dens : CompDens nc nm nf V

/-- `spherical`: the mean of all entries of the template. -/
noncomputable def gmmSphericalForm (nc nm nf : ℕ) : GmmForm nc nm nf (Fin nc → Fin nm → ℝ) where
  ty := .spherical
  stored v t := Is2 t v
  proper v := ∀ i k, 0 ≤ v i k
  template M v := ∀ i k, v i k = (∑ a, ∑ b, M a b) / (nf * nf)
  dens := sphericalComp

/-- `diag`: the diagonal of the template. -/
noncomputable def gmmDiagForm (nc nm nf : ℕ) : GmmForm nc nm nf (Fin nc → Fin nm → Fin nf → ℝ) where
  ty := .diag
  stored v t := Is3 t v
  proper v := ∀ i k l, 0 ≤ v i k l
  template M v := ∀ i k l, v i k l = M l l
  dens := diagComp

/-- `full`: the template for every component. -/
noncomputable def gmmFullForm (nc nm nf : ℕ) : GmmForm nc nm nf (PsdMix nc nm nf) where
  ty := .full
  stored v t := Is4 t v.S
  proper _ := True
  template M v := ∀ i k, v.S i k = M
  dens := fullComp

/-- `tied`: the template for every state. -/
noncomputable def gmmTiedForm (nc nm nf : ℕ) : GmmForm nc nm nf (PsdState nc nf) where
  ty := .tied
  stored v t := Is3 t v.S
  proper _ := True
  template M v := ∀ i, v.S i = M
  dens := tiedComp

/-! ## Start of training -/

/-- What is assumed of `multivariate_normal`: draws with a real mean and a proper covariance are real. -/
def RealNormals (R : RandomLib XF G) : Prop :=
  ∀ {n : ℕ} (mu : Fin n → ℝ) (S : Matrix (Fin n) (Fin n) ℝ) (g : G), S.PosDef →
    ∃ x : Fin n → ℝ, (R.normal (fun k => fin (mu k)) (fun k l => fin (S k l)) g).1 = fun k => fin (x k)

/-- The squared distance of two points. -/
noncomputable def sqDist (x c : Fin nf → ℝ) : ℝ := ∑ k, (x k - c k) ^ 2

/-- The samples whose nearest centre is `c i`; of several nearest ones, the first. -/
noncomputable def clusterOf (c : Fin nc → Fin nf → ℝ) (i : Fin nc) (l : List (Fin nf → ℝ)) : List (Fin nf → ℝ) :=
  l.filter fun x => ∀ j, sqDist x (c i) ≤ sqDist x (c j) ∧ (j < i → sqDist x (c i) < sqDist x (c j))

/-- The initial component means of state `i`, given the centres `c`: the centres of its own cluster, or, if the
cluster is too small, normal draws around the mean of the centres. -/
def StateMeans (R : RandomLib XF G) (mc : ℝ) (l : List (Fin nf → ℝ)) (c : Fin nc → Fin nf → ℝ) (i : Fin nc)
    (mu : Fin nm → Fin nf → ℝ) : Prop :=
  if nm ≤ (clusterOf c i l).length then
    ∃ g, (R.kmeans nm ((clusterOf c i l).map fun x k => fin (x k)) g).1 = fun j k => fin (mu j k)
  else ∀ j, ∃ g, (R.normal (fun k => fin ((∑ i, c i k) / nc)) (fun a b => fin (templateCov mc l a b)) g).1 =
    fun k => fin (mu j k)

/-- The model from which a `GMMHMM` starts on the samples `l`. -/
structure StartsGmm (K : GmmForm nc nm nf V) (R : RandomLib XF G) (e : Est XF G (GmmAttrs XF))
    (l : List (Fin nf → ℝ)) (m : GmmPoint nc nm nf V) : Prop where
  chain : StartsChain e m.π m.A
  w_pos : ∀ i k, 0 < m.w i k
  w_sum : ∀ i, ∑ k, m.w i k = 1
  proper : K.proper m.v
  keepsWeights : ¬ Fresh e 'w' e.sub.weights → ∃ t, e.sub.weights = some t ∧ Is2 t m.w
  equalWeights : Fresh e 'w' e.sub.weights → ∀ i k, m.w i k = 1 / nm
  keepsMeans : ¬ Fresh e 'm' e.sub.means → ∃ t, e.sub.means = some t ∧ Is3 t m.mu
  centres : Fresh e 'm' e.sub.means → ∃ mc c, e.sub.minCovar = fin mc ∧
    (∃ g, (R.kmeans nc (l.map fun x k => fin (x k)) g).1 = fun i k => fin (c i k)) ∧ ∀ i, StateMeans R mc l c i (m.mu i)
  keepsCovars : ¬ Fresh e 'c' e.sub.covars → ∃ t, e.sub.covars = some t ∧ K.stored m.v t
  template : Fresh e 'c' e.sub.covars → ∃ mc, e.sub.minCovar = fin mc ∧ K.template (templateCov mc l) m.v

/-- What the user may have set in a `GMMHMM`. -/
structure GivenGmm (K : GmmForm nc nm nf V) (e : Est XF G (GmmAttrs XF)) : Prop where
  chain : GivenChain e
  weights : ¬ Fresh e 'w' e.sub.weights → ∃ (t : Tensor XF) (w : Fin nc → Fin nm → ℝ), e.sub.weights = some t ∧ Is2 t w ∧
    (∀ i k, 0 < w i k) ∧ ∀ i, ∑ k, w i k = 1
  means : ¬ Fresh e 'm' e.sub.means → ∃ (t : Tensor XF) (mu : Fin nc → Fin nm → Fin nf → ℝ), e.sub.means = some t ∧ Is3 t mu
  covars : ¬ Fresh e 'c' e.sub.covars → ∃ t v, e.sub.covars = some t ∧ K.stored v t ∧ K.proper v

/-- How an object holds a model. -/
def StoresGmm (K : GmmForm nc nm nf V) (e : Est XF G (GmmAttrs XF)) (m : GmmPoint nc nm nf V) : Prop :=
  StoresChain e nf m.π m.A ∧ (∃ t, e.sub.weights = some t ∧ Is2 t m.w) ∧ (∃ t, e.sub.means = some t ∧ Is3 t m.mu) ∧
    ∃ t, e.sub.covars = some t ∧ K.stored m.v t

/-- Training of a `GMMHMM` on `ss`; `cond` is required of new covariances. -/
noncomputable def gmmTraining (K : GmmForm nc nm nf V) (S : Sub XF G (GmmAttrs XF)) (params : List Char)
    (ss : List (ObsSeq (Fin nf → ℝ))) (cond : V → Prop) : Training G (GmmAttrs XF) (GmmPoint nc nm nf V) where
  stores := StoresGmm K
  lik m := m.L K.dens ss
  obj m := Real.log (m.L K.dens ss)
  mono _ m' := 'c' ∈ params → cond m'.v
  used m := 't' ∈ params ∧ UsedBeforeLast m.π m.A (m.b K.dens) ss
  answers e m := Answers S e realsX m.π m.A (m.b K.dens)

/-- A call of `fit` on the object in `w` with the sequences `ss`, `lengths = ls`. -/
structure GmmCall (K : GmmForm nc nm nf V) (R : RandomLib XF G) (impl : Impl) (w : World XF G (GmmAttrs XF))
    (ss : List (ObsSeq (Fin nf → ℝ))) (ls : Option (List Int)) : Prop where
  draws : PositiveDraws R
  centres : RealCentres R
  normals : RealNormals R
  columns : nf ≠ 0
  settings : FlatChain w.est impl
  priors : DefaultPriors K.ty nc nm nf w.est.sub
  params : ∀ c ∈ w.est.params, c ∈ ['s', 't', 'm', 'c', 'w']
  given : GivenGmm K w.est
  features : w.est.nFeatures = some nf ∨ w.est.nFeatures = none
  data : ss ≠ []
  clusters : nc ≤ (samples ss).length
  two : 2 ≤ (samples ss).length
  minCovar : ∃ mc, 0 < mc ∧ w.est.sub.minCovar = fin mc
  lengths : LengthsFor ss ls
  used : ∀ m, StartsGmm K R w.est (samples ss) m → EveryStateUsed m.π m.A (m.b K.dens) ss

/-- The object ends as the training of a model from which it may start leaves it. -/
def FitsGmm (K : GmmForm nc nm nf V) (S : Sub XF G (GmmAttrs XF)) (R : RandomLib XF G) (impl : Impl)
    (w : World XF G (GmmAttrs XF)) (ss : List (ObsSeq (Fin nf → ℝ))) (ls : Option (List Int)) (cond : V → Prop) : Prop :=
  ∃ m₀, StartsGmm K R w.est (samples ss) m₀ ∧
    TrainsFrom (gmmTraining K S w.est.params ss cond) m₀ w.est impl
      ((S.fit R (realsX (samples ss)) ls w).1, (S.fit R (realsX (samples ss)) ls w).2.est)

/-- Everything is initialised from the data and trained, some sequence has two samples. -/
structure GmmFresh (ty : CovType) (nm : ℕ) (w : World XF G (GmmAttrs XF)) (ss : List (ObsSeq (Fin nf → ℝ)))
    (ls : Option (List Int)) : Prop where
  settings : FlatChain w.est .log
  priors : DefaultPriors ty w.est.nComponents nm nf w.est.sub
  init : ∀ c ∈ ['s', 't', 'm', 'c', 'w'], c ∈ w.est.initParams
  params : w.est.params = ['s', 't', 'm', 'c', 'w']
  features : w.est.nFeatures = some nf ∨ w.est.nFeatures = none
  minCovar : ∃ mc, 0 < mc ∧ w.est.sub.minCovar = fin mc
  long : ∃ s ∈ ss, s.n ≠ 0
  clusters : w.est.nComponents ≤ (samples ss).length
  lengths : LengthsFor ss ls

/-- `fit` returns and the methods of the object answer for a model it then holds. -/
def GmmTrained (K : GmmForm nc nm nf V) (S : Sub XF G (GmmAttrs XF)) (R : RandomLib XF G)
    (w : World XF G (GmmAttrs XF)) (ss : List (ObsSeq (Fin nf → ℝ))) (ls : Option (List Int)) : Prop :=
  (S.fit R (realsX (samples ss)) ls w).1 = .ok () ∧ ∃ m, StoresGmm K (S.fit R (realsX (samples ss)) ls w).2.est m ∧
    Answers S (S.fit R (realsX (samples ss)) ls w).2.est realsX m.π m.A (m.b K.dens)

end Verif.Spec
