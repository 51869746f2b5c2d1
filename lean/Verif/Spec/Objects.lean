import Verif.Spec.Data
import Verif.Spec.Represents
import Verif.Spec.Train
import Verif.Spec.XLog
import Verif.Spec.Validation
import Verif.Spec.Categorical
import Verif.Spec.Multinomial
import Verif.Spec.Poisson
import Verif.Spec.Mvn
import Verif.Model.Estimators

/-!
# Specification: an estimator object and the model its attributes stand for
-/

set_option autoImplicit false

namespace Verif.Spec
open FloatLike XF
open scoped Classical

variable {D G P : Type} {nc nf : ℕ}

/-- All samples of a data set, in order. -/
def samples (ss : List (ObsSeq D)) : List D := (ss.map fun s => List.ofFn s.x).flatten

/-- What may be passed as `lengths`: the lengths, or `None` for one sequence. -/
def LengthsFor (ss : List (ObsSeq D)) (ls : Option (List Int)) : Prop :=
  ls = some (dataLengths ss) ∨ (∃ s, ss = [s]) ∧ ls = none

/-- Symbols as the column `X`. -/
def symbolsX (l : List (Fin nf)) : RawX XF := .ints (.d2 (m := l.length) (n := 1) fun t _ => ((l.get t).val : ℤ))

/-- Counts as the array `X`. -/
def countsX (l : List (Fin nf → ℕ)) : RawX XF := .ints (.d2 (m := l.length) fun t k => (l.get t k : ℤ))

/-- Real vectors as the array `X`. -/
noncomputable def realsX (l : List (Fin nf → ℝ)) : RawX XF := .floats (.d2 (m := l.length) fun t k => fin (l.get t k))

/-- Integer vectors as the array `X` of a model of real data. -/
def intsX (l : List (Fin nf → ℤ)) : RawX XF := .ints (.d2 (m := l.length) fun t k => l.get t k)

/-- The value of the `implementation` argument. -/
def implName : Impl → String
  | .log => "log"
  | .scaling => "scaling"

/-- The decoder that is asked for: the argument, or the object's own if it is missing or empty. -/
def chosen (arg : Option String) (own : String) : String := if arg.getD "" = "" then own else arg.getD ""

/-- The inference methods of a class. -/
structure Methods (G P : Type) where
  score : RawX XF → Option (List Int) → Py (Est XF G P) XF
  predictProba : RawX XF → Option (List Int) → Py (Est XF G P) (List (List XF))
  decode : RawX XF → Option (List Int) → Option String → Py (Est XF G P) (XF × List Nat)
  predict : RawX XF → Option (List Int) → Py (Est XF G P) (List Nat)

/-- Those of a class derived from `BaseHMM`. -/
noncomputable abbrev methodsOf (S : Sub XF G P) : Methods G P := ⟨S.score, S.predictProba, S.decode, S.predict⟩

/-- The public methods of the object `e` answer for the model with initial distribution `π`, transition
matrix `A` and emission weights `b`, on every data set (`X` is the concatenation of the sequences). -/
structure AnswersBy (S : Methods G P) (e : Est XF G P) (X : List D → RawX XF) (π : Fin nc → ℝ)
    (A : Fin nc → Fin nc → ℝ) (b : D → Fin nc → ℝ) : Prop where
  /-- `score`: the log-likelihood, -/
  score : e.implementation = "log" → ∀ ss ls, ss ≠ [] → LengthsFor ss ls →
    (S.score (X (samples ss)) ls e).1 = .ok (xlog (dataLikelihood π A b ss))
  /-- with scaling only if no predictive probability underflows. -/
  score_scaling : e.implementation = "scaling" → ∀ ss ls, ss ≠ [] → LengthsFor ss ls →
    (S.score (X (samples ss)) ls e).1 = if ∀ s ∈ ss, NoUnderflow π A (s.weights b)
      then .ok (xlog (dataLikelihood π A b ss)) else .error .underflow
  /-- `predict_proba`: the smoothing posteriors. -/
  proba : ∀ impl, e.implementation = implName impl → ∀ ss ls, ss ≠ [] → LengthsFor ss ls →
    (∀ s ∈ ss, EstepOk impl π A (s.weights b)) → (S.predictProba (X (samples ss)) ls e).1 =
      .ok (ss.map fun s => List.ofFn fun t => List.ofFn fun i => fin (posterior π A (s.weights b) t i)).flatten
  /-- `decode` with Viterbi: a most probable path of every sequence and the log of their joint weight. -/
  viterbi : ∀ alg, chosen alg e.algorithm = "viterbi" → ∀ ss ls, ss ≠ [] → LengthsFor ss ls →
    ∃ z : (s : ObsSeq D) → Fin (s.n + 1) → Fin nc, (S.decode (X (samples ss)) ls alg e).1 =
        .ok (xlog (ss.map fun s => joint π A (s.weights b) (z s)).prod,
          (ss.map fun s => List.ofFn fun t => (z s t).val).flatten) ∧
      ∀ s ∈ ss, ∀ z', joint π A (s.weights b) z' ≤ joint π A (s.weights b) (z s)
  /-- `decode` with MAP: at every time the first most probable state. -/
  map : ∀ alg, chosen alg e.algorithm = "map" → ∀ impl, e.implementation = implName impl →
    ∀ ss ls, ss ≠ [] → LengthsFor ss ls → (∀ s ∈ ss, EstepOk impl π A (s.weights b)) →
    ∃ z : (s : ObsSeq D) → Fin (s.n + 1) → Fin nc, (S.decode (X (samples ss)) ls alg e).1 =
        .ok (fin (ss.map fun s => ∑ t, posterior π A (s.weights b) t (z s t)).sum,
          (ss.map fun s => List.ofFn fun t => (z s t).val).flatten) ∧
      ∀ s ∈ ss, ∀ t, (∀ i, posterior π A (s.weights b) t i ≤ posterior π A (s.weights b) t (z s t)) ∧
        ∀ i, i < z s t → posterior π A (s.weights b) t i < posterior π A (s.weights b) t (z s t)
  /-- `predict`: the states of `decode` with the algorithm of the object. -/
  predict : ∀ ss ls, (S.predict (X (samples ss)) ls e).1 = (S.decode (X (samples ss)) ls none e).1.map Prod.snd

/-- The claim for a class derived from `BaseHMM`. -/
abbrev Answers (S : Sub XF G P) (e : Est XF G P) (X : List D → RawX XF) (π : Fin nc → ℝ)
    (A : Fin nc → Fin nc → ℝ) (b : D → Fin nc → ℝ) : Prop := AnswersBy (methodsOf S) e X π A b

/-! ## What the attributes hold -/

/-- `startprob_` and `transmat_` are arrays of non-negative numbers, each distribution summing to one
within the tolerance of `_check`. -/
structure HoldsChain (e : Est XF G P) (π : Fin e.nComponents → ℝ)
    (A : Fin e.nComponents → Fin e.nComponents → ℝ) : Prop where
  startprob : e.startprob = some (vec π)
  transmat : e.transmat = some (mat A)
  π_nonneg : ∀ i, 0 ≤ π i
  A_nonneg : ∀ i j, 0 ≤ A i j
  π_sum : NearOne (∑ i, π i)
  A_sum : ∀ i, NearOne (∑ j, A i j)

/-- `n_features` is `nf` or not set. -/
def FeaturesAre (e : Est XF G P) (nf : ℕ) : Prop := ∀ n, e.nFeatures = some n → n = nf

/-- A `CategoricalHMM` with emission probabilities `B`. -/
structure HoldsCat (e : Est XF G (CatAttrs XF)) (π : Fin e.nComponents → ℝ)
    (A : Fin e.nComponents → Fin e.nComponents → ℝ) (B : Fin e.nComponents → Fin nf → ℝ) : Prop where
  chain : HoldsChain e π A
  features : FeaturesAre e nf
  emissionprob : e.sub.emissionprob = some (mat B)
  nonneg : ∀ i k, 0 ≤ B i k
  sum : ∀ i, NearOne (∑ k, B i k)

/-- A `MultinomialHMM` with emission probabilities `B`. -/
structure HoldsMulti (e : Est XF G (MultiAttrs XF)) (π : Fin e.nComponents → ℝ)
    (A : Fin e.nComponents → Fin e.nComponents → ℝ) (B : Fin e.nComponents → Fin nf → ℝ) : Prop where
  chain : HoldsChain e π A
  features : FeaturesAre e nf
  emissionprob : e.sub.emissionprob = some (mat B)
  nonneg : ∀ i k, 0 ≤ B i k
  sum : ∀ i, ∑ k, B i k = 1
  trials : e.sub.nTrials.isSome

/-- A `PoissonHMM` with rates `l`. -/
structure HoldsPois (e : Est XF G (PoisAttrs XF)) (π : Fin e.nComponents → ℝ)
    (A : Fin e.nComponents → Fin e.nComponents → ℝ) (l : Fin e.nComponents → Fin nf → ℝ) : Prop where
  chain : HoldsChain e π A
  features : FeaturesAre e nf
  lambdas : e.sub.lambdas = some (mat l)
  nonneg : ∀ i k, 0 ≤ l i k

/-- A `GaussianHMM` with means `mu` and `covars_` stored as `c`. -/
structure HoldsGauss (e : Est XF G (GaussAttrs XF)) (π : Fin e.nComponents → ℝ)
    (A : Fin e.nComponents → Fin e.nComponents → ℝ) (mu : Fin e.nComponents → Fin nf → ℝ) (c : NdArray XF) : Prop where
  chain : HoldsChain e π A
  means : e.sub.means = some (mat mu)
  covars : e.sub.covars = some c

/-- The arrays in which one variance per state may be stored. -/
inductive StoresSpherical (nc nf : ℕ) (s : Fin nc → ℝ) : NdArray XF → Prop
  | scalar : StoresSpherical nc nf s (vec s)
  | column : StoresSpherical nc nf s (mat fun i (_ : Fin 1) => s i)
  | tiled : StoresSpherical nc nf s (mat fun i (_ : Fin nf) => s i)

/-- Independent normal coordinates. -/
noncomputable def normalB (mu v : Fin nc → Fin nf → ℝ) (x : Fin nf → ℝ) (i : Fin nc) : ℝ :=
  ∏ k, normalPdf (mu i k) (v i k) (x k)

/-- Multivariate normal densities. -/
noncomputable def mvnB (mu : Fin nc → Fin nf → ℝ) (S : Fin nc → Matrix (Fin nf) (Fin nf) ℝ) (x : Fin nf → ℝ)
    (i : Fin nc) : ℝ := mvnPdf (mu i) (S i) x

end Verif.Spec
