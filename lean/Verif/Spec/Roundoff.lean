import Verif.Num.Trapped
import Verif.Spec.Data
import Verif.Spec.Categorical
import Verif.Model.Categorical
import Mathlib.Analysis.SpecialFunctions.Log.Basic

/-!
# Specification: relative error

`Within q k x y`: `x` and `y` agree up to a factor between `q^k` and `q^(-k)`; with `q = 1 - u` this
is `k` relative errors of at most `u`, each of them made in either direction.
-/

set_option autoImplicit false

namespace Verif.Spec

/-- `x` and `y` agree up to `k` factors of `q`. -/
def Within (q : ℝ) (k : ℕ) (x y : ℝ) : Prop := q ^ k * y ≤ x ∧ q ^ k * x ≤ y

/-- The floating-point number `x` is NaN (some result has left the range), or it is a finite number
within `k` relative errors of the non-negative real `y`. -/
def Near {τ : Trapped} (k : ℕ) (x : TX τ) (y : ℝ) : Prop :=
  x = TX.nan τ ∨ ∃ r, x = TX.fin τ r ∧ 0 ≤ y ∧ Within (1 - τ.u) k r y

/-- The floating-point number `x` is finite and within `k` relative errors of `y ≥ 0`. -/
def Close {τ : Trapped} (k : ℕ) (x : TX τ) (y : ℝ) : Prop :=
  ∃ r, x = TX.fin τ r ∧ 0 ≤ y ∧ Within (1 - τ.u) k r y

/-- The floating-point model `m` stands for the real one: start probabilities, transition
probabilities and the likelihoods the emission code returns are exact up to `kp`, `ka` and `kb`
relative errors (`0`: the stored doubles are the parameters). -/
structure Approximates {τ : Trapped} {nc : ℕ} {Obs D : Type} (m : Hmm (TX τ) nc Obs) (obs : D → Obs)
    (kp ka kb : ℕ) (π : Fin nc → ℝ) (A : Fin nc → Fin nc → ℝ) (b : D → Fin nc → ℝ) : Prop where
  startprob : ∀ i, Near kp (m.startprob i) (π i)
  transmat : ∀ i j, Near ka (m.transmat i j) (A i j)
  lik : ∀ X : List D, ∃ rows, m.computeLikelihood (X.map obs) = .ok rows ∧
    List.Forall₂ (fun (row : Row (TX τ) nc) o => ∀ i, Near kb (row i) (b o i)) rows X

/-- Roundings on the way from the parameters to the likelihood of `n + 1` samples: each further sample
costs one product and one sum over the states, one product with the likelihood and one scaling. -/
def steps (nc n kp ka kb : ℕ) : ℕ := kp + kb + 2 + n * (ka + kb + nc + 3) + nc

variable {nc n : ℕ}

/-- Predictive probability (density) `p(x_t | x_0 … x_{t-1})`. -/
noncomputable def predictive (π : Fin nc → ℝ) (A : Fin nc → Fin nc → ℝ) (B : Fin (n + 1) → Fin nc → ℝ) :
    Fin (n + 1) → ℝ :=
  Fin.cases (prefixLikelihood π A B 0)
    fun t => prefixLikelihood π A B t.succ / prefixLikelihood π A B t.castSucc

/-- Sum of the absolute log predictive probabilities. -/
noncomputable def surprise (π : Fin nc → ℝ) (A : Fin nc → Fin nc → ℝ) (B : Fin (n + 1) → Fin nc → ℝ) : ℝ :=
  ∑ t, |Real.log (predictive π A B t)|

/-- What one relative error of `u` changes in a logarithm, about `u`. -/
noncomputable def loss (u : ℝ) : ℝ := -Real.log (1 - u)

/-- Bound on the error of the log-likelihood of `T` samples after `K` roundings per likelihood, `V` the
surprise: about `(T + 1) u V + K u`. -/
noncomputable def scoreError (u : ℝ) (T K : ℕ) (V : ℝ) : ℝ :=
  ((1 + u) ^ (T + 1) - 1) * (V + T * (2 * K * loss u)) + K * loss u

/-- The same for a data set: the log-likelihoods of the sequences, each with its own error, are added
up one after the other. -/
noncomputable def dataError {D : Type} (u : ℝ) (kp ka kb : ℕ) (π : Fin nc → ℝ) (A : Fin nc → Fin nc → ℝ)
    (b : D → Fin nc → ℝ) (ss : List (ObsSeq D)) : ℝ :=
  ((1 + u) ^ ss.length - 1) * (ss.map fun s => |Real.log (likelihood π A (s.weights b))|).sum +
    (1 + u) ^ ss.length * (ss.map fun s =>
      scoreError u (s.n + 1) (steps nc s.n kp ka kb) (surprise π A (s.weights b))).sum

/-! ## EM -/

/-- Parameters of a categorical model. -/
structure CatParams (nc nf : ℕ) where
  π : Fin nc → ℝ
  A : Fin nc → Fin nc → ℝ
  e : Fin nc → Fin nf → ℝ

/-- One EM iteration of a categorical model with Dirichlet priors, in real numbers. -/
noncomputable def catEM {nf : ℕ} (params : List Char) (sp : Fin nc → ℝ) (tp : Fin nc → Fin nc → ℝ)
    (ep : Fin nc → Fin nf → ℝ) (ss : List (ObsSeq (Fin nf))) (θ : CatParams nc nf) : CatParams nc nf where
  π := if 's' ∈ params then mapUpdate sp θ.π (startStat θ.π θ.A (catB θ.e) ss) else θ.π
  A := if 't' ∈ params then fun i => mapUpdate (tp i) (θ.A i) (transStat θ.π θ.A (catB θ.e) ss i)
    else θ.A
  e := if 'e' ∈ params then fun i => mapUpdate (ep i) (fun _ => 1) (emitCount θ.π θ.A θ.e ss i)
    else θ.e

/-- The floating-point parameters `θ'` of a `CategoricalHMM` are the real ones up to `K` relative errors
(emission probabilities of symbols that do not occur may also be NaN). -/
structure NearModel {τ : Trapped} {nf : ℕ} (K : ℕ) (θ' : Theta (TX τ) nc (Categorical.Params (TX τ) nc nf))
    (θ : CatParams nc nf) : Prop where
  startprob : ∀ i, Close K (θ'.startprob i) (θ.π i)
  transmat : ∀ i j, Close K (θ'.transmat i j) (θ.A i j)
  emission : ∀ i k, Near K (θ'.emission i k) (θ.e i k)

/-- No start or transition probability is NaN. -/
def NoNaN {τ : Trapped} {P : Type} (θ : Theta (TX τ) nc P) : Prop :=
  (∀ i, θ.startprob i ≠ TX.nan τ) ∧ ∀ i j, θ.transmat i j ≠ TX.nan τ

/-- Number of samples of a data set. -/
def totalSamples {D : Type} (ss : List (ObsSeq D)) : ℕ := (ss.map fun s => s.n + 1).sum

/-- Roundings in an expected count: sequences of at most `N + 1` samples, `M` samples in all,
parameters with `K` relative errors. -/
def countSteps (nc N M K : ℕ) : ℕ := 2 * steps nc N K K K + N + 2 + M

/-- Roundings in the parameters after one EM iteration. -/
def emSteps (nc nf N M K : ℕ) : ℕ := 2 * (countSteps nc N M K + 2) + nc + nf + 1

end Verif.Spec
