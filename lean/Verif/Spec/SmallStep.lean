import Verif.Spec.Roundoff

/-!
# How far an iteration moves the parameters

Nothing here depends on the model of the code.
-/
set_option autoImplicit false

namespace Verif.Spec
open Finset

variable {nc nf : ℕ}

/-- Squared Hellinger distance of two distributions (without the usual factor `1/2`). -/
noncomputable def hellinger {ι : Type*} [Fintype ι] (p q : ι → ℝ) : ℝ := ∑ i, (√(p i) - √(q i)) ^ 2

/-- Pseudo-observations on which the new value of a distribution is based. -/
noncomputable def evidenceOf {ι : Type*} [Fintype ι] (prior old stat : ι → ℝ) : ℝ :=
  ∑ i, mapCounts prior old stat i

/-- Length of the step from `θ` to `θ'`: the squared Hellinger distances of the rows, each weighted with the
number of (pseudo-)observations behind the row. -/
noncomputable def stepSize (sp : Fin nc → ℝ) (tp : Fin nc → Fin nc → ℝ) (ep : Fin nc → Fin nf → ℝ)
    (ss : List (ObsSeq (Fin nf))) (θ θ' : CatParams nc nf) : ℝ :=
  evidenceOf sp θ.π (startStat θ.π θ.A (catB θ.e) ss) * hellinger θ'.π θ.π +
  ∑ i, evidenceOf (tp i) (θ.A i) (transStat θ.π θ.A (catB θ.e) ss i) * hellinger (θ'.A i) (θ.A i) +
  ∑ i, evidenceOf (ep i) (θ.e i) (emitCount θ.π θ.A θ.e ss i) * hellinger (θ'.e i) (θ.e i)

/-- The likelihood equations up to `ε`: every row of the parameters that training changes, multiplied by the
number of observations behind it, agrees with the expected counts under the parameters themselves. -/
structure NearlySolves (params : List Char) (ss : List (ObsSeq (Fin nf))) (ε : ℝ) (θ : CatParams nc nf) :
    Prop where
  start : 's' ∈ params → ∀ i, |startStat θ.π θ.A (catB θ.e) ss i - ss.length * θ.π i| ≤ ε
  trans : 't' ∈ params → ∀ i j, |transStat θ.π θ.A (catB θ.e) ss i j -
    (∑ k, transStat θ.π θ.A (catB θ.e) ss i k) * θ.A i j| ≤ ε
  emit : 'e' ∈ params → ∀ i k, |emitCount θ.π θ.A θ.e ss i k - visitCount θ.π θ.A θ.e ss i * θ.e i k| ≤ ε

/-- The likelihood equations. -/
def LikelihoodEquations (params : List Char) (ss : List (ObsSeq (Fin nf))) (θ : CatParams nc nf) : Prop :=
  NearlySolves params ss 0 θ

/-- The point of the segment from `θ` to `θ'` at the fraction `t`. -/
def towards (θ θ' : CatParams nc nf) (t : ℝ) : CatParams nc nf where
  π i := θ.π i + t * (θ'.π i - θ.π i)
  A i j := θ.A i j + t * (θ'.A i j - θ.A i j)
  e i k := θ.e i k + t * (θ'.e i k - θ.e i k)

/-- Where training may go from `θ`: to models with the same zeros that agree with `θ` on what is not trained. -/
structure Feasible (params : List Char) (θ θ' : CatParams nc nf) : Prop where
  model : CatModel θ'.π θ'.A θ'.e
  start_zero : ∀ i, θ.π i = 0 → θ'.π i = 0
  trans_zero : ∀ i j, θ.A i j = 0 → θ'.A i j = 0
  emit_zero : ∀ i k, θ.e i k = 0 → θ'.e i k = 0
  start_fixed : 's' ∉ params → θ'.π = θ.π
  trans_fixed : 't' ∉ params → θ'.A = θ.A
  emit_fixed : 'e' ∉ params → θ'.e = θ.e

end Verif.Spec
