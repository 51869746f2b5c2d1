import Verif.Spec.XLog
import Verif.Model.Estimator
import Mathlib.MeasureTheory.Constructions.Pi
import Mathlib.MeasureTheory.Measure.WithDensity

/-!
# Specification: the law of the observations, and a score that is its density
-/

set_option autoImplicit false

namespace Verif.Spec
open MeasureTheory
open scoped ENNReal

/-- The law of `n + 1` observations: the hidden path is `z` with probability `π(z₀) ∏ A(z_t, z_{t+1})`, and
given the path the observations are independent, that of time `t` with law `P (z t)`. -/
noncomputable def obsLaw {D : Type} [MeasurableSpace D] {nc : ℕ} (π : Fin nc → ℝ) (A : Fin nc → Fin nc → ℝ)
    (P : Fin nc → Measure D) (n : ℕ) : Measure (Fin (n + 1) → D) :=
  ∑ z : Fin (n + 1) → Fin nc,
    ENNReal.ofReal (π (z 0) * ∏ t : Fin n, A (z t.castSucc) (z t.succ)) • Measure.pi fun t => P (z t)

/-- The two methods belong together: for every number of samples there is a function `f` of the samples such
that `score` returns the logarithm of `f` and the samples drawn by `sample` (with any states) have density `f`
with respect to `ν` in each sample; `f` integrates to one.  `sample n g` is what the call returns when the
generator is in state `g`, and `P` is the law of this state. -/
def SampleMatchesScore {D G O : Type} [MeasurableSpace D] [MeasurableSpace G] (P : Measure G)
    (sample : ℕ → G → Except PyErr (List ℕ × List O)) (score : List D → Except PyErr XF) (enc : D → O)
    (ν : Measure D) : Prop :=
  ∀ n : ℕ, ∃ f : (Fin (n + 1) → D) → ℝ, (∀ x, 0 ≤ f x) ∧ (∀ x, score (List.ofFn x) = .ok (xlog (f x))) ∧
    (∀ B : Fin (n + 1) → Set D, (∀ t, MeasurableSet (B t)) →
      P {g | ∃ (zs : List ℕ) (x : Fin (n + 1) → D), sample (n + 1) g = .ok (zs, List.ofFn fun t => enc (x t)) ∧
        ∀ t, x t ∈ B t} = ∫⁻ x in Set.univ.pi B, ENNReal.ofReal (f x) ∂(Measure.pi fun _ => ν)) ∧
    ∫⁻ x, ENNReal.ofReal (f x) ∂(Measure.pi fun _ => ν) = 1

/-- The rows drawn, when they have the expected width. -/
def rowsOf {O : ℕ → Type} (nf : ℕ) (r : Except PyErr (List ℕ × ((m : ℕ) × List (O m)))) :
    Except PyErr (List ℕ × List (O nf)) :=
  match r with
  | .error e => .error e
  | .ok (zs, ⟨m, l⟩) => if h : m = nf then .ok (zs, h ▸ l) else .error .notImplemented

end Verif.Spec
