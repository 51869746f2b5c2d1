import Verif.Model.Estimator
import Verif.Spec.Sampling
import Verif.Num.XF
/-
Continuing a sample from its last state, the example in the documentation of `sample`, base.py:419-424.
-/
set_option autoImplicit false

namespace Verif.Spec

variable {α G P : Type} [FloatLike α]

/-- States and observations as `sample` returns them. -/
abbrev Sampled (S : Sub α G P) := List Nat × ((nf : Nat) × List (S.Obs nf))

/-- `Z1, X1 = sample(n)`, then `Z2, X2 = sample(m, currstate=Z1[-1])`. -/
def sampleTwice (S : Sub α G P) (R : RandomLib α G) (n m : Int) : Py (World α G P) (Sampled S × Sampled S) := do
  let a ← S.sample R n none none
  let b ← S.sample R m none a.1.getLast?
  pure (a, b)

/-- The states are `z t`, `z (t + 1)`, … and the observations lie in `B t`, `B (t + 1)`, …. -/
def Follows {nc : ℕ} {Obs : Type} (z : ℕ → Fin nc) (B : ℕ → Set Obs) : ℕ → List ℕ → List Obs → Prop
  | _, [], [] => True
  | t, s :: Z, x :: X => s = z t ∧ x ∈ B t ∧ Follows z B (t + 1) Z X
  | _, _, _ => False

/-- Some step of the state sequence has no probability. -/
def ImpossibleStep {nc : ℕ} (A : Fin nc → Fin nc → ℝ) (Z : List ℕ) : Prop :=
  ∃ (l r : List ℕ) (i j : Fin nc), Z = l ++ i.val :: j.val :: r ∧ A i j = 0

/-- `b 0 = sample(n)` and `b (i + 1) = sample(n, currstate=b_i[-1])`, on the objects `w i`. -/
structure Chained (S : Sub α G P) (R : RandomLib α G) (n : Int) (w : ℕ → World α G P) (b : ℕ → Sampled S) : Prop where
  first : S.sample R n none none (w 0) = (.ok (b 0), w 1)
  next : ∀ i, S.sample R n none (b i).1.getLast? (w (i + 1)) = (.ok (b (i + 1)), w (i + 2))

/-- A sample and its continuation without the repeated element have the law of the longer sample: whatever the states
`z` and the sets `B` of observations, following them is equally probable. -/
def Continues {G P : Type} [MeasurableSpace G] (Q : MeasureTheory.Measure G) (S : Sub XF G P) (R : RandomLib XF G) (e : Est XF G P)
    (nf : ℕ) [MeasurableSpace (S.Obs nf)] : Prop :=
  ∀ (n m : ℕ) (z : ℕ → Fin e.nComponents) (B : ℕ → Set (S.Obs nf)), (∀ t, MeasurableSet (B t)) →
    Q {g | ∃ Z X Z' X' w', sampleTwice S R (n + 1) (m + 1) ⟨e, g⟩ = (.ok ((Z, ⟨nf, X⟩), (Z', ⟨nf, X'⟩)), w') ∧
        Follows z B 0 (Z ++ Z'.tail) (X ++ X'.tail)} =
      Q {g | ∃ Z X w', S.sample R (n + m + 1) none none ⟨e, g⟩ = (.ok (Z, ⟨nf, X⟩), w') ∧ Follows z B 0 Z X}

end Verif.Spec
