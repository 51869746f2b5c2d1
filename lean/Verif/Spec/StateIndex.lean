import Verif.Model.VEstimator
/-
States given as Python indices.
-/
set_option autoImplicit false

namespace Verif.Spec
variable {α G P : Type} [FloatLike α]

/-- Of `n` things, `c` is the Python index of number `k`. -/
def Names (n : ℕ) (c : ℤ) (k : ℕ) : Prop := k < n ∧ (c = k ∨ c + n = k)

/-- The sample with its first state written as `c`. -/
def startWritten {B : Type} (c : ℤ) : Except PyErr (List ℕ × B) → Except PyErr (List ℤ × B)
  | .error e => .error e
  | .ok (Z, X) => .ok (c :: Z.tail.map Int.ofNat, X)

/-- `sample` with any integer as `currstate`: if it is the index of a state, counted from either end, the draws are
those of this state, but the first element returned is the index as it was given.  Otherwise `err` is raised; the object
is as the checks left it and no generator has moved.  The later elements are states. -/
structure IndexedSample {B : Type} (check : Py (Est α G P) Unit) (ready : Est α G P → Prop)
    (sample : ℤ → Option ℕ → Option ℕ → Py (World α G P) (List ℕ × B)) (err : P → PyErr)
    (run : ℤ → Option ℕ → ℤ → Py (World α G P) (List ℤ × B)) : Prop where
  inside : ∀ n seed c k (w : World α G P), Names w.est.nComponents c k →
    run n seed c w = (startWritten c (sample n seed (some k) w).1, (sample n seed (some k) w).2)
  outside : ∀ n seed c (w w1 : World α G P), (∀ k, ¬ Names w.est.nComponents c k) → onEst check w = (.ok (), w1) →
    ready w1.est → run n seed c w = (.error (err w1.est.sub), w1)
  states : ∀ n seed c (w w' : World α G P) Z X, run n seed c w = (.ok (Z, X), w') →
    Z.head? = some c ∧ ∀ z ∈ Z.tail, 0 ≤ z ∧ z < w.est.nComponents

/-- A class without posteriors. -/
abbrev IndexedSub (S : Sub α G P) (R : RandomLib α G) (err : P → PyErr)
    (run : ℤ → Option ℕ → ℤ → Py (World α G P) (List ℤ × ((nf : ℕ) × List (S.Obs nf)))) : Prop :=
  IndexedSample S.checkFitted (fun e => S.ready e ≠ none) (S.sample R) err run

/-- A variational class. -/
abbrev IndexedVSub {Q : Type} (V : VSub α G Q) (R : RandomLib α G) (err : VAttrs α Q → PyErr)
    (run : ℤ → Option ℕ → ℤ → Py (World α G (VAttrs α Q)) (List ℤ × ((nf : ℕ) × List (V.core.Obs nf)))) : Prop :=
  IndexedSample V.checkFitted (fun e => V.core.ready e ≠ none) (V.sample R) err run

/-- `n_trials` is one number, possibly repeated. -/
def OneTrials : Option NTrials → Prop
  | none => False
  | some (.scalar _) => True
  | some (.perRow l) => l ≠ [] ∧ ∀ a ∈ l, ∀ b ∈ l, a = b

open scoped Classical in
/-- What `MultinomialHMM` raises for a state that does not exist. -/
noncomputable def trialsError (t : Option NTrials) : PyErr :=
  if OneTrials t then .indexError else .valueError "For sampling, a single n_trials must be given"

end Verif.Spec
