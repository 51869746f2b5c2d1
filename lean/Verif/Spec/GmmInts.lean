import Verif.Model.GmmEstimator
/-
Integer-valued hyper-parameters and covariances of `GMMHMM`.
-/
set_option autoImplicit false

namespace Verif.Spec

variable {α G : Type}

/-- The same attributes, with floating-point arrays instead of integer ones. -/
def attrsAsFloats (p : GmmAttrs α) : GmmAttrs α := { p with meansInt := false, covarsInt := false }

/-- The same object. -/
def estAsFloats (e : Est α G (GmmAttrs α)) : Est α G (GmmAttrs α) := { e with sub := attrsAsFloats e.sub }

/-- The same object and generators. -/
def asFloats (w : World α G (GmmAttrs α)) : World α G (GmmAttrs α) := ⟨estAsFloats w.est, w.glob⟩

/-- Training would add to an integer array: the means are trained and both their hyper-parameters are integers,
or the covariances are trained and were set to integers before the call, and `init_params` does not replace them. -/
def AddsToInts (e : Est α G (GmmAttrs α)) : Prop :=
  (e.sub.meansInt = true ∧ 'm' ∈ e.params) ∨
  (e.sub.covarsInt = true ∧ 'c' ∈ e.params ∧ 'c' ∉ e.initParams ∧ e.sub.covars ≠ none)

/-- Two arrays with the same shape and the same elements. -/
def SameArray (t t' : Tensor α) : Prop :=
  t'.shape = t.shape ∧ ∀ idx : List ℕ, idx.length = t.shape.length →
    (∀ k < t.shape.length, idx.getD k 0 < t.shape.getD k 0) → t'.data idx = t.data idx

/-- Attributes that hold the same array. -/
def SameAttr (a a' : Option (Tensor α)) : Prop := ∃ t t', a = some t ∧ a' = some t' ∧ SameArray t t'

/-- The parameters of two objects agree. -/
structure SameModel (e e' : Est α G (GmmAttrs α)) : Prop where
  startprob : e'.startprob = e.startprob
  transmat : e'.transmat = e.transmat
  weights : SameAttr e.sub.weights e'.sub.weights
  means : SameAttr e.sub.means e'.sub.means
  covars : SameAttr e.sub.covars e'.sub.covars

variable [FloatLike α]

/-- `fit` with at least one iteration does not return; and if the same call succeeds with floating-point arrays of
the same values, it raises `TypeError`, no iteration is recorded, and the object holds the parameters that `_init`
left. -/
def IntsStopFit (S : Sub α G (GmmAttrs α)) (R : RandomLib α G) : Prop :=
  ∀ (X : RawX α) (ls : Option (List Int)) (w : World α G (GmmAttrs α)), AddsToInts w.est → w.est.nIter ≠ 0 →
    (S.fit R X ls w).1 ≠ .ok () ∧
    ((S.fit R X ls (asFloats w)).1 = .ok () → (S.fit R X ls w).1 = .error .typeError ∧
      ∃ X', checkArray X = .ok X' ∧ SameModel (S.init R X' w).2.est (S.fit R X ls w).2.est ∧
        (S.fit R X ls w).2.est.monitor.history = [])

end Verif.Spec
