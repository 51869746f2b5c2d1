import Verif.Model.VEstimator
import Verif.Spec.Calls

/-!
# Specification: sequences of calls on one variational estimator
-/

set_option autoImplicit false

namespace Verif.Spec

variable {α G Q : Type} [FloatLike α]

/-- Executing an inference call. -/
def Call.vrun (V : VSub α G Q) (R : RandomLib α G) : Call α → Py (World α G (VAttrs α Q)) (Answer V.core)
  | .score X ls => do let r ← onEst (V.score X ls); return .float r
  | .scoreSamples X ls => do let r ← onEst (V.scoreSamples X ls true); return .floatAndRows r.1 r.2
  | .predictProba X ls => do let r ← onEst (V.predictProba X ls); return .rows r
  | .decode X ls a => do let r ← onEst (V.decode X ls a); return .floatAndStates r.1 r.2
  | .predict X ls => do let r ← onEst (V.predict X ls); return .states r
  | .sample n k c => do let r ← V.sample R n (some k) c; return .samples r.1 r.2.1 r.2.2

/-- The state after a call, whether it returned or raised. -/
def Action.vafter (V : VSub α G Q) (R : RandomLib α G) : Action α → World α G (VAttrs α Q) → World α G (VAttrs α Q)
  | .fit X ls, w => (V.fit R X ls w).2
  | .infer c, w => (c.vrun V R w).2
  | .sample n c, w => (V.sample R n none c w).2

/-- The state after a history of calls. -/
def vafterActions (V : VSub α G Q) (R : RandomLib α G) : List (Action α) → World α G (VAttrs α Q) → World α G (VAttrs α Q)
  | [], w => w
  | a :: as, w => vafterActions V R as (a.vafter V R w)

/-- Every inference call, after any history without `fit` and whatever generators the object and `np.random` hold,
answers as in isolation. -/
def VInferenceIsPure (V : VSub α G Q) (R : RandomLib α G) : Prop :=
  ∀ (c : Call α) (as : List (Action α)) (w : World α G (VAttrs α Q)) (rs : RandomState G) (g : G),
    (∀ a ∈ as, ∀ X ls, a ≠ .fit X ls) →
      (c.vrun V R (vafterActions V R as ⟨{ w.est with randomState := rs }, g⟩)).1 = (c.vrun V R w).1

end Verif.Spec
