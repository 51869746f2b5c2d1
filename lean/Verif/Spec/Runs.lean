import Verif.Model.Err

/-!
# Specification: executions of an iterated step
-/

namespace Verif.Spec

/-- `Runs step h s s'`: starting from `s`, successive successful steps report the values `h` (in
order) and end in `s'`. -/
inductive Runs {α σ : Type} (step : σ → Except PyErr (σ × α)) : List α → σ → σ → Prop
  | nil (s : σ) : Runs step [] s s
  | snoc {h : List α} {s s' s'' : σ} {v : α} : Runs step h s s' → step s' = .ok (s'', v) →
      Runs step (h ++ [v]) s s''

end Verif.Spec
