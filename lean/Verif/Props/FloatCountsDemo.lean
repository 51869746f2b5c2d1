import Verif.Props.ObjectFitDemo
import Verif.Props.FloatCounts

/-!
# Cases that meet the hypotheses of C102
-/

set_option autoImplicit false

namespace Verif.ObjectsDemo
open FloatLike XF Spec

/-- Counts `(1, 1/2, 0)`. -/
example : (poisSub.score (realsX (samples [⟨0, fun _ => ![1, 1/2, 0]⟩])) none pois).1 = .ok ninf :=
  (C102_poisson_impossible (by norm_num) pois π A B pois_holds [⟨0, fun _ => ![1, 1/2, 0]⟩] none (.inr ⟨⟨_, rfl⟩, rfl⟩)
    (s := ⟨0, fun _ => ![1, 1/2, 0]⟩) (by simp) 0 1 (fun m h => by
      have h : (1/2 : ℝ) = m := h
      have h2 : (1 : ℝ) = ((2 * m : ℕ) : ℝ) := by push_cast; linarith
      have h3 : 1 = 2 * m := by exact_mod_cast h2
      omega)).1 rfl

/-- The counts `(1, 0, 2)`, once as floats. -/
example : poisSub.score (realsX (asReals [![1, 0, 2]])) none pois = poisSub.score (intsX [![1, 0, 2]]) none pois :=
  congrFun ((C102_poisson (R := ObjectFitDemo.lib)).score 3 [![1, 0, 2]] none) pois

end Verif.ObjectsDemo
