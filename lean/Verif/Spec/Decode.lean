import Verif.Spec.Paths

/-!
# Specification: quality of a decoded state sequence
-/

namespace Verif.Spec
open Finset

variable {nc n : ℕ}

/-- Posterior expected number of positions at which the labelling `w` is right. -/
noncomputable def expectedCorrect (π : Fin nc → ℝ) (A : Fin nc → Fin nc → ℝ)
    (B : Fin (n + 1) → Fin nc → ℝ) (w : Fin (n + 1) → Fin nc) : ℝ :=
  (∑ z, joint π A B z * (#{t | z t = w t} : ℝ)) / likelihood π A B

end Verif.Spec
