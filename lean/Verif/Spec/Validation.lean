import Verif.Num.XF
import Verif.Model.NdArray

/-!
# Specification: what parameter validation should mean
-/

namespace Verif.Spec
open Verif

/-- `|s - 1| ≤ 1e-8 + 1e-5`. -/
def NearOne (s : ℝ) : Prop := |s - 1| ≤ 1 / 10 ^ 8 + 1 / 10 ^ 5

/-- A real vector as an array attribute. -/
noncomputable def vec {n : ℕ} (v : Fin n → ℝ) : NdArray XF := .d1 fun i => .fin (v i)

/-- A real matrix as an array attribute. -/
noncomputable def mat {m n : ℕ} (v : Fin m → Fin n → ℝ) : NdArray XF := .d2 fun i j => .fin (v i j)

/-- A three-dimensional real array as an attribute. -/
noncomputable def cube {l m n : ℕ} (v : Fin l → Fin m → Fin n → ℝ) : NdArray XF :=
  .d3 fun i j k => .fin (v i j k)

end Verif.Spec
