import Verif.Num.XF

/-!
# Specification: the value of a logarithm in floating point
-/

namespace Verif.Spec
open scoped Classical

/-- `log L` for a probability weight `L ≥ 0`: `-inf` at zero, the real logarithm otherwise. -/
noncomputable def xlog (L : ℝ) : XF := if L = 0 then .ninf else .fin (Real.log L)

end Verif.Spec
