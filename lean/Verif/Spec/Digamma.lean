import Mathlib.Analysis.SpecialFunctions.Gamma.Deriv
import Mathlib.Analysis.Calculus.LogDeriv

/-!
# Log-gamma and digamma

The special functions of `scipy.special` used by the variational classes, on the positive reals.
-/

namespace Verif.Spec

/-- `gammaln` on the positive reals. -/
noncomputable def lnGamma (x : ℝ) : ℝ := Real.log (Real.Gamma x)

/-- `digamma` on the positive reals: the logarithmic derivative of the Gamma function. -/
noncomputable def digamma (x : ℝ) : ℝ := logDeriv Real.Gamma x

end Verif.Spec
