import Mathlib.Analysis.SpecialFunctions.Log.Basic
import Mathlib.Algebra.BigOperators.Fin

/-!
# Specification: Dirichlet-MAP updates
-/

namespace Verif.Spec

/-- Pseudo-counts `max(prior - 1 + expected count, 0)`; entries that were zero stay forbidden. -/
noncomputable def mapCounts {ι : Type*} (prior old stat : ι → ℝ) (i : ι) : ℝ :=
  open scoped Classical in if old i = 0 then 0 else max (prior i - 1 + stat i) 0

/-- The distribution proportional to the pseudo-counts (all zero when they all are). -/
noncomputable def mapUpdate {ι : Type*} [Fintype ι] (prior old stat : ι → ℝ) (i : ι) : ℝ :=
  mapCounts prior old stat i / ∑ j, mapCounts prior old stat j

/-- Log-density (up to a constant) of a Dirichlet prior at `p`, over the allowed entries
(`Real.log 0 = 0`). -/
noncomputable def logDirichlet {ι : Type*} [Fintype ι] (prior p : ι → ℝ) : ℝ :=
  ∑ i, (prior i - 1) * Real.log (p i)

end Verif.Spec
