import Mathlib.MeasureTheory.Measure.Prod
import Mathlib.MeasureTheory.Measure.Lebesgue.Basic

/-!
# Specification: an ideal random generator

`P` is the law of the state of the generator.  A procedure `d` that uses the generator draws from
`ν` if its value is distributed as `ν` and the state it leaves is independent of the value and again
distributed as `P`, so that further draws are independent of all earlier ones.
-/

namespace Verif.Spec
open MeasureTheory

/-- `d` draws from `ν` and leaves a fresh generator. -/
structure Draws {G β : Type} [MeasurableSpace G] [MeasurableSpace β] (P : Measure G) (d : G → β × G)
    (ν : Measure β) : Prop where
  measurable : Measurable d
  law : P.map d = ν.prod P

/-- The uniform distribution on `[0, 1)`. -/
noncomputable def uniform : Measure ℝ := volume.restrict (Set.Ico 0 1)

end Verif.Spec
