import Verif.Model.CovName
/-
`covariance_type` as an attribute.
-/
set_option autoImplicit false

namespace Verif.Spec
variable {α G P : Type}

/-- The documented names. -/
def CovNames : List String := ["spherical", "diag", "full", "tied"]

/-- A call that never returns a value. -/
def Refuses {σ β : Type} (m : Py σ β) : Prop := ∀ s, ∃ err, (m s).1 = .error err

/-- At most `startprob_`, `transmat_`, `n_features` and the generator differ. -/
def OnlyChain (e e' : Est α G P) : Prop :=
  ∃ s t f r, e' = { e with startprob := s, transmat := t, nFeatures := f, randomState := r }

/-- `_covars_` is a table with one variance per state and feature, or is not reached. -/
def VarianceTable (e : Est α G (GaussAttrs α)) : Prop :=
  ∀ m nf, e.sub.means = some m → m.shape[1]? = some nf → ∃ v : Fin e.nComponents → Fin nf → α, e.sub.covars = some (.d2 v)

end Verif.Spec
