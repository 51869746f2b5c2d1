import Verif.Model.GmmEstimator
/-
`covariance_type` of `GMMHMM` assigned after `covars_prior` has been given its shape.
-/
set_option autoImplicit false

namespace Verif

/-- `GMMHMM` with each of the four values of `covariance_type`, hmm.py:593-648 and :666-732. -/
def gmmTypeOf {α : Type} [FloatLike α] {nm : ℕ} (eig : Eigvalsh α) : CovType → GmmType α nm
  | .spherical => gmmSpherical
  | .diag => gmmDiag
  | .tied => gmmTied eig
  | .full => gmmFull eig

namespace Spec
variable {α G P : Type} [FloatLike α]

/-- The number of axes that the documentation gives `covars_prior`. -/
def covPriorAxes : CovType → ℕ
  | .spherical => 2
  | .diag => 3
  | .tied => 3
  | .full => 4

/-- `covars_prior` is an array with `k` axes. -/
def PriorHas (k : ℕ) (p : GmmAttrs α) : Prop := ∃ t, p.covarsPrior = some t ∧ t.shape.length = k

/-- No public method returns. -/
structure NoneReturns (S : Sub α G P) (e : Est α G P) : Prop where
  score : ∀ X ls, ∃ err, (S.score X ls e).1 = .error err
  predictProba : ∀ X ls, ∃ err, (S.predictProba X ls e).1 = .error err
  decode : ∀ X ls a, ∃ err, (S.decode X ls a e).1 = .error err
  predict : ∀ X ls, ∃ err, (S.predict X ls e).1 = .error err
  sample : ∀ (R : RandomLib α G) n seed c g, ∃ err, (S.sample R n seed c ⟨e, g⟩).1 = .error err
  fit : ∀ (R : RandomLib α G) X ls g, ∃ err, (S.fit R X ls ⟨e, g⟩).1 = .error err

end Spec
end Verif
