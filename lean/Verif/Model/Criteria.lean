import Verif.Model.Estimators

/-!
# Information criteria

src/hmmlearn/base.py:979-1025 and the parameter counts of src/hmmlearn/_emissions.py.
-/

namespace Verif
open FloatLike

variable {α G P : Type} [FloatLike α]

/-- `len(X)`; for a zero-dimensional array (which `score` rejects first) the value is not used. -/
def RawX.len : RawX α → Nat
  | .ints a => a.shape.headD 0
  | .floats a => a.shape.headD 0

/-- `sum(self._get_n_fit_scalars_per_param().values())`, base.py:1000 and :1024.  The count is
computed before `score`, hence before `_check` has had a chance to set `n_features`; `missing` is what
its absence raises: `AttributeError`, or `TypeError` for `CategoricalHMM`, whose constructor stores
`None` (hmm.py:126). -/
def Sub.nParams (S : Sub α G P) (missing : PyErr) (e : Est α G P) : Except PyErr Int :=
  if e.nFeatures.isNone then .error missing else .ok ((S.nFit e).map Prod.snd).sum

/-- `aic`, base.py:979-1001. -/
def Sub.aic (S : Sub α G P) (missing : PyErr) (X : RawX α) (lengths : Option (List Int)) : Py (Est α G P) α := do
  let e ← Py.get
  let k ← Py.lift (S.nParams missing e)
  let s ← S.score X lengths
  return ofInt' (-2) * s + ofInt' (2 * k)

/-- `bic`, base.py:1003-1025. -/
def Sub.bic (S : Sub α G P) (missing : PyErr) (X : RawX α) (lengths : Option (List Int)) : Py (Est α G P) α := do
  let e ← Py.get
  let k ← Py.lift (S.nParams missing e)
  let s ← S.score X lengths
  return ofInt' (-2) * s + ofInt' k * log (ofNat' X.len)

/-- The parameter counts of `GMMHMM`, _emissions.py:186-201. -/
def gmmNFit (ty : CovType) (nc nm nf : Int) : List (Char × Int) :=
  [('s', nc - 1), ('t', nc * (nc - 1)), ('m', nc * nm * nf),
    ('c', match ty with
      | .spherical => nc * nm
      | .diag => nc * nm * nf
      | .full => nc * nm * nf * (nf + 1) / 2
      | .tied => nc * nf * (nf + 1) / 2),
    ('w', nm - 1)]

end Verif
