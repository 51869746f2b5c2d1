import Verif.Model.InitLog

/-!
# Which warnings `_init` should log

Independent of how `_init` is written: an attribute is announced as overwritten exactly when its code is in
`init_params` and it is set, and the data set is announced as too small exactly when it has fewer numbers than
the parameters to be fitted.
-/

set_option autoImplicit false

namespace Verif.Spec
variable {α G P : Type} [FloatLike α]

/-- An attribute of which `_init` may warn: name, code, and whether it is set. -/
structure Announced where
  name : String
  code : Char
  isSet : Bool

/-- One warning for every attribute that is set and whose code is in `init_params`, in the order of the list. -/
def overwrites (initParams : List Char) (attrs : List Announced) : List InitWarning :=
  (attrs.filter fun a => decide (a.code ∈ initParams) && a.isSet).map fun a => .overwritten a.name a.code

/-- `n` numbers to fit when `params` is spelled out: a letter that occurs twice counts twice; `none` when a letter
has no entry. -/
def toFit (table : List (Char × Int)) (params : List Char) : Option Int :=
  (params.mapM fun c => table.lookup c).map List.sum

/-- One warning when there are fewer numbers in the data than to be fitted. -/
def tooSmall (table : List (Char × Int)) (params : List Char) (size : Nat) : List InitWarning :=
  match toFit table params with
  | some n => if (size : Int) < n then [.degenerate n size] else []
  | none => []

/-- The attributes of the chain. -/
def chainAttrs (e : Est α G P) : List Announced :=
  [⟨"startprob_", 's', e.startprob.isSome⟩, ⟨"transmat_", 't', e.transmat.isSome⟩]

/-- What `_init` of the class should log: `own` are the attributes of its emissions. -/
def initWarnings (S : Sub α G P) (R : RandomLib α G) (own : P → List Announced) (X : XArr α) (w : World α G P) :
    List InitWarning :=
  overwrites w.est.initParams (chainAttrs w.est)
    ++ tooSmall (S.nFit (S.init R X w).2.est) w.est.params (X.n * X.d)
    ++ overwrites w.est.initParams (own w.est.sub)

/-- `log` is `_init` together with its warnings: forgetting them it is `_init`; when `_init` returns, exactly the
warnings above were logged, and when it raises, a prefix of them. -/
structure InitWarns (S : Sub α G P) (R : RandomLib α G) (own : P → List Announced)
    (log : XArr α → Logged (World α G P) Unit) : Prop where
  result : ∀ X w, (log X w).2 = S.init R X w
  warnings : ∀ X w, (S.init R X w).1 = .ok () → (log X w).1 = initWarnings S R own X w
  raised : ∀ X w, (log X w).1 <+: initWarnings S R own X w

/-- The same for a variational model; of the attributes initialised together only the first is announced. -/
def vchainAttrs {Q : Type} (e : VEst α G Q) : List Announced :=
  [⟨"startprob_posterior_", 's', e.sub.chain.startPost.isSome⟩,
    ⟨"transmat_posterior_", 't', e.sub.chain.transPost.isSome⟩]

/-- What `_init` of a variational model should log. -/
def vinitWarnings {Q : Type} (V : VSub α G Q) (R : RandomLib α G) (own : Q → List Announced) (X : XArr α)
    (lens : List Int) (w : World α G (VAttrs α Q)) : List InitWarning :=
  overwrites w.est.initParams (vchainAttrs w.est)
    ++ tooSmall (V.core.nFit (V.init R X lens w).2.est) w.est.params (X.n * X.d)
    ++ overwrites w.est.initParams (own w.est.sub.sub)

/-- `InitWarns` for a variational model. -/
structure VInitWarns {Q : Type} (V : VSub α G Q) (R : RandomLib α G) (own : Q → List Announced)
    (log : XArr α → List Int → Logged (World α G (VAttrs α Q)) Unit) : Prop where
  result : ∀ X lens w, (log X lens w).2 = V.init R X lens w
  warnings : ∀ X lens w, (V.init R X lens w).1 = .ok () → (log X lens w).1 = vinitWarnings V R own X lens w
  raised : ∀ X lens w, (log X lens w).1 <+: vinitWarnings V R own X lens w

end Verif.Spec
