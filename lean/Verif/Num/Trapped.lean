import Verif.Num.XF

/-!
# Floating-point arithmetic with relative error, and traps

`TX τ` is `XF` in which every finite result `r` is replaced by `τ.rnd r`.  A result with
`τ.rnd r = none` (overflow, underflow) becomes NaN, so that a run without NaN is a run in which no
result left the range: on such a run `TX τ` and a machine that handles overflow and underflow
differently agree.  Within the range the relative error is at most `u`: this is the standard model
of floating-point arithmetic; IEEE double precision is an instance (`binary64`, Num/Binary64.lean).  `exp` and `log` are assumed to be
as accurate as the four operations (a libm with an error of one ulp has twice the `u`).
-/

set_option autoImplicit false

namespace Verif

/-- A rounding with relative error at most `u` on its range. -/
structure Trapped where
  u : ℝ
  u_nonneg : 0 ≤ u
  u_lt : u < 1
  rnd : ℝ → Option ℝ
  rel : ∀ r x, rnd r = some x → |x - r| ≤ u * |r|

/-- Round a result: special values stay as they are. -/
noncomputable def Trapped.ap (τ : Trapped) : XF → XF
  | .fin r => (τ.rnd r).elim .nan .fin
  | x => x

/-- Numbers with the arithmetic rounded by `τ`. -/
def TX (_ : Trapped) : Type := XF

noncomputable instance TX.instFloatLike (τ : Trapped) : FloatLike (TX τ) where
  add a b := τ.ap (XF.add a b)
  sub a b := τ.ap (XF.sub a b)
  mul a b := τ.ap (XF.mul a b)
  div a b := τ.ap (XF.div a b)
  neg := XF.neg
  zero := XF.fin 0
  one := XF.fin 1
  lt := XF.lt
  le := XF.le
  eq := XF.eq
  negInf := XF.ninf
  posInf := XF.pinf
  nan := XF.nan
  exp x := τ.ap (XF.exp x)
  log x := τ.ap (XF.log x)
  log1p x := τ.ap (XF.log (XF.add (.fin 1) x))
  sqrt x := τ.ap (XF.sqrt x)
  abs := XF.abs
  isInf := XF.isInf
  isNaN := XF.isNaN
  ofRat q := τ.ap (.fin (q : ℝ))
  pi := τ.ap (.fin Real.pi)
  toInt? := XF.toInt?

/-- A finite number of the rounded arithmetic. -/
def TX.fin (τ : Trapped) (r : ℝ) : TX τ := XF.fin r

/-- NaN of the rounded arithmetic. -/
def TX.nan (τ : Trapped) : TX τ := XF.nan

end Verif
