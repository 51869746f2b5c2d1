import Verif.Num.FloatLike
import Mathlib.Analysis.SpecialFunctions.Log.Basic
import Mathlib.Analysis.Real.Pi.Bounds
import Mathlib.Algebra.BigOperators.Fin

/-!
# Extended reals with IEEE special values

`XF` is the number type the theorems are about: exact real arithmetic on finite
values plus `nan`, `-inf`, `+inf` with the IEEE-754 rules.  Simplifications with
respect to doubles: no rounding, no overflow/underflow of finite results, one zero
(no signed zero: a zero divisor counts as `+0`).
-/

namespace Verif
open scoped Classical

/-- See the module comment. -/
inductive XF where
  | nan
  | ninf
  | pinf
  | fin (r : ℝ)

namespace XF

/-- IEEE addition. -/
protected noncomputable def add : XF → XF → XF
  | nan, _ => nan
  | _, nan => nan
  | ninf, pinf => nan
  | pinf, ninf => nan
  | ninf, _ => ninf
  | _, ninf => ninf
  | pinf, _ => pinf
  | _, pinf => pinf
  | fin a, fin b => fin (a + b)

/-- IEEE negation. -/
protected noncomputable def neg : XF → XF
  | nan => nan
  | ninf => pinf
  | pinf => ninf
  | fin a => fin (-a)

/-- IEEE subtraction. -/
protected noncomputable def sub (a b : XF) : XF := XF.add a (XF.neg b)

/-- `inf * r` for a finite `r`. -/
noncomputable def infMul (r : ℝ) : XF := if r = 0 then nan else if 0 < r then pinf else ninf

/-- IEEE multiplication. -/
protected noncomputable def mul : XF → XF → XF
  | nan, _ => nan
  | _, nan => nan
  | pinf, pinf => pinf
  | pinf, ninf => ninf
  | ninf, pinf => ninf
  | ninf, ninf => pinf
  | pinf, fin r => infMul r
  | fin r, pinf => infMul r
  | ninf, fin r => infMul (-r)
  | fin r, ninf => infMul (-r)
  | fin a, fin b => fin (a * b)

/-- IEEE division (a zero divisor is `+0`). -/
protected noncomputable def div : XF → XF → XF
  | nan, _ => nan
  | _, nan => nan
  | pinf, pinf => nan
  | pinf, ninf => nan
  | ninf, pinf => nan
  | ninf, ninf => nan
  | pinf, fin r => if 0 ≤ r then pinf else ninf
  | ninf, fin r => if 0 ≤ r then ninf else pinf
  | fin _, pinf => fin 0
  | fin _, ninf => fin 0
  | fin a, fin b => if b = 0 then infMul a else fin (a / b)

/-- IEEE `<`. -/
protected noncomputable def lt : XF → XF → Bool
  | nan, _ => false
  | _, nan => false
  | ninf, ninf => false
  | ninf, _ => true
  | _, ninf => false
  | pinf, _ => false
  | _, pinf => true
  | fin a, fin b => decide (a < b)

/-- IEEE `==`. -/
protected noncomputable def eq : XF → XF → Bool
  | ninf, ninf => true
  | pinf, pinf => true
  | fin a, fin b => decide (a = b)
  | _, _ => false

/-- IEEE `<=`. -/
protected noncomputable def le (a b : XF) : Bool := XF.lt a b || XF.eq a b

/-- `exp`. -/
protected noncomputable def exp : XF → XF
  | nan => nan
  | ninf => fin 0
  | pinf => pinf
  | fin a => fin (Real.exp a)

/-- `log`: `log 0 = -inf`, `log` of a negative number is NaN. -/
protected noncomputable def log : XF → XF
  | nan => nan
  | ninf => nan
  | pinf => pinf
  | fin a => if a = 0 then ninf else if 0 < a then fin (Real.log a) else nan

/-- `sqrt`. -/
protected noncomputable def sqrt : XF → XF
  | nan => nan
  | ninf => nan
  | pinf => pinf
  | fin a => if 0 ≤ a then fin (Real.sqrt a) else nan

/-- `fabs`. -/
protected noncomputable def abs : XF → XF
  | nan => nan
  | ninf => pinf
  | pinf => pinf
  | fin a => fin |a|

/-- `std::isinf`. -/
protected def isInf : XF → Bool
  | ninf => true
  | pinf => true
  | _ => false

/-- `np.isnan`. -/
protected def isNaN : XF → Bool
  | nan => true
  | _ => false

/-- The integer `x` is, if any. -/
protected noncomputable def toInt? : XF → Option Int
  | fin r => if (⌊r⌋ : ℝ) = r then some ⌊r⌋ else none
  | _ => none

noncomputable instance : FloatLike XF where
  add := XF.add
  sub := XF.sub
  mul := XF.mul
  div := XF.div
  neg := XF.neg
  zero := fin 0
  one := fin 1
  lt := XF.lt
  le := XF.le
  eq := XF.eq
  negInf := ninf
  posInf := pinf
  nan := nan
  exp := XF.exp
  log := XF.log
  log1p x := XF.log (XF.add (fin 1) x)
  sqrt := XF.sqrt
  abs := XF.abs
  isInf := XF.isInf
  isNaN := XF.isNaN
  ofRat q := fin (q : ℝ)
  pi := fin Real.pi
  toInt? := XF.toInt?

end XF
end Verif
