import Verif.Num.XF

/-!
# Rounded arithmetic

`RX ρ` is `XF` in which every finite result is passed through a rounding function `ρ`.  A
`Rounding` is any monotone map from the reals to "finite or `-inf`"; IEEE round-to-nearest on
results below the overflow threshold is one (large negative results overflow to `-inf`).  Positive
overflow to `+inf` is not covered.
-/

namespace Verif

/-- Order key of `XF` (only used on non-NaN values below `+inf`). -/
noncomputable def xfKey : XF → WithBot ℝ
  | .fin r => (r : WithBot ℝ)
  | _ => ⊥

/-- A monotone rounding without positive overflow. -/
structure Rounding where
  rnd : ℝ → XF
  valid : ∀ r, rnd r = .ninf ∨ ∃ x, rnd r = .fin x
  mono : ∀ r s, r ≤ s → xfKey (rnd r) ≤ xfKey (rnd s)

/-- Round a result: special values stay as they are. -/
noncomputable def Rounding.ap (ρ : Rounding) : XF → XF
  | .fin r => ρ.rnd r
  | x => x

/-- Numbers with the arithmetic rounded by `ρ`. -/
@[reducible] def RX (_ : Rounding) : Type := XF

noncomputable instance RX.instFloatLike (ρ : Rounding) : FloatLike (RX ρ) where
  add a b := ρ.ap (XF.add a b)
  sub a b := ρ.ap (XF.sub a b)
  mul a b := ρ.ap (XF.mul a b)
  div a b := ρ.ap (XF.div a b)
  neg := XF.neg
  zero := .fin 0
  one := .fin 1
  lt := XF.lt
  le := XF.le
  eq := XF.eq
  negInf := .ninf
  posInf := .pinf
  nan := .nan
  exp x := ρ.ap (XF.exp x)
  log x := ρ.ap (XF.log x)
  log1p x := ρ.ap (XF.log (XF.add (.fin 1) x))
  sqrt x := ρ.ap (XF.sqrt x)
  abs := XF.abs
  isInf := XF.isInf
  isNaN := XF.isNaN
  ofRat q := ρ.ap (.fin (q : ℝ))
  pi := ρ.ap (.fin Real.pi)
  toInt? := XF.toInt?

/-- No rounding at all. -/
noncomputable def Rounding.exact : Rounding where
  rnd r := .fin r
  valid r := Or.inr ⟨r, rfl⟩
  mono r s h := by simpa [xfKey] using h

/-- Rounding down to integers, with overflow to `-inf` below `-1000`: a very coarse example. -/
noncomputable def Rounding.coarse : Rounding where
  rnd r := if r < -1000 then .ninf else .fin (⌊r⌋ : ℝ)
  valid r := by split <;> simp
  mono r s h := by
    split <;> split
    · exact le_refl _
    · simp [xfKey]
    · linarith
    · simp only [xfKey, WithBot.coe_le_coe, Int.cast_le]; exact Int.floor_le_floor h

end Verif
