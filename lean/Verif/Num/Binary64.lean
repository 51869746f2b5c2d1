import Verif.Num.Trapped
import Mathlib.Data.Int.Log
import Mathlib.Algebra.Order.Round
import Mathlib.Tactic.Linarith
import Mathlib.Tactic.Ring
import Mathlib.Tactic.FieldSimp
import Mathlib.Tactic.Positivity

/-!
# IEEE 754 double precision as a trapped rounding

53 bits of significand, exponents from `-1022` to `1023`, round to nearest, ties to even.  Subnormal
results and overflow are traps.
-/

set_option autoImplicit false

namespace Verif

/-- Nearest integer, ties to even. -/
noncomputable def roundEven (y : ℝ) : ℤ :=
  if Int.fract y < 1 / 2 then ⌊y⌋
  else if 1 / 2 < Int.fract y then ⌊y⌋ + 1
  else if Even ⌊y⌋ then ⌊y⌋ else ⌊y⌋ + 1

theorem abs_roundEven_sub (y : ℝ) : |(roundEven y : ℝ) - y| ≤ 1 / 2 := by
  have h0 := Int.fract_nonneg y
  have h1 := Int.fract_lt_one y
  have e : (⌊y⌋ : ℝ) = y - Int.fract y := by rw [Int.self_sub_fract]
  unfold roundEven
  rw [abs_le]
  split_ifs <;> push_cast <;> constructor <;> linarith

/-- Nearest number with 53 significant bits. -/
noncomputable def near53 (r : ℝ) : ℝ :=
  roundEven (r / 2 ^ (Int.log 2 |r| - 52)) * 2 ^ (Int.log 2 |r| - 52)

theorem abs_near53_sub {r : ℝ} (hr : r ≠ 0) : |near53 r - r| ≤ 2⁻¹ ^ 53 * |r| := by
  have h2 : (0 : ℝ) < 2 ^ (Int.log 2 |r| - 52) := by positivity
  have h := abs_roundEven_sub (r / 2 ^ (Int.log 2 |r| - 52))
  have hl : (2 : ℝ) ^ Int.log 2 |r| ≤ |r| := by
    have := Int.zpow_log_le_self (b := 2) (by norm_num) (abs_pos.2 hr)
    exact_mod_cast this
  have e : near53 r - r =
      ((roundEven (r / 2 ^ (Int.log 2 |r| - 52)) : ℝ) - r / 2 ^ (Int.log 2 |r| - 52)) *
        2 ^ (Int.log 2 |r| - 52) := by
    unfold near53; field_simp
  rw [e, abs_mul, abs_of_pos h2]
  refine (mul_le_mul_of_nonneg_right h h2.le).trans ?_
  rw [zpow_sub₀ (by norm_num)]
  refine le_trans (le_of_eq ?_) (mul_le_mul_of_nonneg_left hl (by positivity))
  rw [show (2 : ℝ) ^ (52 : ℤ) = 2 ^ (52 : ℕ) from zpow_natCast _ 52]
  field_simp

/-- Double precision: zero, and the normal numbers. -/
noncomputable def binary64 : Trapped where
  u := 2⁻¹ ^ 53
  u_nonneg := by positivity
  u_lt := by norm_num
  rnd r := open Classical in
    if r = 0 then some 0
    else if -1022 ≤ Int.log 2 |r| ∧ |near53 r| < 2 ^ 1024 then some (near53 r)
    else none
  rel r x h := by
    split_ifs at h with h0 h1
    · cases h; subst h0; simp
    · cases h; exact abs_near53_sub h0

/-- The numbers in the range. -/
theorem binary64_rnd {r : ℝ} (h0 : 2⁻¹ ^ 1022 ≤ |r|) (h1 : |r| ≤ 2 ^ 1023) :
    binary64.rnd r = some (near53 r) := by
  have hp : 0 < |r| := lt_of_lt_of_le (by positivity) h0
  have hr : r ≠ 0 := abs_pos.1 hp
  have hl : -1022 ≤ Int.log 2 |r| := by
    rw [← Int.zpow_le_iff_le_log (by norm_num) hp]
    refine le_trans (le_of_eq ?_) h0
    rw [zpow_neg, inv_pow]
    norm_cast
  have ha : |near53 r| < 2 ^ 1024 := by
    have h := abs_near53_sub hr
    have : |near53 r| ≤ |near53 r - r| + |r| := by
      have := abs_add_le (near53 r - r) r
      rwa [sub_add_cancel] at this
    have hu : (2⁻¹ : ℝ) ^ 53 * |r| < |r| := by
      have : (2⁻¹ : ℝ) ^ 53 < 1 := by norm_num
      nlinarith
    rw [pow_succ (2 : ℝ) 1023]
    calc |near53 r| ≤ |near53 r - r| + |r| := this
      _ < |r| + |r| := by linarith only [h, hu]
      _ = |r| * 2 := by ring
      _ ≤ 2 ^ 1023 * 2 := mul_le_mul_of_nonneg_right h1 zero_le_two
  simp only [binary64]
  rw [if_neg hr, if_pos ⟨hl, ha⟩]

end Verif
