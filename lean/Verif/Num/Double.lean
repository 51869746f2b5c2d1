import Verif.Num.Rounded
import Verif.Num.Binary64
import Verif.Spec.RoundoffLog

/-!
# IEEE 754 double precision as a monotone rounding

Round to nearest, ties to even, with gradual underflow (multiples of `2 ^ -1074`) and overflow to
`-inf`.  Above the largest double the exponent is unbounded (`Rounding` has no `+inf`).
-/

set_option autoImplicit false

namespace Verif

theorem roundEven_mono {x y : ℝ} (h : x ≤ y) : roundEven x ≤ roundEven y := by
  have hx0 := Int.fract_nonneg x
  have hx1 := Int.fract_lt_one x
  have hy0 := Int.fract_nonneg y
  have hy1 := Int.fract_lt_one y
  have ex : (⌊x⌋ : ℝ) = x - Int.fract x := by rw [Int.self_sub_fract]
  have ey : (⌊y⌋ : ℝ) = y - Int.fract y := by rw [Int.self_sub_fract]
  have hf : ⌊x⌋ ≤ ⌊y⌋ := Int.floor_le_floor h
  rcases hf.eq_or_lt with hf | hf
  · have hfr : Int.fract x ≤ Int.fract y := by
      have : (⌊x⌋ : ℝ) = ⌊y⌋ := by rw [hf]
      linarith
    unfold roundEven
    rw [hf]
    split_ifs <;> first | omega | linarith | skip
  · unfold roundEven
    split_ifs <;> omega

theorem roundEven_int (k : ℤ) : roundEven (k : ℝ) = k := by
  unfold roundEven
  simp

/-- Exponent of the last bit: 53 significant bits, but no bits below `2 ^ -1074`. -/
noncomputable def lastBit (r : ℝ) : ℤ := max (Int.log 2 |r| - 52) (-1074)

/-- Nearest double, with an unbounded exponent range above. -/
noncomputable def nearDouble (r : ℝ) : ℝ := roundEven (r / 2 ^ lastBit r) * 2 ^ lastBit r

theorem two_zpow_pos (q : ℤ) : (0 : ℝ) < 2 ^ q := by positivity

theorem nearDouble_le {r : ℝ} {k : ℤ} (h : r ≤ k * 2 ^ lastBit r) : nearDouble r ≤ k * 2 ^ lastBit r := by
  refine mul_le_mul_of_nonneg_right ?_ (two_zpow_pos _).le
  have : roundEven (r / 2 ^ lastBit r) ≤ roundEven (k : ℝ) :=
    roundEven_mono ((div_le_iff₀ (two_zpow_pos _)).2 h)
  rw [roundEven_int] at this
  exact_mod_cast this

theorem le_nearDouble {r : ℝ} {k : ℤ} (h : k * 2 ^ lastBit r ≤ r) : k * 2 ^ lastBit r ≤ nearDouble r := by
  refine mul_le_mul_of_nonneg_right ?_ (two_zpow_pos _).le
  have : roundEven (k : ℝ) ≤ roundEven (r / 2 ^ lastBit r) :=
    roundEven_mono ((le_div_iff₀ (two_zpow_pos _)).2 h)
  rw [roundEven_int] at this
  exact_mod_cast this

/-- Powers of two that are doubles are not jumped over. -/
theorem nearDouble_bracket {r : ℝ} {e : ℤ} (he : lastBit r ≤ e) :
    (r ≤ 2 ^ e → nearDouble r ≤ 2 ^ e) ∧ (2 ^ e ≤ r → 2 ^ e ≤ nearDouble r) ∧
    (r ≤ -2 ^ e → nearDouble r ≤ -2 ^ e) ∧ (-2 ^ e ≤ r → -2 ^ e ≤ nearDouble r) := by
  obtain ⟨k, hk⟩ := Int.le.dest he
  have e1 : (2 : ℝ) ^ e = ((2 ^ k : ℤ) : ℝ) * 2 ^ lastBit r := by
    rw [← hk, zpow_add₀ (by norm_num), mul_comm]; norm_num
  have e2 : -(2 : ℝ) ^ e = ((-2 ^ k : ℤ) : ℝ) * 2 ^ lastBit r := by rw [e1]; push_cast; ring
  refine ⟨fun h => ?_, fun h => ?_, fun h => ?_, fun h => ?_⟩
  · rw [e1] at h ⊢; exact nearDouble_le h
  · rw [e1] at h ⊢; exact le_nearDouble h
  · rw [e2] at h ⊢; exact nearDouble_le h
  · rw [e2] at h ⊢; exact le_nearDouble h

theorem nearDouble_sign (r : ℝ) : (0 ≤ r → 0 ≤ nearDouble r) ∧ (r ≤ 0 → nearDouble r ≤ 0) := by
  constructor
  · intro h
    have := le_nearDouble (r := r) (k := 0) (by simpa using h)
    simpa using this
  · intro h
    have := nearDouble_le (r := r) (k := 0) (by simpa using h)
    simpa using this

theorem nearDouble_same {r s : ℝ} (h : r ≤ s) (hq : lastBit r = lastBit s) : nearDouble r ≤ nearDouble s := by
  unfold nearDouble
  rw [hq]
  refine mul_le_mul_of_nonneg_right ?_ (two_zpow_pos _).le
  exact_mod_cast roundEven_mono (div_le_div_of_nonneg_right h (two_zpow_pos _).le)

theorem lastBit_mono {r s : ℝ} (hr : r ≠ 0) (h : |r| ≤ |s|) : lastBit r ≤ lastBit s := by
  unfold lastBit
  have := Int.log_mono_right (b := 2) (abs_pos.2 hr) h
  omega

/-- A strictly larger last bit comes with a power of two in between. -/
theorem between_of_lastBit_lt {r s : ℝ} (hs : s ≠ 0) (h : lastBit r < lastBit s) :
    ∃ e, |r| ≤ 2 ^ e ∧ 2 ^ e ≤ |s| ∧ lastBit r ≤ e ∧ lastBit s ≤ e := by
  have h1 : Int.log 2 |r| < Int.log 2 |s| := by unfold lastBit at h; omega
  have h2 : lastBit s = Int.log 2 |s| - 52 := by unfold lastBit at h ⊢; omega
  refine ⟨Int.log 2 |s|, ?_, ?_, by omega, by omega⟩
  · have := Int.lt_zpow_succ_log_self (b := 2) (by norm_num) |r|
    have h3 : |r| < (2 : ℝ) ^ (Int.log 2 |r| + 1) := by exact_mod_cast this
    exact h3.le.trans (zpow_le_zpow_right₀ (by norm_num) (by omega))
  · have := Int.zpow_log_le_self (b := 2) (by norm_num) (abs_pos.2 hs)
    exact_mod_cast this

theorem nearDouble_mono {r s : ℝ} (h : r ≤ s) : nearDouble r ≤ nearDouble s := by
  rcases le_total r 0 with hr | hr
  · rcases le_total 0 s with hs | hs
    · exact ((nearDouble_sign r).2 hr).trans ((nearDouble_sign s).1 hs)
    · rcases hs.eq_or_lt with rfl | hs
      · exact ((nearDouble_sign r).2 hr).trans ((nearDouble_sign 0).1 le_rfl)
      have habs : |s| ≤ |r| := by rw [abs_of_nonpos hr, abs_of_neg hs]; linarith
      rcases (lastBit_mono hs.ne habs).eq_or_lt with hq | hq
      · exact nearDouble_same h hq.symm
      · obtain ⟨e, h1, h2, h3, h4⟩ := between_of_lastBit_lt (by linarith : r < 0).ne hq
        rw [abs_of_neg hs] at h1
        rw [abs_of_nonpos hr] at h2
        exact ((nearDouble_bracket h4).2.2.1 (by linarith)).trans ((nearDouble_bracket h3).2.2.2 (by linarith))
  · rcases hr.eq_or_lt with rfl | hr
    · exact ((nearDouble_sign 0).2 le_rfl).trans ((nearDouble_sign s).1 h)
    have hs : 0 < s := hr.trans_le h
    have habs : |r| ≤ |s| := by rw [abs_of_pos hr, abs_of_pos hs]; exact h
    rcases (lastBit_mono hr.ne' habs).eq_or_lt with hq | hq
    · exact nearDouble_same h hq
    · obtain ⟨e, h1, h2, h3, h4⟩ := between_of_lastBit_lt hs.ne' hq
      rw [abs_of_pos hr] at h1
      rw [abs_of_pos hs] at h2
      exact ((nearDouble_bracket h3).1 h1).trans ((nearDouble_bracket h4).2.1 h2)

theorem abs_nearDouble_sub (r : ℝ) : |nearDouble r - r| ≤ 2⁻¹ ^ 53 * |r| + 2⁻¹ ^ 1075 := by
  rcases eq_or_ne r 0 with rfl | h0
  · have : nearDouble 0 = 0 := le_antisymm ((nearDouble_sign 0).2 le_rfl) ((nearDouble_sign 0).1 le_rfl)
    rw [this]; simp
  have h2 := two_zpow_pos (lastBit r)
  have h := abs_roundEven_sub (r / 2 ^ lastBit r)
  have e : nearDouble r - r = ((roundEven (r / 2 ^ lastBit r) : ℝ) - r / 2 ^ lastBit r) * 2 ^ lastBit r := by
    unfold nearDouble; field_simp
  rw [e, abs_mul, abs_of_pos h2]
  refine (mul_le_mul_of_nonneg_right h h2.le).trans ?_
  have hr := abs_nonneg r
  have hu : (0 : ℝ) ≤ 2⁻¹ ^ 53 * |r| := mul_nonneg (by positivity) hr
  have hη : (0 : ℝ) ≤ 2⁻¹ ^ 1075 := by positivity
  rcases le_total (Int.log 2 |r| - 52) (-1074) with hq | hq
  · have : lastBit r = -1074 := max_eq_right hq
    rw [this]
    have : (1 : ℝ) / 2 * 2 ^ (-1074 : ℤ) = 2⁻¹ ^ 1075 := by
      rw [zpow_neg, show (2 : ℝ) ^ (1074 : ℤ) = 2 ^ (1074 : ℕ) from zpow_natCast _ _, inv_pow,
        show (1075 : ℕ) = 1074 + 1 from rfl, pow_succ (2 : ℝ) 1074, mul_inv, one_div, mul_comm]
    rw [this]; exact le_add_of_nonneg_left hu
  · have : lastBit r = Int.log 2 |r| - 52 := max_eq_left hq
    rw [this]
    have hl : (2 : ℝ) ^ Int.log 2 |r| ≤ |r| := by
      have := Int.zpow_log_le_self (b := 2) (by norm_num) (abs_pos.2 h0)
      exact_mod_cast this
    refine le_trans ?_ (le_add_of_nonneg_right hη)
    rw [zpow_sub₀ (by norm_num)]
    refine le_trans (le_of_eq ?_) (mul_le_mul_of_nonneg_left hl (by positivity))
    rw [show (2 : ℝ) ^ (52 : ℤ) = 2 ^ (52 : ℕ) from zpow_natCast _ 52]
    field_simp

/-- Double precision. -/
noncomputable def double : Rounding where
  rnd r := open Classical in if nearDouble r ≤ -2 ^ 1024 then .ninf else .fin (nearDouble r)
  valid r := by split <;> simp
  mono r s h := by
    have := nearDouble_mono h
    split <;> split
    · exact le_refl _
    · simp [xfKey]
    · linarith
    · simpa [xfKey] using this

/-- Round-off unit `2 ^ -53`, underflow error `2 ^ -1075`. -/
theorem double_accurate : Spec.Accurate double (2⁻¹ ^ 53) (2⁻¹ ^ 1075) (2 ^ 1022) where
  u_nonneg := by positivity
  η_nonneg := by positivity
  rnd r hr := by
    have h := abs_nearDouble_sub r
    refine ⟨nearDouble r, ?_, h⟩
    simp only [double]
    rw [if_neg]
    have h1 := (abs_le.1 h).1
    have h2 := (abs_le.1 hr).1
    have h3 : (2⁻¹ : ℝ) ^ 53 * |r| ≤ 2 ^ 1022 := by
      refine le_trans ?_ hr
      have : (2⁻¹ : ℝ) ^ 53 ≤ 1 := by norm_num
      nlinarith [abs_nonneg r]
    have h4 : (2⁻¹ : ℝ) ^ 1075 ≤ 1 := pow_le_one₀ (by norm_num) (by norm_num)
    have h5 : (2 : ℝ) ^ 1024 = 4 * 2 ^ 1022 := by
      rw [show (1024 : ℕ) = 1022 + 2 from rfl, pow_add]; ring
    have h6 : (1 : ℝ) ≤ 2 ^ 1022 := one_le_pow₀ (by norm_num)
    rw [not_le, h5]
    generalize (2 : ℝ) ^ 1022 = M at *
    generalize (2⁻¹ : ℝ) ^ 1075 = E at *
    generalize (2⁻¹ : ℝ) ^ 53 * |r| = F at *
    clear h5
    linarith

end Verif
