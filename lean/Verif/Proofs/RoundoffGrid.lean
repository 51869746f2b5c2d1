import Verif.Num.Double
import Verif.Num.XFLemmas
import Verif.Model.Train
import Verif.Model.Utils

/-!
# Rounded numbers
-/

set_option autoImplicit false

namespace Verif
open FloatLike Hmmc

/-- Rounding leaves zero, one and all its results as they are. -/
structure Spec.Grid (ρ : Rounding) : Prop where
  zero : ρ.rnd 0 = .fin 0
  one : ρ.rnd 1 = .fin 1
  idem : ∀ r x, ρ.rnd r = .fin x → ρ.rnd x = .fin x

/-- A probability that the floating-point format holds. -/
def Spec.GridProb (ρ : Rounding) (p : ℝ) : Prop := 0 ≤ p ∧ p ≤ 1 ∧ ρ.rnd p = .fin p

open Spec

/-! ## Doubles -/

theorem nearDouble_of_multiple {r : ℝ} {k : ℤ} (h : r = k * 2 ^ lastBit r) : nearDouble r = r :=
  le_antisymm ((nearDouble_le (k := k) h.le).trans h.ge) (h.le.trans (le_nearDouble (k := k) h.ge))

theorem nearDouble_pow {r : ℝ} {e : ℤ} (he : lastBit r ≤ e) (h : |r| = 2 ^ e) : nearDouble r = r := by
  obtain ⟨b1, b2, b3, b4⟩ := nearDouble_bracket he
  rcases abs_choice r with h' | h'
  · rw [h'] at h
    exact le_antisymm ((b1 h.le).trans h.ge) (h.le.trans (b2 h.ge))
  · rw [h'] at h
    have h2 : r = -2 ^ e := by linarith
    exact le_antisymm ((b3 h2.le).trans h2.ge) (h2.le.trans (b4 h2.ge))

theorem nearDouble_idem (r : ℝ) : nearDouble (nearDouble r) = nearDouble r := by
  by_cases h0 : nearDouble r = 0
  · rw [h0]
    exact le_antisymm ((nearDouble_sign 0).2 le_rfl) ((nearDouble_sign 0).1 le_rfl)
  rcases le_or_gt (lastBit (nearDouble r)) (lastBit r) with h | h
  · obtain ⟨k, hk⟩ := Int.le.dest h
    refine nearDouble_of_multiple (k := roundEven (r / 2 ^ lastBit r) * 2 ^ k) ?_
    have e1 : (2 : ℝ) ^ lastBit r = 2 ^ k * 2 ^ lastBit (nearDouble r) := by
      rw [← hk, zpow_add₀ (by norm_num), mul_comm]; norm_num
    push_cast
    rw [mul_assoc, ← e1]
    rfl
  · obtain ⟨e, h1, h2, h3, h4⟩ := between_of_lastBit_lt h0 h
    obtain ⟨b1, b2, b3, b4⟩ := nearDouble_bracket h3
    refine nearDouble_pow h4 (le_antisymm ?_ h2)
    exact abs_le.2 ⟨b4 (abs_le.1 h1).1, b1 (abs_le.1 h1).2⟩

theorem double_grid : Grid double where
  zero := by
    have : nearDouble 0 = 0 := le_antisymm ((nearDouble_sign 0).2 le_rfl) ((nearDouble_sign 0).1 le_rfl)
    simp only [double, this]
    rw [if_neg]
    simp only [not_le, neg_lt_zero]
    positivity
  one := by
    have h1 : lastBit 1 ≤ 0 := by
      unfold lastBit
      simp
    have : nearDouble 1 = 1 := nearDouble_pow h1 (by simp)
    simp only [double, this]
    rw [if_neg]
    simp only [not_le]
    have : (0 : ℝ) < 2 ^ 1024 := by positivity
    exact (neg_lt_zero.2 this).trans one_pos
  idem r x h := by
    simp only [double] at h ⊢
    split at h
    · cases h
    · next hn =>
      cases h
      rw [nearDouble_idem, if_neg hn]

/-- The probabilities that doubles hold. -/
theorem gridProb_double {p : ℝ} (h : GridProb double p) : p = 0 ∨ (2⁻¹ ^ 1074 ≤ p ∧ p ≤ 1) := by
  obtain ⟨h0, h1, h2⟩ := h
  rcases h0.eq_or_lt with h0 | h0
  · exact Or.inl h0.symm
  refine Or.inr ⟨?_, h1⟩
  have hp : nearDouble p = p := by
    simp only [double] at h2
    split at h2
    · cases h2
    · exact XF.fin.inj h2
  have hq : (2 : ℝ) ^ (-1074 : ℤ) ≤ 2 ^ lastBit p := zpow_le_zpow_right₀ (by norm_num) (le_max_right _ _)
  have hk : 1 ≤ roundEven (p / 2 ^ lastBit p) := by
    by_contra hlt
    have hle : (roundEven (p / 2 ^ lastBit p) : ℝ) ≤ 0 := by exact_mod_cast (by omega : roundEven (p / 2 ^ lastBit p) ≤ 0)
    have : nearDouble p ≤ 0 := mul_nonpos_of_nonpos_of_nonneg hle (two_zpow_pos _).le
    linarith
  have hk' : (1 : ℝ) ≤ roundEven (p / 2 ^ lastBit p) := by exact_mod_cast hk
  have e : (2⁻¹ : ℝ) ^ 1074 = 2 ^ (-1074 : ℤ) := by
    rw [zpow_neg, inv_pow]; norm_cast
  rw [e, ← hp]
  exact hq.trans (le_mul_of_one_le_left (two_zpow_pos _).le hk')

/-! ## Normalised rows -/

variable {ρ : Rounding}

theorem Rounding.rnd_nonneg (g : Grid ρ) {r : ℝ} (h : 0 ≤ r) : ∃ x, ρ.rnd r = .fin x ∧ 0 ≤ x := by
  have := ρ.mono 0 r h
  rw [g.zero] at this
  rcases ρ.valid r with h' | ⟨x, h'⟩
  · rw [h'] at this
    simp [xfKey] at this
  · refine ⟨x, h', ?_⟩
    rw [h'] at this
    simpa [xfKey] using this

theorem Rounding.rnd_le {a b x y : ℝ} (h : a ≤ b) (ha : ρ.rnd a = .fin x) (hb : ρ.rnd b = .fin y) : x ≤ y := by
  have := ρ.mono a b h
  rw [ha, hb] at this
  simpa [xfKey] using this

/-- Sums of non-negative rounded numbers are at least each of the terms. -/
theorem foldl_grid (g : Grid ρ) {k : ℕ} {w : Fin k → RX ρ} {a : Fin k → ℝ} (hw : ∀ i, w i = XF.fin (a i))
    (h0 : ∀ i, 0 ≤ a i) (ha : ∀ i, ρ.rnd (a i) = .fin (a i)) (l : List (Fin k)) (c : ℝ) (hc : 0 ≤ c)
    (hcr : ρ.rnd c = .fin c) :
    ∃ s, l.foldl (fun (acc : RX ρ) i => acc + w i) (XF.fin c : RX ρ) = XF.fin s ∧ ρ.rnd s = .fin s ∧ c ≤ s ∧
      ∀ i ∈ l, a i ≤ s := by
  induction l generalizing c with
  | nil => exact ⟨c, rfl, hcr, le_rfl, by simp⟩
  | cons i l ih =>
    obtain ⟨x, hx, hx0⟩ := Rounding.rnd_nonneg g (add_nonneg hc (h0 i))
    obtain ⟨s, h1, h2, h3, h4⟩ := ih x hx0 (g.idem _ _ hx)
    have hcx : c ≤ x := Rounding.rnd_le (by linarith [h0 i]) hcr hx
    have hax : a i ≤ x := Rounding.rnd_le (by linarith) (ha i) hx
    refine ⟨s, ?_, h2, hcx.trans h3, fun j hj => ?_⟩
    · rw [List.foldl_cons, ← h1]
      congr 1
      rw [hw i]
      exact hx
    · rcases List.mem_cons.1 hj with rfl | hj
      · exact hax.trans h3
      · exact h4 j hj

theorem normalizeRow_grid (g : Grid ρ) {k : ℕ} {w : Fin k → RX ρ} {a : Fin k → ℝ} (hw : ∀ i, w i = XF.fin (a i))
    (h0 : ∀ i, 0 ≤ a i) (ha : ∀ i, ρ.rnd (a i) = .fin (a i)) (i : Fin k) :
    ∃ p, normalizeRow (α := RX ρ) w i = XF.fin p ∧ GridProb ρ p := by
  obtain ⟨s, h1, h2, h3, h4⟩ := foldl_grid g hw h0 ha (List.finRange k) 0 le_rfl g.zero
  have hs : sumF (α := RX ρ) w = XF.fin s := h1
  have hi := h4 i (List.mem_finRange i)
  have quot : ∀ d : ℝ, 0 < d → a i ≤ d → ∃ p, ρ.ap (XF.div (XF.fin (a i)) (XF.fin d)) = XF.fin p ∧ GridProb ρ p := by
    intro d hd hle
    have e : XF.div (XF.fin (a i)) (XF.fin d) = XF.fin (a i / d) := XF.fin_div (a i) d hd.ne'
    rw [e]
    obtain ⟨p, hp, hp0⟩ := Rounding.rnd_nonneg g (div_nonneg (h0 i) hd.le)
    exact ⟨p, hp, hp0, Rounding.rnd_le ((div_le_one hd).2 hle) hp g.one, g.idem _ _ hp⟩
  unfold normalizeRow
  have e0 : FloatLike.eq (α := RX ρ) (XF.fin s) 0 = decide (s = 0) := rfl
  simp only [hs, hw i, e0]
  by_cases hs0 : s = 0
  · simp only [hs0, decide_true, if_true]
    exact quot 1 one_pos (by linarith [h0 i])
  · simp only [hs0, decide_false, Bool.false_eq_true, if_false]
    exact quot s (lt_of_le_of_ne h3 (Ne.symm hs0)) hi

theorem npMaximum_grid (g : Grid ρ) (x y : RX ρ) {r : ℝ} (h : npMaximum (α := RX ρ) (x + y) 0 = XF.fin r) :
    0 ≤ r ∧ ρ.rnd r = .fin r := by
  have e : (x + y : RX ρ) = ρ.ap (XF.add x y) := rfl
  rw [e] at h
  have fin : ∀ z, ρ.ap (XF.add x y) = XF.fin z → ρ.rnd z = .fin z := by
    intro z hz
    cases hxy : XF.add x y with
    | fin q => rw [hxy] at hz; exact g.idem _ _ hz
    | nan => rw [hxy] at hz; cases hz
    | pinf => rw [hxy] at hz; cases hz
    | ninf => rw [hxy] at hz; cases hz
  cases hv : ρ.ap (XF.add x y) with
  | nan => rw [hv] at h; cases h
  | pinf =>
    rw [hv] at h
    have : npMaximum (α := RX ρ) XF.pinf 0 = XF.pinf := rfl
    rw [this] at h; cases h
  | ninf =>
    rw [hv] at h
    have : npMaximum (α := RX ρ) XF.ninf 0 = XF.fin 0 := rfl
    rw [this] at h; cases h
    exact ⟨le_rfl, g.zero⟩
  | fin z =>
    rw [hv] at h
    have e1 : FloatLike.lt (α := RX ρ) (XF.fin z) (0 : RX ρ) = decide (z < 0) := rfl
    have e2 : FloatLike.isNaN (α := RX ρ) (XF.fin z) = false := rfl
    have e3 : FloatLike.isNaN (α := RX ρ) (0 : RX ρ) = false := rfl
    unfold npMaximum at h
    rw [e1, e2, e3] at h
    by_cases hz : z < 0
    · simp only [hz, decide_true, if_true, Bool.false_eq_true, if_false] at h
      have : XF.fin 0 = XF.fin r := h
      cases this
      exact ⟨le_rfl, g.zero⟩
    · simp only [hz, decide_false, Bool.false_eq_true, if_false] at h
      cases h
      exact ⟨not_lt.1 hz, fin _ hv⟩

end Verif
