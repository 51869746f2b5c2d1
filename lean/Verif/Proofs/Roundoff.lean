import Verif.Spec.Roundoff
import Verif.Proofs.Scaling

/-!
# Relative errors through the operations and the scaling kernels
-/

set_option autoImplicit false

namespace Verif
open FloatLike Hmmc Spec

variable {τ : Trapped} {nc : ℕ}

namespace Trapped

/-- `1 - u`. -/
noncomputable def q (τ : Trapped) : ℝ := 1 - τ.u

theorem q_pos (τ : Trapped) : 0 < τ.q := sub_pos.2 τ.u_lt

theorem q_le (τ : Trapped) : τ.q ≤ 1 := by have := τ.u_nonneg; unfold q; linarith

theorem qpow_pos (τ : Trapped) (k : ℕ) : 0 < τ.q ^ k := pow_pos τ.q_pos k

theorem qpow_le (τ : Trapped) {j k : ℕ} (h : j ≤ k) : τ.q ^ k ≤ τ.q ^ j :=
  pow_le_pow_of_le_one τ.q_pos.le τ.q_le h

end Trapped

namespace Spec.Within

theorem left_nonneg {k : ℕ} {x y : ℝ} (h : Within τ.q k x y) (hy : 0 ≤ y) : 0 ≤ x :=
  (mul_nonneg (τ.qpow_pos k).le hy).trans h.1

theorem left_pos {k : ℕ} {x y : ℝ} (h : Within τ.q k x y) (hy : 0 < y) : 0 < x :=
  (mul_pos (τ.qpow_pos k) hy).trans_le h.1

theorem right_pos {k : ℕ} {x y : ℝ} (h : Within τ.q k x y) (hx : 0 < x) : 0 < y :=
  (mul_pos (τ.qpow_pos k) hx).trans_le h.2

theorem symm {q : ℝ} {k : ℕ} {x y : ℝ} (h : Within q k x y) : Within q k y x := ⟨h.2, h.1⟩

theorem refl {q x : ℝ} : Within q 0 x x := by simp [Within]

theorem mono {j k : ℕ} {x y : ℝ} (h : Within τ.q j x y) (hjk : j ≤ k) (hy : 0 ≤ y) :
    Within τ.q k x y :=
  ⟨(mul_le_mul_of_nonneg_right (τ.qpow_le hjk) hy).trans h.1,
    (mul_le_mul_of_nonneg_right (τ.qpow_le hjk) (h.left_nonneg hy)).trans h.2⟩

theorem trans {j k : ℕ} {x y z : ℝ} (h : Within τ.q j x y) (h' : Within τ.q k y z) :
    Within τ.q (j + k) x z := by
  constructor
  · rw [pow_add, mul_assoc]
    exact (mul_le_mul_of_nonneg_left h'.1 (τ.qpow_pos j).le).trans h.1
  · rw [pow_add, mul_comm (τ.q ^ j), mul_assoc]
    exact (mul_le_mul_of_nonneg_left h.2 (τ.qpow_pos k).le).trans h'.2

theorem mul {j k : ℕ} {x y x' y' : ℝ} (h : Within τ.q j x y) (h' : Within τ.q k x' y') (hy : 0 ≤ y)
    (hy' : 0 ≤ y') : Within τ.q (j + k) (x * x') (y * y') := by
  have hj := (τ.qpow_pos j).le
  have hk := (τ.qpow_pos k).le
  constructor
  · calc τ.q ^ (j + k) * (y * y') = (τ.q ^ j * y) * (τ.q ^ k * y') := by rw [pow_add]; ring
      _ ≤ x * x' := mul_le_mul h.1 h'.1 (mul_nonneg hk hy') (h.left_nonneg hy)
  · calc τ.q ^ (j + k) * (x * x') = (τ.q ^ j * x) * (τ.q ^ k * x') := by rw [pow_add]; ring
      _ ≤ y * y' := mul_le_mul h.2 h'.2 (mul_nonneg hk (h'.left_nonneg hy')) hy

theorem add {k : ℕ} {x y x' y' : ℝ} (h : Within τ.q k x y) (h' : Within τ.q k x' y') :
    Within τ.q k (x + x') (y + y') :=
  ⟨by rw [mul_add]; exact add_le_add h.1 h'.1, by rw [mul_add]; exact add_le_add h.2 h'.2⟩

theorem inv {k : ℕ} {x y : ℝ} (h : Within τ.q k x y) (hx : 0 < x) (hy : 0 < y) :
    Within τ.q k x⁻¹ y⁻¹ := by
  have hk := τ.qpow_pos k
  constructor
  · rw [← div_eq_mul_inv, div_le_iff₀ hy, inv_mul_eq_div, le_div_iff₀ hx]; exact h.2
  · rw [← div_eq_mul_inv, div_le_iff₀ hx, inv_mul_eq_div, le_div_iff₀ hy]; exact h.1

theorem div {j k : ℕ} {x y x' y' : ℝ} (h : Within τ.q j x y) (h' : Within τ.q k x' y') (hy : 0 ≤ y)
    (hy' : 0 < y') : Within τ.q (j + k) (x / x') (y / y') := by
  rw [div_eq_mul_inv, div_eq_mul_inv]
  exact h.mul (h'.inv (h'.left_pos hy') hy') hy (inv_nonneg.2 hy'.le)

theorem scale {k : ℕ} {x y c : ℝ} (h : Within τ.q k x y) (hc : 0 ≤ c) :
    Within τ.q k (c * x) (c * y) :=
  ⟨by rw [mul_left_comm]; exact mul_le_mul_of_nonneg_left h.1 hc,
    by rw [mul_left_comm]; exact mul_le_mul_of_nonneg_left h.2 hc⟩

/-- One rounding. -/
theorem rnd {r x : ℝ} (h : τ.rnd r = some x) (hr : 0 ≤ r) : Within τ.q 1 x r := by
  have h := τ.rel r x h
  rw [abs_of_nonneg hr, abs_le] at h
  have hu := τ.u_nonneg
  have hq := τ.q_pos
  simp only [Within, pow_one]
  unfold Trapped.q at *
  constructor
  · nlinarith
  · nlinarith [mul_nonneg hu hr, mul_nonneg hu (mul_nonneg hu hr)]

/-- The logarithms of numbers that agree up to `k` factors. -/
theorem log {k : ℕ} {x y : ℝ} (h : Within τ.q k x y) (hx : 0 < x) (hy : 0 < y) :
    |Real.log x - Real.log y| ≤ k * -Real.log τ.q := by
  have hk := τ.qpow_pos k
  have h1 := Real.log_le_log (mul_pos hk hy) h.1
  have h2 := Real.log_le_log (mul_pos hk hx) h.2
  rw [Real.log_mul hk.ne' hy.ne', Real.log_pow] at h1
  rw [Real.log_mul hk.ne' hx.ne', Real.log_pow] at h2
  rw [abs_le]
  constructor <;> linarith

end Spec.Within

/-! ## The operations -/

namespace TX

theorem zero_eq : (0 : TX τ) = TX.fin τ 0 := rfl
theorem one_eq : (1 : TX τ) = TX.fin τ 1 := rfl

theorem add_fin (a b : ℝ) : TX.fin τ a + TX.fin τ b = (τ.rnd (a + b)).elim (TX.nan τ) (TX.fin τ) := rfl
theorem mul_fin (a b : ℝ) : TX.fin τ a * TX.fin τ b = (τ.rnd (a * b)).elim (TX.nan τ) (TX.fin τ) := rfl
theorem sub_fin (a b : ℝ) : TX.fin τ a - TX.fin τ b = (τ.rnd (a - b)).elim (TX.nan τ) (TX.fin τ) := by
  rw [sub_eq_add_neg]; rfl
theorem div_fin (a : ℝ) {b : ℝ} (hb : b ≠ 0) :
    TX.fin τ a / TX.fin τ b = (τ.rnd (a / b)).elim (TX.nan τ) (TX.fin τ) := by
  show τ.ap (XF.div (XF.fin a) (XF.fin b)) = _
  simp only [XF.div, if_neg hb]; rfl
theorem log_fin {a : ℝ} (h : 0 < a) :
    FloatLike.log (TX.fin τ a) = (τ.rnd (Real.log a)).elim (TX.nan τ) (TX.fin τ) := by
  show τ.ap (XF.log (XF.fin a)) = _
  simp only [XF.log, if_neg h.ne', if_pos h]; rfl

theorem nan_add (x : TX τ) : TX.nan τ + x = TX.nan τ := by
  show τ.ap (XF.add XF.nan x) = _; cases x <;> rfl
theorem add_nan (x : TX τ) : x + TX.nan τ = TX.nan τ := by
  show τ.ap (XF.add x XF.nan) = _; cases x <;> rfl
theorem nan_sub (x : TX τ) : TX.nan τ - x = TX.nan τ := by
  show τ.ap (XF.add XF.nan (XF.neg x)) = _; cases x <;> rfl
theorem sub_nan (x : TX τ) : x - TX.nan τ = TX.nan τ := by
  show τ.ap (XF.add x XF.nan) = _; cases x <;> rfl
theorem nan_mul (x : TX τ) : TX.nan τ * x = TX.nan τ := by
  show τ.ap (XF.mul XF.nan x) = _; cases x <;> rfl
theorem mul_nan (x : TX τ) : x * TX.nan τ = TX.nan τ := by
  show τ.ap (XF.mul x XF.nan) = _; cases x <;> rfl
theorem nan_div (x : TX τ) : TX.nan τ / x = TX.nan τ := by
  show τ.ap (XF.div XF.nan x) = _; cases x <;> rfl
theorem div_nan (x : TX τ) : x / TX.nan τ = TX.nan τ := by
  show τ.ap (XF.div x XF.nan) = _; cases x <;> rfl
theorem log_nan : FloatLike.log (TX.nan τ) = TX.nan τ := rfl
theorem lt_fin (a b : ℝ) : FloatLike.lt (TX.fin τ a) (TX.fin τ b) = decide (a < b) := by
  show XF.lt _ _ = _
  simp only [XF.lt, TX.fin]
theorem eq_fin (a b : ℝ) : FloatLike.eq (TX.fin τ a) (TX.fin τ b) = decide (a = b) := by
  show XF.eq _ _ = _
  simp only [XF.eq, TX.fin]
theorem nan_eq (x : TX τ) : FloatLike.eq (TX.nan τ) x = false := by
  show XF.eq XF.nan x = false; cases x <;> rfl
theorem nan_lt (x : TX τ) : FloatLike.lt (TX.nan τ) x = false := by
  show XF.lt XF.nan x = false; cases x <;> rfl
theorem fin_ne_nan (r : ℝ) : TX.fin τ r ≠ TX.nan τ := by intro h; cases h
theorem fin_inj {r s : ℝ} (h : TX.fin τ r = TX.fin τ s) : r = s := XF.fin_injective h

/-- A rounded result is NaN or a rounding. -/
theorem elim_cases (r : ℝ) : (τ.rnd r).elim (TX.nan τ) (TX.fin τ) = TX.nan τ ∨
    ∃ x, τ.rnd r = some x ∧ (τ.rnd r).elim (TX.nan τ) (TX.fin τ) = TX.fin τ x := by
  cases h : τ.rnd r with
  | none => exact Or.inl rfl
  | some x => exact Or.inr ⟨x, rfl, rfl⟩

end TX

namespace Spec.Near

theorem fin {r : ℝ} (hr : 0 ≤ r) : Near 0 (TX.fin τ r) r := Or.inr ⟨r, rfl, hr, Within.refl⟩

theorem mono {j k : ℕ} {x : TX τ} {y : ℝ} (h : Near j x y) (hjk : j ≤ k) : Near k x y := by
  rcases h with h | ⟨r, h, hy, hr⟩
  · exact Or.inl h
  · exact Or.inr ⟨r, h, hy, Within.mono (τ := τ) hr hjk hy⟩

theorem round {k : ℕ} {r y : ℝ} (hy : 0 ≤ y) (h : Within τ.q k r y) :
    Near (τ := τ) (k + 1) ((τ.rnd r).elim (TX.nan τ) (TX.fin τ)) y := by
  rcases TX.elim_cases (τ := τ) r with h' | ⟨x, hx, h'⟩
  · exact Or.inl h'
  · refine Or.inr ⟨x, h', hy, ?_⟩
    rw [Nat.add_comm]
    exact (Within.rnd hx (h.left_nonneg hy)).trans h

theorem mul {j k : ℕ} {x x' : TX τ} {y y' : ℝ} (h : Near j x y) (h' : Near k x' y') :
    Near (j + k + 1) (x * x') (y * y') := by
  rcases h with rfl | ⟨r, rfl, hy, hr⟩
  · exact Or.inl (TX.nan_mul _)
  rcases h' with rfl | ⟨r', rfl, hy', hr'⟩
  · exact Or.inl (TX.mul_nan _)
  rw [TX.mul_fin]
  exact round (mul_nonneg hy hy') (Within.mul hr hr' hy hy')

theorem add {k : ℕ} {x x' : TX τ} {y y' : ℝ} (h : Near k x y) (h' : Near k x' y') :
    Near (k + 1) (x + x') (y + y') := by
  rcases h with rfl | ⟨r, rfl, hy, hr⟩
  · exact Or.inl (TX.nan_add _)
  rcases h' with rfl | ⟨r', rfl, hy', hr'⟩
  · exact Or.inl (TX.add_nan _)
  rw [TX.add_fin]
  exact round (add_nonneg hy hy') (Within.add hr hr')

theorem div {j k : ℕ} {x x' : TX τ} {y y' : ℝ} (h : Near j x y) (h' : Near k x' y') (hy' : 0 < y') :
    Near (j + k + 1) (x / x') (y / y') := by
  rcases h with rfl | ⟨r, rfl, hy, hr⟩
  · exact Or.inl (TX.nan_div _)
  rcases h' with rfl | ⟨r', rfl, _, hr'⟩
  · exact Or.inl (TX.div_nan _)
  rw [TX.div_fin _ (Within.left_pos hr' hy').ne']
  exact round (div_nonneg hy hy'.le) (Within.div hr hr' hy hy')

/-- Accumulation from left to right. -/
theorem foldl {ι : Type} (l : List ι) {k m : ℕ} {f : ι → TX τ} {g : ι → ℝ}
    (h : ∀ i ∈ l, Near k (f i) (g i)) {a : TX τ} {b : ℝ} (hab : Near m a b) (hm : k ≤ m) :
    Near (m + l.length) (l.foldl (fun acc i => acc + f i) a) (b + (l.map g).sum) := by
  induction l generalizing a b m with
  | nil => simpa using hab
  | cons i l ih =>
    simp only [List.foldl_cons, List.map_cons, List.sum_cons, List.length_cons]
    have := ih (fun i hi => h i (List.mem_cons_of_mem _ hi))
      (hab.add ((h i List.mem_cons_self).mono hm)) (hm.trans (Nat.le_succ m))
    rw [add_assoc b] at this
    rw [show m + (l.length + 1) = m + 1 + l.length by omega]
    exact this

theorem sumF {n k : ℕ} {f : Fin n → TX τ} {g : Fin n → ℝ} (h : ∀ i, Near k (f i) (g i)) :
    Near (k + n) (Verif.sumF f) (∑ i, g i) := by
  have := foldl (List.finRange n) (fun i _ => h i) ((Near.fin (τ := τ) le_rfl).mono (Nat.zero_le k)) le_rfl
  rw [zero_add, List.length_finRange, ← List.ofFn_eq_map, List.sum_ofFn] at this
  exact this

theorem ne_nan {k : ℕ} {x : TX τ} {y : ℝ} (h : Near k x y) (hx : x ≠ TX.nan τ) :
    ∃ r, x = TX.fin τ r ∧ 0 ≤ y ∧ Within τ.q k r y := h.resolve_left hx

end Spec.Near

/-! ## The forward kernel -/

/-- The constant `1e-300` is in the range. -/
def Trapped.HasMinSum (τ : Trapped) : Prop := ∃ x, τ.rnd eps = some x

theorem minSum_TX (h : τ.HasMinSum) : ∃ x, (minSum : TX τ) = TX.fin τ x ∧ 0 < x ∧
    Within τ.q 1 x eps := by
  obtain ⟨x, hx⟩ := h
  have hw := Within.rnd hx eps_pos.le
  refine ⟨x, ?_, hw.left_pos eps_pos, hw⟩
  show τ.ap (XF.fin eps) = _
  simp only [Trapped.ap, hx]; rfl

/-- Rows of the scaled forward lattice against the unscaled real lattice: row `t` is the real row
times the scalings up to `t`, and these scalings make the real row sum one, up to roundoff. -/
def FwdRows (d : ℕ) : ℕ → ℝ → List ℝ → List (Row (TX τ) nc) → List (Fin nc → ℝ) → Prop
  | k, P, c :: cs, f :: fs, a :: as =>
    (0 < c ∧ (∀ i, Near k (f i) (P * c * a i)) ∧ Within τ.q (k + nc) (P * c * rowSum a) 1 ∧
      τ.q ^ 2 * eps * c ≤ 1) ∧
      FwdRows d (k + d) (P * c) cs fs as
  | _, _, [], [], [] => True
  | _, _, _, _, _ => False

/-- One normalisation step. -/
theorem scaleRow_near (hm : τ.HasMinSum) {row : Row (TX τ) nc} {a : Fin nc → ℝ} {P : ℝ} (hP : 0 < P)
    {k : ℕ} (h : ∀ i, Near k (row i) (P * a i)) {c : TX τ} {f : Row (TX τ) nc}
    (ho : scaleRow row = .ok (c, f)) :
    c = TX.nan τ ∨ ∃ r, c = TX.fin τ r ∧ 0 < r ∧ (∀ i, Near (k + 1) (f i) (P * r * a i)) ∧
      Within τ.q (k + 1 + nc) (P * r * rowSum a) 1 ∧ τ.q ^ 2 * eps * r ≤ 1 := by
  obtain ⟨m, hm, m0, hme⟩ := minSum_TX hm
  unfold scaleRow at ho
  simp only [memo_eq, hm] at ho
  have hs : Near (k + nc) (sumF row) (P * rowSum a) := by
    have := Near.sumF h
    rwa [← Finset.mul_sum] at this
  rcases hs with hs | ⟨s, hs, hy, hw⟩
  · rw [hs, TX.nan_lt, if_neg (by simp)] at ho
    rw [TX.div_nan] at ho
    cases ho
    exact Or.inl rfl
  · rw [hs, TX.lt_fin] at ho
    split at ho
    · cases ho
    next hlt =>
    have hs0 : 0 < s := m0.trans_le (by simpa using hlt)
    rw [TX.one_eq, TX.div_fin _ hs0.ne'] at ho
    rcases TX.elim_cases (τ := τ) (1 / s) with h' | ⟨r, hr, h'⟩
    · rw [h'] at ho; cases ho; exact Or.inl rfl
    rw [h'] at ho
    cases ho
    have hwr := Within.rnd hr (by positivity)
    have hr0 : 0 < r := hwr.left_pos (by positivity)
    refine Or.inr ⟨r, rfl, hr0, fun i => ?_, ?_, ?_⟩
    · have := (h i).mul (Near.fin (τ := τ) hr0.le)
      rwa [show P * a i * r = P * r * a i by ring, Nat.add_zero] at this
    · have hy0 : 0 < P * rowSum a := Within.right_pos hw hs0
      have h1 : Within τ.q (k + nc) (P * rowSum a) s := Within.symm hw
      have h2 := Within.mul h1 hwr hs0.le (by positivity)
      rw [mul_one_div, div_self hs0.ne'] at h2
      rw [show P * r * rowSum a = P * rowSum a * r by ring,
        show k + 1 + nc = k + nc + 1 by omega]
      exact h2
    · have h1 : τ.q * eps ≤ s := by
        have := hme.1
        rw [pow_one] at this
        exact this.trans (by simpa using hlt)
      have h2 : τ.q * r ≤ 1 / s := by have := hwr.2; rwa [pow_one] at this
      calc τ.q ^ 2 * eps * r = (τ.q * eps) * (τ.q * r) := by ring
        _ ≤ s * (1 / s) := mul_le_mul h1 h2 (mul_nonneg τ.q_pos.le hr0.le) hs0.le
        _ = 1 := by field_simp

/-- A NaN in the running log-probability stays. -/
theorem forwardScalingLoop_nan (A : Mat (TX τ) nc) (bs : List (Row (TX τ) nc)) {prev : Row (TX τ) nc}
    {lp : TX τ} {rows : List (Row (TX τ) nc)} {cs : List (TX τ)}
    (h : forwardScalingLoop A prev (TX.nan τ) bs = .ok (lp, rows, cs)) : lp = TX.nan τ := by
  induction bs generalizing prev rows cs with
  | nil => cases h; rfl
  | cons b bs ih =>
    simp only [forwardScalingLoop] at h
    split at h
    · cases h
    · rw [TX.nan_sub] at h
      split at h
      · cases h
      · next h' => cases h; exact ih h'

/-- The real unscaled row from the previous one. -/
theorem fwdRow_near {A' : Mat (TX τ) nc} {A : Fin nc → Fin nc → ℝ} {ka kb k : ℕ}
    (hA : ∀ i j, Near ka (A' i j) (A i j)) {b' : Row (TX τ) nc} {b : Fin nc → ℝ}
    (hb : ∀ i, Near kb (b' i) (b i)) {p' : Row (TX τ) nc} {r : Fin nc → ℝ} {P : ℝ}
    (hp : ∀ i, Near k (p' i) (P * r i)) (j : Fin nc) :
    Near (k + (ka + kb + nc + 2)) (fwdScalingRow A' p' b' j) (P * (push A r j * b j)) := by
  have h1 : Near (k + ka + 1 + nc) (sumF fun i => p' i * A' i j) (∑ i, P * r i * A i j) :=
    Near.sumF fun i => (hp i).mul (hA i j)
  have h2 := h1.mul (hb j)
  refine Near.mono ?_ (show k + ka + 1 + nc + kb + 1 ≤ _ by omega)
  have e : P * (push A r j * b j) = (∑ i, P * r i * A i j) * b j := by
    unfold push
    rw [← mul_assoc, Finset.mul_sum]
    congr 1
    exact Finset.sum_congr rfl fun i _ => by ring
  rw [e]; exact h2

theorem forwardScalingLoop_near (hm : τ.HasMinSum) {A' : Mat (TX τ) nc} {A : Fin nc → Fin nc → ℝ}
    {ka kb : ℕ} (hA : ∀ i j, Near ka (A' i j) (A i j)) {bs' : List (Row (TX τ) nc)}
    {bs : List (Fin nc → ℝ)} (hb : List.Forall₂ (fun b' b => ∀ i, Near kb (b' i) (b i)) bs' bs)
    {p' : Row (TX τ) nc} {r : Fin nc → ℝ} {P : ℝ} (hP : 0 < P) {k : ℕ}
    (hp : ∀ i, Near k (p' i) (P * r i)) {lp lp' : TX τ} {rows : List (Row (TX τ) nc)}
    {scs : List (TX τ)} (ho : forwardScalingLoop A' p' lp bs' = .ok (lp', rows, scs))
    (hn : lp' ≠ TX.nan τ) :
    ∃ cs : List ℝ, scs = cs.map (TX.fin τ) ∧
      FwdRows (ka + kb + nc + 3) (k + (ka + kb + nc + 3)) P cs rows (rfwd A (push A r) bs) ∧
      lp' = scs.foldl (fun acc c => acc - FloatLike.log c) lp := by
  induction hb generalizing p' r P k lp rows scs with
  | nil => cases ho; exact ⟨[], rfl, trivial, rfl⟩
  | @cons b' b bs' bs hb0 _ ih =>
    simp only [forwardScalingLoop, memo_eq] at ho
    split at ho
    · cases ho
    next c f hsc =>
    split at ho
    · cases ho
    next lp2 rows2 scs2 hrest =>
    cases ho
    rcases scaleRow_near hm hP (fwdRow_near hA hb0 hp) hsc with rfl | ⟨c, rfl, hc, hf, hw, he⟩
    · rw [TX.log_nan, TX.sub_nan] at hrest
      exact absurd (forwardScalingLoop_nan _ _ hrest) hn
    · obtain ⟨cs, rfl, hcs, hlp⟩ := ih (mul_pos hP hc) hf hrest
      refine ⟨c :: cs, rfl, ⟨⟨hc, fun i => ?_, ?_, he⟩, ?_⟩, ?_⟩
      · exact (hf i).mono (by omega)
      · refine Within.mono (τ := τ) hw (by omega) zero_le_one
      · exact hcs
      · rw [hlp]; rfl

/-- `forward_scaling` in rounded arithmetic. -/
theorem forwardScaling_near (hm : τ.HasMinSum) {π' : Row (TX τ) nc} {π : Fin nc → ℝ}
    {A' : Mat (TX τ) nc} {A : Fin nc → Fin nc → ℝ} {kp ka kb : ℕ} (hπ : ∀ i, Near kp (π' i) (π i))
    (hA : ∀ i j, Near ka (A' i j) (A i j)) {bs' : List (Row (TX τ) nc)}
    {bs : List (Fin nc → ℝ)} (hb : List.Forall₂ (fun b' b => ∀ i, Near kb (b' i) (b i)) bs' bs)
    {lp : TX τ} {rows : List (Row (TX τ) nc)} {scs : List (TX τ)}
    (ho : forwardScaling π' A' bs' = .ok (lp, rows, scs)) (hn : lp ≠ TX.nan τ) :
    ∃ cs : List ℝ, scs = cs.map (TX.fin τ) ∧
      FwdRows (ka + kb + nc + 3) (kp + kb + 2) 1 cs rows (rfwd A π bs) ∧
      lp = scs.foldl (fun acc c => acc - FloatLike.log c) 0 := by
  cases hb with
  | nil => cases ho
  | @cons b' b bs' bs hb0 hbs =>
    simp only [forwardScaling, memo_eq] at ho
    split at ho
    · cases ho
    next c f hsc =>
    split at ho
    · cases ho
    next lp2 rows2 scs2 hrest =>
    cases ho
    have h0 : ∀ i, Near (kp + kb + 1) (π' i * b' i) (1 * (π i * b i)) := fun i => by
      rw [one_mul]; exact (hπ i).mul (hb0 i)
    rcases scaleRow_near hm one_pos h0 hsc with rfl | ⟨c, rfl, hc, hf, hw, he⟩
    · rw [TX.log_nan, TX.sub_nan] at hrest
      exact absurd (forwardScalingLoop_nan _ _ hrest) hn
    · obtain ⟨cs, rfl, hcs, hlp⟩ := forwardScalingLoop_near hm hA hbs (mul_pos one_pos hc) hf hrest hn
      refine ⟨c :: cs, rfl, ⟨⟨hc, hf, ?_, he⟩, hcs⟩, ?_⟩
      · exact hw
      · rw [hlp]; rfl

/-! ## The log-probability -/

/-- The running log-probability: each step adds the logarithm of a scaling with two roundings. -/
theorem logFold (cs : List ℝ) (hc : ∀ c ∈ cs, 0 < c) {a : ℝ} {lp : TX τ} {S W : ℝ} {m : ℕ}
    (hm : 1 ≤ m) (hS : |S| ≤ W) (ha : |a - S| ≤ ((1 + τ.u) ^ m - 1) * W)
    (h : lp = (cs.map (TX.fin τ)).foldl (fun acc c => acc - FloatLike.log c) (TX.fin τ a))
    (hn : lp ≠ TX.nan τ) :
    ∃ x, lp = TX.fin τ x ∧ |x - (S - (cs.map Real.log).sum)| ≤
      ((1 + τ.u) ^ (m + cs.length) - 1) * (W + (cs.map fun c => |Real.log c|).sum) := by
  induction cs generalizing a S W m with
  | nil => exact ⟨a, h, by simpa using ha⟩
  | cons c cs ih =>
    have stuck : ∀ l : List ℝ, (l.map (TX.fin τ)).foldl (fun acc c => acc - FloatLike.log c)
        (TX.nan τ) = TX.nan τ := by
      intro l
      induction l with
      | nil => rfl
      | cons c l ih => simpa only [List.map_cons, List.foldl_cons, TX.nan_sub] using ih
    simp only [List.map_cons, List.foldl_cons] at h
    have hc0 := hc c List.mem_cons_self
    rw [TX.log_fin hc0] at h
    rcases TX.elim_cases (τ := τ) (Real.log c) with h' | ⟨l, hl, h'⟩
    · rw [h', TX.sub_nan, stuck] at h; exact absurd h hn
    rw [h', TX.sub_fin] at h
    rcases TX.elim_cases (τ := τ) (a - l) with h'' | ⟨b, hb, h''⟩
    · rw [h'', stuck] at h; exact absurd h hn
    rw [h''] at h
    have hu := τ.u_nonneg
    have hl := τ.rel _ _ hl
    have hb := τ.rel _ _ hb
    set g := Real.log c
    have hg := abs_nonneg g
    have hW : 0 ≤ W := (abs_nonneg S).trans hS
    have e1 : |a - l - (S - g)| ≤ ((1 + τ.u) ^ m - 1) * W + τ.u * |g| := by
      rw [show a - l - (S - g) = (a - S) + -(l - g) by ring]
      exact (abs_add_le _ _).trans (add_le_add ha (by rw [abs_neg]; exact hl))
    have e2 : |S - g| ≤ W + |g| := (abs_sub _ _).trans (by linarith)
    have e3 : |a - l| ≤ ((1 + τ.u) ^ m - 1) * W + τ.u * |g| + (W + |g|) := by
      rw [show a - l = (a - l - (S - g)) + (S - g) by ring]
      exact (abs_add_le _ _).trans (add_le_add e1 e2)
    have e4 : |b - (S - g)| ≤ ((1 + τ.u) ^ (m + 1) - 1) * (W + |g|) := by
      rw [show b - (S - g) = (b - (a - l)) + (a - l - (S - g)) by ring]
      refine (abs_add_le _ _).trans ((add_le_add (hb.trans (mul_le_mul_of_nonneg_left e3 hu)) e1).trans ?_)
      have hp : 1 + τ.u ≤ (1 + τ.u) ^ m := by
        calc 1 + τ.u = (1 + τ.u) ^ 1 := (pow_one _).symm
          _ ≤ _ := pow_le_pow_right₀ (by linarith) hm
      rw [pow_succ]
      nlinarith [mul_nonneg hg hu, mul_nonneg hg (sub_nonneg.2 hp),
        mul_nonneg (mul_nonneg hg hu) (sub_nonneg.2 hp)]
    obtain ⟨x, hx, hxb⟩ := ih (fun c h => hc c (List.mem_cons_of_mem _ h)) (Nat.le_add_left 1 m) e2 e4 h
    refine ⟨x, hx, ?_⟩
    simp only [List.map_cons, List.sum_cons, List.length_cons]
    rw [show S - (g + (cs.map Real.log).sum) = S - g - (cs.map Real.log).sum by ring, ← add_assoc W,
      show m + (cs.length + 1) = m + 1 + cs.length by omega]
    exact hxb

/-! ## The backward kernel -/

/-- Rows of the scaled backward lattice against the unscaled real one. -/
def BwdRows (d : ℕ) : List ℝ → List (Row (TX τ) nc) → List (Fin nc → ℝ) → Prop
  | c :: cs, w :: ws, e :: es =>
    (∀ i, Near (cs.length * d) (w i) (c * cs.prod * e i)) ∧ BwdRows d cs ws es
  | [], [], [] => True
  | _, _, _ => False

theorem backwardScalingLoop_near {A' : Mat (TX τ) nc} {A : Fin nc → Fin nc → ℝ} {ka kb : ℕ}
    (hA : ∀ i j, Near ka (A' i j) (A i j)) {bs' : List (Row (TX τ) nc)} {bs : List (Fin nc → ℝ)}
    (hb : List.Forall₂ (fun b' b => ∀ i, Near kb (b' i) (b i)) bs' bs) (cs : List ℝ)
    (hlen : cs.length = bs.length) (hc : ∀ c ∈ cs, 0 < c) :
    BwdRows (ka + kb + nc + 3) cs (backwardScalingLoop A' (bs'.zip (cs.map (TX.fin τ)))) (rbwd A bs) := by
  induction hb generalizing cs with
  | nil =>
    have : cs = [] := by simpa using hlen
    subst this; exact trivial
  | @cons b' b bs' bs hb0 hbs ih =>
    cases cs with
    | nil => simp at hlen
    | cons c cs =>
      have hc0 := hc c List.mem_cons_self
      have ih := ih cs (by simpa using hlen) fun c h => hc c (List.mem_cons_of_mem _ h)
      cases hbs with
      | nil =>
        have : cs = [] := by simpa using hlen
        subst this
        refine ⟨fun i => ?_, trivial⟩
        have := Near.fin (τ := τ) hc0.le
        simpa [rbwd, beta, backwardScalingLoop] using this
      | @cons b2' b2 bs' bs hb2 hbs =>
        cases cs with
        | nil => simp at hlen
        | cons c2 cs =>
          simp only [List.map_cons, List.zip_cons_cons, backwardScalingLoop, rbwd] at ih ⊢
          cases hw : backwardScalingLoop A' ((b2', TX.fin τ c2) :: bs'.zip (cs.map (TX.fin τ))) with
          | nil => rw [hw] at ih; exact ih.elim
          | cons w ws =>
            rw [hw] at ih
            refine ⟨fun i => ?_, ih⟩
            rw [memo_eq]
            have h1 : ∀ j, Near (ka + kb + 1 + cs.length * (ka + kb + nc + 3) + 1)
                (A' i j * b2' j * w j) (A i j * b2 j * (c2 * cs.prod * beta A bs j)) := fun j =>
              ((hA i j).mul (hb2 j)).mul (ih.1 j)
            have h2 := (Near.sumF h1).mul (Near.fin (τ := τ) hc0.le)
            have e : c * (c2 :: cs).prod * beta A (b2 :: bs) i =
                (∑ j, A i j * b2 j * (c2 * cs.prod * beta A bs j)) * c := by
              simp only [beta, List.prod_cons, Finset.mul_sum, Finset.sum_mul]
              exact Finset.sum_congr rfl fun j _ => by ring
            rw [e]
            refine h2.mono ?_
            simp only [List.length_cons, Nat.add_mul]
            omega

/-! ## Posteriors and expected counts -/

theorem FwdRows.scalings_pos {d k : ℕ} {P : ℝ} {cs : List ℝ} {fs : List (Row (TX τ) nc)}
    {as : List (Fin nc → ℝ)} (h : FwdRows d k P cs fs as) : ∀ c ∈ cs, 0 < c := by
  induction cs generalizing k P fs as with
  | nil => simp
  | cons c cs ih =>
    cases fs with
    | nil => exact h.elim
    | cons f fs =>
      cases as with
      | nil => exact h.elim
      | cons a as =>
        intro x hx
        rcases List.mem_cons.1 hx with rfl | hx
        · exact h.1.1
        · exact ih h.2 x hx

theorem FwdRows.length {d k : ℕ} {P : ℝ} {cs : List ℝ} {fs : List (Row (TX τ) nc)}
    {as : List (Fin nc → ℝ)} (h : FwdRows d k P cs fs as) :
    cs.length = as.length ∧ fs.length = as.length := by
  induction cs generalizing k P fs as with
  | nil => cases fs <;> cases as <;> simp_all [FwdRows]
  | cons c cs ih =>
    cases fs with
    | nil => exact h.elim
    | cons f fs =>
      cases as with
      | nil => exact h.elim
      | cons a as => simp [ih h.2]

/-- All scalings together make the likelihood one. -/
theorem FwdRows.total {d k : ℕ} {P : ℝ} {cs : List ℝ} {fs : List (Row (TX τ) nc)}
    {as : List (Fin nc → ℝ)} (h : FwdRows d k P cs fs as) (hne : as ≠ []) (z : ℝ) :
    Within τ.q (k + (as.length - 1) * d + nc) (P * cs.prod * (as.map rowSum).getLastD z) 1 := by
  induction cs generalizing k P fs as z with
  | nil => cases fs <;> cases as <;> simp_all [FwdRows]
  | cons c cs ih =>
    cases fs with
    | nil => exact h.elim
    | cons f fs =>
      cases as with
      | nil => exact h.elim
      | cons a as =>
        simp only [List.map_cons, List.getLastD_cons, List.prod_cons, List.length_cons,
          Nat.add_sub_cancel]
        cases as with
        | nil =>
          have : cs = [] := by simpa using h.2.length.1
          subst this
          simpa using h.1.2.2.1
        | cons a2 as =>
          have := ih h.2 (by simp) (rowSum a)
          rw [← mul_assoc]
          simp only [List.length_cons, Nat.add_sub_cancel] at this ⊢
          rw [show k + (as.length + 1) * d + nc = k + d + as.length * d + nc by
            rw [Nat.add_mul]; omega]
          exact this

/-- A normalised row. -/
theorem normalizeRow_near {k : ℕ} {g : Row (TX τ) nc} {a : Fin nc → ℝ} {C L : ℝ}
    (h : ∀ i, Near k (g i) (C * a i)) (hC : 0 < C) (hL : 0 < L) (hs : ∑ i, a i = L) (i : Fin nc) :
    Near (2 * k + nc + 1) (normalizeRow g i) (a i / L) := by
  unfold normalizeRow
  have hsum : Near (k + nc) (sumF g) (C * L) := by
    have := Near.sumF h
    rwa [← Finset.mul_sum, hs] at this
  have hCL : 0 < C * L := mul_pos hC hL
  have hd : Near (k + nc) (if FloatLike.eq (sumF g) 0 then 1 else sumF g) (C * L) := by
    rcases hsum with h' | ⟨r, h', hy, hw⟩
    · rw [h', TX.nan_eq]; exact Or.inl rfl
    · have hr : r ≠ 0 := (Within.left_pos hw hCL).ne'
      rw [h', TX.zero_eq, TX.eq_fin]
      simp only [hr, decide_false, Bool.false_eq_true, if_false]
      exact Or.inr ⟨r, rfl, hy, hw⟩
  have := (h i).div hd hCL
  rw [mul_div_mul_left _ _ hC.ne'] at this
  exact this.mono (by omega)

theorem posteriors_near [NeZero nc] {d k : ℕ} {P : ℝ} (hP : 0 < P) {cs : List ℝ}
    {fs ws : List (Row (TX τ) nc)} {as es : List (Fin nc → ℝ)} (hf : FwdRows d k P cs fs as)
    (hw : BwdRows d cs ws es) {L : ℝ} (hL : 0 < L)
    (hs : ∀ m ∈ List.zipWith (fun a e i => a i * e i) as es, ∑ i, m i = L) :
    List.Forall₂ (fun (g : Row (TX τ) nc) (m : Fin nc → ℝ) => ∀ i,
        Near (2 * (k + (as.length - 1) * d + 1) + nc + 1) (g i) (m i / L))
      (computePosteriorsScaling fs ws) (List.zipWith (fun a e i => a i * e i) as es) := by
  induction cs generalizing k P fs as ws es with
  | nil =>
    cases fs <;> cases as <;> cases ws <;> cases es <;> simp_all [FwdRows, BwdRows, computePosteriorsScaling]
  | cons c cs ih =>
    cases fs with
    | nil => exact hf.elim
    | cons f fs =>
    cases as with
    | nil => exact hf.elim
    | cons a as =>
    cases ws with
    | nil => exact hw.elim
    | cons w ws =>
    cases es with
    | nil => exact hw.elim
    | cons e es =>
      have hc := hf.1.1
      have hlen := hf.2.length.1
      have hprod : 0 < cs.prod := List.prod_pos hf.2.scalings_pos
      simp only [computePosteriorsScaling, memo_eq, List.zipWith_cons_cons, List.length_cons,
        Nat.add_sub_cancel] at hs ⊢
      refine List.Forall₂.cons (fun i => ?_) ?_
      · refine normalizeRow_near (C := P * c * (c * cs.prod)) (k := k + as.length * d + 1)
          (fun i => ?_) (by positivity) hL (hs _ List.mem_cons_self) i
        have := (hf.1.2.1 i).mul (hw.1 i)
        rw [hlen] at this
        rwa [show P * c * (c * cs.prod) * (a i * e i) = P * c * a i * (c * cs.prod * e i) by ring]
      · have ih := ih (mul_pos hP hc) hf.2 hw.2 fun m hm => hs m (List.mem_cons_of_mem _ hm)
        simp only [computePosteriorsScaling, memo_eq] at ih
        cases as with
        | nil =>
          have : cs = [] := by simpa using hlen
          subst this
          cases fs <;> cases ws <;> cases es <;> simp_all [FwdRows, BwdRows]
        | cons a2 as =>
          simp only [List.length_cons, Nat.add_sub_cancel, Nat.add_mul, one_mul] at ih ⊢
          rw [show k + (as.length * d + d) = k + d + as.length * d by omega]
          exact ih

theorem Spec.Near.foldl₂ {ι ι' : Type} {l' : List ι'} {l : List ι} {k m : ℕ} {f : ι' → TX τ} {g : ι → ℝ}
    (h : List.Forall₂ (fun i' i => Near k (f i') (g i)) l' l) {a : TX τ} {b : ℝ} (hab : Near m a b)
    (hm : k ≤ m) :
    Near (m + l.length) (l'.foldl (fun acc i => acc + f i) a) (b + (l.map g).sum) := by
  induction h generalizing a b m with
  | nil => simpa using hab
  | @cons i' i l' l hi _ ih =>
    simp only [List.foldl_cons, List.map_cons, List.sum_cons, List.length_cons]
    have := ih (hab.add (hi.mono hm)) (hm.trans (Nat.le_succ m))
    rw [add_assoc b] at this
    rw [show m + (l.length + 1) = m + 1 + l.length by omega]
    exact this

/-- The terms of the expected transition counts. -/
theorem xiTerms_near {A' : Mat (TX τ) nc} {A : Fin nc → Fin nc → ℝ} {ka kb : ℕ}
    (hA : ∀ i j, Near ka (A' i j) (A i j)) {bs' : List (Row (TX τ) nc)} {bs : List (Fin nc → ℝ)}
    (hb : List.Forall₂ (fun b' b => ∀ i, Near kb (b' i) (b i)) bs' bs) {d k : ℕ} {P : ℝ} {cs : List ℝ}
    {fs ws : List (Row (TX τ) nc)} {as es : List (Fin nc → ℝ)} (hf : FwdRows d k P cs fs as)
    (hw : BwdRows d cs ws es) (i j : Fin nc) :
    List.Forall₂ (fun (x' : Row (TX τ) nc × Row (TX τ) nc × Row (TX τ) nc)
        (x : (Fin nc → ℝ) × (Fin nc → ℝ) × (Fin nc → ℝ)) =>
        Near (k + (as.length - 2) * d + ka + kb + 3) (x'.1 i * A' i j * x'.2.1 j * x'.2.2 j)
          (P * cs.prod * (x.1 i * A i j * x.2.1 j * x.2.2 j)))
      (fs.zip (bs'.tail.zip ws.tail)) (as.zip (bs.tail.zip es.tail)) := by
  induction cs generalizing k P fs as ws es bs' bs with
  | nil =>
    cases fs <;> cases as <;> cases ws <;> cases es <;> simp_all [FwdRows, BwdRows]
  | cons c cs ih =>
    cases fs with
    | nil => exact hf.elim
    | cons f fs =>
    cases as with
    | nil => exact hf.elim
    | cons a as =>
    cases ws with
    | nil => exact hw.elim
    | cons w ws =>
    cases es with
    | nil => exact hw.elim
    | cons e es =>
      cases hb with
      | nil => simp
      | @cons b' b bs' bs hb0 hbs =>
        have hlen := hf.2.length.1
        have ih := ih hbs hf.2 hw.2
        cases cs with
        | nil =>
          cases ws <;> cases es <;> simp_all [BwdRows]
        | cons c2 cs =>
          cases fs with
          | nil => exact hf.2.elim
          | cons f2 fs =>
          cases as with
          | nil => exact hf.2.elim
          | cons a2 as =>
          cases ws with
          | nil => exact hw.2.elim
          | cons w2 ws =>
          cases es with
          | nil => exact hw.2.elim
          | cons e2 es =>
            cases hbs with
            | nil => simp
            | @cons b2' b2 bs' bs hb2 hbs =>
              have hl2 : cs.length = as.length := by simpa using hlen
              simp only [List.tail_cons, List.zip_cons_cons, List.length_cons, Nat.add_sub_cancel] at ih ⊢
              refine List.Forall₂.cons ?_ ?_
              · have := (((hf.1.2.1 i).mul (hA i j)).mul (hb2 j)).mul (hw.2.1 j)
                rw [hl2] at this
                rw [show P * (c :: c2 :: cs).prod * (a i * A i j * b2 j * e2 j) =
                  P * c * a i * A i j * b2 j * (c2 * cs.prod * e2 j) by
                    simp only [List.prod_cons]; ring]
                exact this.mono (by simp only [show as.length + 1 + 1 - 2 = as.length by omega]; omega)
              · have e1 : P * (c :: c2 :: cs).prod = P * c * (c2 :: cs).prod := by
                  simp only [List.prod_cons]; ring
                rw [e1]
                cases as with
                | nil =>
                  have : cs = [] := by simpa using hl2
                  subst this
                  have h2 := hw.2.2
                  cases ws <;> cases es <;> simp_all [BwdRows]
                | cons a3 as =>
                  simp only [List.length_cons] at ih ⊢
                  simp only [show as.length + 1 + 1 + 1 - 2 = as.length + 1 by omega,
                    show as.length + 1 + 1 - 2 = as.length by omega, Nat.add_mul, one_mul] at ih ⊢
                  rw [show k + (as.length * d + d) + ka + kb + 3 = k + d + as.length * d + ka + kb + 3 by omega]
                  exact ih

end Verif
