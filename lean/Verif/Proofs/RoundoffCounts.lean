import Verif.Spec.RoundoffLogEM
import Verif.Proofs.RoundoffXi
import Verif.Proofs.Mstep
import Verif.Model.Train

/-!
# Errors of sums of counts and of normalised rows
-/

set_option autoImplicit false

namespace Verif
open FloatLike Hmmc Spec

variable {ρ : Rounding} {u η Ω δ a : ℝ}

theorem Spec.CountNear.mono {δ' a' : ℝ} {x : XF} {y : ℝ} (h : CountNear δ a x y) (hδ : δ ≤ δ') (ha : a ≤ a') :
    CountNear δ' a' x y := by
  obtain ⟨h0, r, h1, h2, h3⟩ := h
  exact ⟨h0, r, h1, h2.trans (add_le_add (mul_le_mul_of_nonneg_right hδ h0) ha), h3⟩

theorem Spec.CountNear.zero (hδ : 0 ≤ δ) (ha : 0 ≤ a) : CountNear δ a (.fin 0) 0 :=
  ⟨le_rfl, 0, rfl, by simpa using ha, fun _ => rfl⟩

theorem stageRel_zero : stageRel δ u 0 = δ := by simp [stageRel]
theorem stageAbs_zero {b : ℝ} : stageAbs b u 0 = 0 := by simp [stageAbs]

theorem stageRel_mono (hδ : 0 ≤ δ) (hu : 0 ≤ u) {j k : ℕ} (h : j ≤ k) : stageRel δ u j ≤ stageRel δ u k := by
  have := pow_le_pow_right₀ (by linarith : (1 : ℝ) ≤ 1 + u) h
  unfold stageRel; nlinarith

theorem stageAbs_mono {b : ℝ} (hb : 0 ≤ b) (hu : 0 ≤ u) {j k : ℕ} (h : j ≤ k) : stageAbs b u j ≤ stageAbs b u k := by
  have h1 := pow_le_pow_right₀ (by linarith : (1 : ℝ) ≤ 1 + u) h
  have h2 : (j : ℝ) * b ≤ k * b := mul_le_mul_of_nonneg_right (by exact_mod_cast h) hb
  unfold stageAbs
  exact mul_le_mul h1 h2 (by positivity) (by positivity)

theorem le_stageRel (hδ : 0 ≤ δ) (hu : 0 ≤ u) (k : ℕ) : δ ≤ stageRel δ u k :=
  (stageRel_zero (u := u)).ge.trans (stageRel_mono hδ hu (Nat.zero_le k))

theorem stageRel_succ (k : ℕ) : 1 + stageRel δ u (k + 1) = (1 + stageRel δ u k) * (1 + u) := by
  unfold stageRel; rw [pow_succ]; ring

theorem stageRel_stageRel (j k : ℕ) : stageRel (stageRel δ u j) u k = stageRel δ u (j + k) := by
  unfold stageRel; rw [pow_add]; ring

/-- One more term. -/
theorem Spec.CountNear.add (ha : Accurate ρ u η Ω) (hz : ρ.rnd 0 = .fin 0) (hδ : 0 ≤ δ) (ha0 : 0 ≤ a) {k : ℕ}
    {x x' : RX ρ} {y y' : ℝ} (h : CountNear (stageRel δ u k) (stageAbs (a + η) u k) x y) (h' : CountNear δ a x' y')
    (hΩ : (1 + stageRel δ u (k + 1)) * (y + y') + stageAbs (a + η) u (k + 1) ≤ Ω) :
    CountNear (stageRel δ u (k + 1)) (stageAbs (a + η) u (k + 1)) (x + x' : RX ρ) (y + y') := by
  have hu := ha.u_nonneg
  have hη := ha.η_nonneg
  obtain ⟨hy, r, rfl, hr, hr0⟩ := h
  obtain ⟨hy', r', rfl, hr', hr0'⟩ := h'
  have hδk := le_stageRel hδ hu k
  have hD := stageRel_succ (δ := δ) (u := u) k
  set D := stageRel δ u k with hDd
  set D' := stageRel δ u (k + 1) with hDd'
  have hpow : (1 : ℝ) ≤ (1 + u) ^ k := one_le_pow₀ (by linarith)
  have hS : stageAbs (a + η) u (k + 1) = (1 + u) * (stageAbs (a + η) u k + (1 + u) ^ k * (a + η)) := by
    unfold stageAbs; push_cast; rw [pow_succ]; ring
  set S := stageAbs (a + η) u k with hSd
  set S' := stageAbs (a + η) u (k + 1) with hSd'
  have hS0 : 0 ≤ S := by rw [hSd]; unfold stageAbs; positivity
  have h1 : |r + r' - (y + y')| ≤ D * (y + y') + (S + a) := by
    have e : r + r' - (y + y') = (r - y) + (r' - y') := by ring
    rw [e]
    refine (abs_add_le _ _).trans ?_
    nlinarith
  have hP : a + η ≤ (1 + u) ^ k * (a + η) := le_mul_of_one_le_left (by linarith) hpow
  have hab : |r + r'| ≤ (1 + D) * (y + y') + (S + a) := by
    have e : r + r' = (r + r' - (y + y')) + (y + y') := by ring
    rw [e]
    refine (abs_add_le _ _).trans ?_
    rw [abs_of_nonneg (add_nonneg hy hy')]
    linarith
  have hD0 : 0 ≤ D := hδ.trans hδk
  have hSS : S + a + η ≤ S' := by rw [hS]; nlinarith
  have hab' : |r + r'| ≤ Ω := by
    refine hab.trans (le_trans ?_ hΩ)
    have : (1 + D) * (y + y') ≤ (1 + D') * (y + y') := by rw [hD]; nlinarith [mul_nonneg (add_nonneg hy hy') hu, mul_nonneg hD0 (mul_nonneg (add_nonneg hy hy') hu)]
    linarith
  obtain ⟨w, hw, hwe⟩ := ha.rnd (r + r') hab'
  refine ⟨add_nonneg hy hy', w, ?_, ?_, fun h0 => ?_⟩
  · show ρ.ap (XF.add (XF.fin r) (XF.fin r')) = _
    simpa [XF.add, Rounding.ap] using hw
  · have e : w - (y + y') = (w - (r + r')) + (r + r' - (y + y')) := by ring
    rw [e]
    refine (abs_add_le _ _).trans ?_
    have h2 : u * |r + r'| ≤ u * ((1 + D) * (y + y') + (S + a)) := mul_le_mul_of_nonneg_left hab hu
    have e1 : D' = (1 + D) * (1 + u) - 1 := by linarith
    rw [e1, hS]
    nlinarith
  · have h1 : y = 0 := by linarith
    have h2 : y' = 0 := by linarith
    rw [hr0 h1, hr0' h2, add_zero, hz] at hw
    exact (XF.fin_injective hw).symm

/-- A sum over a list. -/
theorem Spec.CountNear.foldl (ha : Accurate ρ u η Ω) (hz : ρ.rnd 0 = .fin 0) (hδ : 0 ≤ δ) (ha0 : 0 ≤ a)
    {ι : Type} (f : ι → RX ρ) (g : ι → ℝ) (l : List ι) : ∀ (k : ℕ) (x : RX ρ) (y : ℝ),
    (∀ i ∈ l, CountNear δ a (f i) (g i)) →
    CountNear (stageRel δ u k) (stageAbs (a + η) u k) x y →
    (1 + stageRel δ u (k + l.length)) * (y + (l.map g).sum) + stageAbs (a + η) u (k + l.length) ≤ Ω →
    CountNear (stageRel δ u (k + l.length)) (stageAbs (a + η) u (k + l.length))
      (l.foldl (fun (acc : RX ρ) i => acc + f i) x) (y + (l.map g).sum) := by
  have hu := ha.u_nonneg
  have hη := ha.η_nonneg
  induction l with
  | nil => intro k x y _ h _; simpa using h
  | cons i l ih =>
    intro k x y hl hx hΩ
    have hi := hl i List.mem_cons_self
    have hl' : ∀ j ∈ l, CountNear δ a (f j) (g j) := fun j hj => hl j (List.mem_cons_of_mem _ hj)
    have hs : 0 ≤ (l.map g).sum := List.sum_nonneg (by
      intro x hx; obtain ⟨j, hj, rfl⟩ := List.mem_map.1 hx; exact (hl' j hj).1)
    simp only [List.map_cons, List.sum_cons, List.length_cons] at hΩ ⊢
    have e : k + (l.length + 1) = k + 1 + l.length := by omega
    rw [e, ← add_assoc y] at hΩ ⊢
    refine ih (k + 1) _ _ hl' (CountNear.add ha hz hδ ha0 hx hi (le_trans ?_ hΩ)) hΩ
    have h1 := stageRel_mono hδ hu (show k + 1 ≤ k + 1 + l.length by omega)
    have h2 := stageAbs_mono (add_nonneg ha0 hη) hu (show k + 1 ≤ k + 1 + l.length by omega)
    have h3 : 0 ≤ stageRel δ u (k + 1) := hδ.trans (le_stageRel hδ hu _)
    have h4 := hx.1
    have h5 := hi.1
    refine add_le_add (mul_le_mul (by linarith) (by linarith) (by linarith) (by linarith)) h2

theorem Spec.CountNear.sumF (ha : Accurate ρ u η Ω) (hz : ρ.rnd 0 = .fin 0) (hδ : 0 ≤ δ) (ha0 : 0 ≤ a) {c : ℕ}
    {w : Fin c → RX ρ} {W : Fin c → ℝ} (h : ∀ i, CountNear δ a (w i) (W i))
    (hΩ : (1 + stageRel δ u c) * ∑ i, W i + stageAbs (a + η) u c ≤ Ω) :
    CountNear (stageRel δ u c) (stageAbs (a + η) u c) (Verif.sumF (α := RX ρ) w) (∑ i, W i) := by
  have := CountNear.foldl ha hz hδ ha0 w W (List.finRange c) 0 (XF.fin 0) 0 (fun i _ => h i)
    (CountNear.zero (by rw [stageRel_zero]; exact hδ) stageAbs_zero.ge)
  rw [List.length_finRange, zero_add, zero_add, ← List.ofFn_eq_map, List.sum_ofFn] at this
  exact this hΩ

/-- Dividing by the total. -/
theorem CountNear.share (ha : Accurate ρ u η Ω) (hz : ρ.rnd 0 = .fin 0) (hΩ : 3 ≤ Ω) (hu1 : u ≤ 1) {δ' a' : ℝ}
    {x s : RX ρ} {w W : ℝ} (hδ : 0 ≤ δ') (ha0 : 0 ≤ a')
    (hx : CountNear δ' a' x w) (hs : CountNear δ' a' s W) (hwW : w ≤ W) (hW : 0 < W)
    (hsup : 2 * (δ' * W + a') ≤ W) :
    ∃ r, (x / s : RX ρ) = XF.fin r ∧ |r - w / W| ≤ (4 * δ' + 3 * u) * (w / W) + 8 * (a' / W) + η ∧
      (w = 0 → r = 0) := by
  have hu := ha.u_nonneg
  have hη := ha.η_nonneg
  obtain ⟨hw0, x, rfl, hxe, hx0⟩ := hx
  obtain ⟨-, s, rfl, hse, -⟩ := hs
  obtain ⟨s1, s2⟩ := abs_le.1 hse
  have hs2 : W ≤ 2 * s := by linarith
  have hspos : 0 < s := by linarith
  set p := w / W with hp
  have hp0 : 0 ≤ p := div_nonneg hw0 hW.le
  have hp1 : p ≤ 1 := (div_le_one hW).2 hwW
  have hwp : w = p * W := by rw [hp]; field_simp
  set α := a' / W with hα
  have hα0 : 0 ≤ α := div_nonneg ha0 hW.le
  have haα : a' = α * W := by rw [hα]; field_simp
  have hsup' : 2 * (δ' + α) ≤ 1 := by
    have : 2 * (δ' + α) * W ≤ 1 * W := by rw [haα] at hsup; linarith
    exact le_of_mul_le_mul_right this hW
  have hq : |x / s - p| ≤ 4 * δ' * p + 4 * α := by
    have e : x / s - p = ((x - w) - p * (s - W)) / s := by rw [hwp]; field_simp; ring
    rw [e, abs_div, abs_of_pos hspos, div_le_iff₀ hspos]
    have h1 : |x - w - p * (s - W)| ≤ (δ' * w + a') + p * (δ' * W + a') := by
      refine (abs_sub _ _).trans (add_le_add hxe ?_)
      rw [abs_mul, abs_of_nonneg hp0]
      exact mul_le_mul_of_nonneg_left hse hp0
    refine h1.trans ?_
    rw [hwp, haα]
    have h2 : (2 * δ' * p + 2 * α) * W ≤ (2 * δ' * p + 2 * α) * (2 * s) :=
      mul_le_mul_of_nonneg_left hs2 (by positivity)
    have h3 : p * α * W ≤ 1 * α * W := by
      refine mul_le_mul_of_nonneg_right (mul_le_mul_of_nonneg_right hp1 hα0) hW.le
    nlinarith
  have hqa : |x / s| ≤ p + 4 * δ' * p + 4 * α := by
    have e : x / s = (x / s - p) + p := by ring
    rw [e]
    refine (abs_add_le _ _).trans ?_
    rw [abs_of_nonneg hp0]; linarith
  have hδp : δ' * p ≤ δ' := mul_le_of_le_one_right hδ hp1
  obtain ⟨r, hr, hre⟩ := ha.rnd (x / s) (hqa.trans (by linarith))
  refine ⟨r, ?_, ?_, fun h0 => ?_⟩
  · show ρ.ap (XF.div (XF.fin x) (XF.fin s)) = _
    have : XF.div (XF.fin x) (XF.fin s) = XF.fin (x / s) := XF.fin_div x s hspos.ne'
    rw [this]; exact hr
  · have e : r - p = (r - x / s) + (x / s - p) := by ring
    rw [e]
    refine (abs_add_le _ _).trans ?_
    have h2 : u * |x / s| ≤ u * (p + 4 * δ' * p + 4 * α) := mul_le_mul_of_nonneg_left hqa hu
    have h3 : u * (4 * δ' * p) ≤ u * (2 * p) := by
      refine mul_le_mul_of_nonneg_left ?_ hu
      nlinarith
    have h4 : u * (4 * α) ≤ 1 * (4 * α) := mul_le_mul_of_nonneg_right hu1 (by linarith)
    linarith
  · rw [hx0 h0, zero_div, hz] at hr
    exact (XF.fin_injective hr).symm

theorem stage_rowAbs (hu : 0 ≤ u) (hη : 0 ≤ η) (M c : ℕ) :
    stageAbs (stageAbs (η + η) u (M + 1) + η) u c ≤ rowAbs u η M c := by
  have h1 : (1 : ℝ) ≤ (1 + u) ^ (M + 1) := one_le_pow₀ (by linarith)
  have h2 : (0 : ℝ) ≤ (1 + u) ^ c := by positivity
  unfold stageAbs rowAbs
  have : (1 + u) ^ (M + 1) * ((M + 1 : ℕ) * (η + η)) + η ≤ (1 + u) ^ (M + 1) * ((2 * M + 3) * η) := by
    push_cast
    nlinarith
  calc (1 + u) ^ c * (c * ((1 + u) ^ (M + 1) * ((M + 1 : ℕ) * (η + η)) + η))
      ≤ (1 + u) ^ c * (c * ((1 + u) ^ (M + 1) * ((2 * M + 3) * η))) := by gcongr
    _ = _ := by rw [pow_add _ (M + 1) c]; ring

theorem stage_le_rowAbs (hu : 0 ≤ u) (hη : 0 ≤ η) (M : ℕ) {c : ℕ} (hc : 1 ≤ c) :
    stageAbs (η + η) u (M + 1) ≤ rowAbs u η M c := by
  refine le_trans ?_ (stage_rowAbs hu hη M c)
  have h1 : (1 : ℝ) ≤ (1 + u) ^ c := one_le_pow₀ (by linarith)
  have hc' : (1 : ℝ) ≤ c := by exact_mod_cast hc
  have h0 : 0 ≤ stageAbs (η + η) u (M + 1) := by unfold stageAbs; positivity
  conv_rhs => unfold stageAbs
  have h2 : stageAbs (η + η) u (M + 1) + η ≤ c * (stageAbs (η + η) u (M + 1) + η) :=
    le_mul_of_one_le_left (by linarith) hc'
  have h3 : (c : ℝ) * (stageAbs (η + η) u (M + 1) + η) ≤ (1 + u) ^ c * (c * (stageAbs (η + η) u (M + 1) + η)) :=
    le_mul_of_one_le_left (by positivity) h1
  unfold stageAbs at *
  linarith

section Budget
variable {V ℓ eb Q : ℝ} {nc N M c : ℕ} [NeZero nc]

theorem Spec.LogEMBudget.seq_nonneg (h : LogEMBudget ρ u η Ω V nc N ℓ eb M c Q) :
    0 ≤ seqRel (stepError u η V nc eb) N := by
  have := h.budget.step_nonneg
  unfold seqRel; positivity

/-- A sum of counts of at most `M` samples, and a prior one, is in range. -/
theorem Spec.LogEMBudget.range_le (h : LogEMBudget ρ u η Ω V nc N ℓ eb M c Q) {k : ℕ} (hk : k ≤ M + 1) {y : ℝ}
    (hy0 : 0 ≤ y) (hy : y ≤ M + Q) :
    (1 + stageRel (seqRel (stepError u η V nc eb) N) u k) * y + stageAbs (η + η) u k ≤ Ω := by
  have hu := h.budget.range.acc.u_nonneg
  have hη := h.budget.range.acc.η_nonneg
  have hs := h.seq_nonneg
  have hc : (1 : ℝ) ≤ c := by exact_mod_cast h.c_pos
  refine le_trans (add_le_add ?_ ?_) h.range
  · have h1 := stageRel_mono hs hu (show k ≤ M + 1 + c by omega)
    have h2 := hs.trans (le_stageRel hs hu k)
    have h3 := h.Q_nonneg
    have h4 : y ≤ c * (M + Q) := by nlinarith [Nat.cast_nonneg (α := ℝ) M]
    exact mul_le_mul (by unfold rowRel; linarith) h4 hy0 (by unfold rowRel; linarith)
  · exact (stageAbs_mono (by linarith) hu hk).trans (stage_le_rowAbs hu hη M h.c_pos)

end Budget

end Verif
