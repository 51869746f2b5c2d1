import Verif.Spec.RoundoffLog
import Verif.Proofs.Viterbi
import Verif.Proofs.EM

/-!
# Errors of sums of logarithms
-/

set_option autoImplicit false

namespace Verif
open FloatLike Hmmc Spec

variable {ρ : Rounding} {u η Ω : ℝ}

theorem Spec.Accurate.one_le_pow (h : Accurate ρ u η Ω) (k : ℕ) : 1 ≤ (1 + u) ^ k :=
  one_le_pow₀ (by linarith [h.u_nonneg])

theorem sumError_mono (h : Accurate ρ u η Ω) {k k' c c' : ℕ} {W W' : ℝ} (hk : k ≤ k') (hc : c ≤ c')
    (h0 : 0 ≤ W) (hW : W ≤ W') : sumError u η k c W ≤ sumError u η k' c' W' := by
  have h1 := h.one_le_pow k
  have h2 : (1 + u) ^ k ≤ (1 + u) ^ k' := pow_le_pow_right₀ (by linarith [h.u_nonneg]) hk
  have hc' : (c : ℝ) * η ≤ c' * η := mul_le_mul_of_nonneg_right (by exact_mod_cast hc) h.η_nonneg
  have h3 : 0 ≤ (c : ℝ) * η := mul_nonneg (Nat.cast_nonneg _) h.η_nonneg
  unfold sumError
  exact add_le_add (mul_le_mul (by linarith) hW h0 (by linarith)) (mul_le_mul h2 hc' h3 (by linarith))

theorem sumError_nonneg (h : Accurate ρ u η Ω) (k c : ℕ) {W : ℝ} (h0 : 0 ≤ W) : 0 ≤ sumError u η k c W :=
  add_nonneg (mul_nonneg (by linarith [h.one_le_pow k]) h0)
    (mul_nonneg (by linarith [h.one_le_pow k]) (mul_nonneg (Nat.cast_nonneg _) h.η_nonneg))

/-- `x` is a sum of numbers of total magnitude `W`, known to be `r` in exact arithmetic. -/
def Off (u η : ℝ) (k c : ℕ) (W : ℝ) (x : XF) (r : ℝ) : Prop :=
  |r| ≤ W ∧ ∃ y, x = .fin y ∧ |y - r| ≤ sumError u η k c W

theorem Off.mono (h : Accurate ρ u η Ω) {k k' c c' : ℕ} {W W' : ℝ} {x : XF} {r : ℝ}
    (ho : Off u η k c W x r) (hk : k ≤ k') (hc : c ≤ c') (hW : W ≤ W') : Off u η k' c' W' x r := by
  obtain ⟨h1, y, rfl, h2⟩ := ho
  exact ⟨h1.trans hW, y, rfl, h2.trans (sumError_mono h hk hc ((abs_nonneg r).trans h1) hW)⟩

theorem Off.add (h : Accurate ρ u η Ω) {k c c' : ℕ} {W W' : ℝ} {x x' : RX ρ} {r r' : ℝ}
    (ho : Off u η k c W x r) (ho' : Off u η k c' W' x' r')
    (hΩ : (1 + u) ^ (k + 1) * (W + W' + ((c + c' + 1 : ℕ) : ℝ) * η) ≤ Ω) :
    Off u η (k + 1) (c + c' + 1) (W + W') (x + x') (r + r') := by
  obtain ⟨h1, y, rfl, h2⟩ := ho
  obtain ⟨h1', y', rfl, h2'⟩ := ho'
  have hu := h.u_nonneg
  have hη := h.η_nonneg
  have hp := h.one_le_pow k
  have hr : |r + r'| ≤ W + W' := (abs_add_le _ _).trans (add_le_add h1 h1')
  have hW : 0 ≤ W + W' := (abs_nonneg _).trans hr
  set e := ((1 + u) ^ k - 1) * (W + W') + (1 + u) ^ k * (((c : ℝ) + c') * η) with he
  have hd : |y + y' - (r + r')| ≤ e := by
    have : y + y' - (r + r') = (y - r) + (y' - r') := by ring
    rw [this]
    refine (abs_add_le _ _).trans ((add_le_add h2 h2').trans (le_of_eq ?_))
    rw [he]; unfold sumError; ring
  have hsum : |y + y'| ≤ W + W' + e := by
    have : y + y' = (y + y' - (r + r')) + (r + r') := by ring
    rw [this]; exact (abs_add_le _ _).trans (by linarith)
  have hcη : 0 ≤ ((c : ℝ) + c') * η := mul_nonneg (by positivity) hη
  have hbig : |y + y'| ≤ Ω := by
    refine hsum.trans (le_trans ?_ hΩ)
    have e1 : W + W' + e = (1 + u) ^ k * (W + W' + ((c : ℝ) + c') * η) := by rw [he]; ring
    rw [e1, pow_succ]
    push_cast
    refine mul_le_mul (le_mul_of_one_le_right (by linarith) (by linarith)) ?_ (by positivity) (by positivity)
    nlinarith
  obtain ⟨w, hw, hwe⟩ := h.rnd (y + y') hbig
  refine ⟨hr, w, ?_, ?_⟩
  · show ρ.ap (XF.add (XF.fin y) (XF.fin y')) = _
    simpa [XF.add, Rounding.ap] using hw
  · have : w - (r + r') = (w - (y + y')) + (y + y' - (r + r')) := by ring
    rw [this]
    refine (abs_add_le _ _).trans ?_
    have h5 : u * |y + y'| ≤ u * (W + W' + e) := mul_le_mul_of_nonneg_left hsum hu
    have h6 : |w - (y + y')| + |y + y' - (r + r')| ≤ (1 + u) * e + u * (W + W') + η := by nlinarith
    refine h6.trans ?_
    have h7 : sumError u η (k + 1) (c + c' + 1) (W + W') =
        (1 + u) * e + u * (W + W') + (1 + u) ^ (k + 1) * η := by
      rw [he]; unfold sumError; push_cast; rw [pow_succ]; ring
    rw [h7]
    have := h.one_le_pow (k + 1)
    nlinarith

/-- The logarithm of a stored number. -/
theorem Off.log (h : Accurate ρ u η Ω) {p : ℝ} (hp : 0 < p) (hΩ : |Real.log p| ≤ Ω) :
    Off u η 1 1 |Real.log p| (FloatLike.log (α := RX ρ) (XF.fin p)) (Real.log p) := by
  obtain ⟨x, hx, he⟩ := h.rnd _ hΩ
  refine ⟨le_rfl, x, ?_, he.trans ?_⟩
  · show ρ.ap (XF.log (XF.fin p)) = _
    simp only [XF.log, hp.ne', if_false, hp, if_true, Rounding.ap]
    exact hx
  · unfold sumError
    have := h.u_nonneg
    have := h.η_nonneg
    push_cast
    nlinarith

/-- Neither NaN nor `+inf`. -/
def LogVal (x : RX ρ) : Prop := x = XF.ninf ∨ ∃ r, x = XF.fin r

theorem LogVal.add {x y : RX ρ} (hx : LogVal x) (hy : LogVal y) : LogVal (x + y) := by
  show LogVal (ρ.ap (XF.add x y))
  rcases hx with rfl | ⟨a, rfl⟩ <;> rcases hy with rfl | ⟨b, rfl⟩
  · exact Or.inl rfl
  · exact Or.inl rfl
  · exact Or.inl rfl
  · exact ρ.valid _

theorem add_ninf_left {x y : RX ρ} (hx : x = XF.ninf) (hy : LogVal y) : x + y = (XF.ninf : RX ρ) := by
  subst hx
  show ρ.ap (XF.add XF.ninf y) = _
  rcases hy with rfl | ⟨r, rfl⟩ <;> simp [XF.add, Rounding.ap]

theorem add_ninf_right {x y : RX ρ} (hx : LogVal x) (hy : y = XF.ninf) : x + y = (XF.ninf : RX ρ) := by
  subst hy
  show ρ.ap (XF.add x XF.ninf) = _
  rcases hx with rfl | ⟨r, rfl⟩ <;> simp [XF.add, Rounding.ap]

/-! ## Scores of paths -/

variable {nc n : ℕ}

theorem pathScore_succ {α : Type} [Add α] (lπ : Fin nc → α) (lA : Fin nc → Fin nc → α)
    (lb : Fin (n + 2) → Fin nc → α) (z : Fin (n + 2) → Fin nc) :
    pathScore lπ lA lb z = pathScore lπ lA (fun t => lb t.castSucc) (fun t => z t.castSucc) +
      lA (z (Fin.last n).castSucc) (z (Fin.last (n + 1))) + lb (Fin.last (n + 1)) (z (Fin.last (n + 1))) := by
  unfold pathScore
  rw [Fin.foldl_succ_last]
  rfl

theorem logMass_succ (π : Fin nc → ℝ) (A : Fin nc → Fin nc → ℝ) (B : Fin (n + 2) → Fin nc → ℝ)
    (z : Fin (n + 2) → Fin nc) :
    logMass π A B z = logMass π A (fun t => B t.castSucc) (fun t => z t.castSucc) +
      |Real.log (A (z (Fin.last n).castSucc) (z (Fin.last (n + 1))))| +
      |Real.log (B (Fin.last (n + 1)) (z (Fin.last (n + 1))))| := by
  unfold logMass
  rw [Fin.sum_univ_castSucc (n := n + 1),
    Fin.sum_univ_castSucc fun t : Fin (n + 1) => |Real.log (A (z t.castSucc) (z t.succ))|]
  simp only [Fin.succ_last, Fin.castSucc_zero, Fin.succ_castSucc]
  ring

theorem joint_last (π : Fin nc → ℝ) (A : Fin nc → Fin nc → ℝ) (B : Fin (n + 2) → Fin nc → ℝ)
    (z : Fin (n + 2) → Fin nc) :
    joint π A B z = joint π A (fun t => B t.castSucc) (fun t => z t.castSucc) *
      A (z (Fin.last n).castSucc) (z (Fin.last (n + 1))) * B (Fin.last (n + 1)) (z (Fin.last (n + 1))) := by
  unfold joint
  rw [Fin.prod_univ_castSucc (n := n + 1),
    Fin.prod_univ_castSucc fun t : Fin (n + 1) => A (z t.castSucc) (z t.succ)]
  simp only [Fin.succ_last, Fin.castSucc_zero, Fin.succ_castSucc]
  ring

theorem logMass_nonneg (π : Fin nc → ℝ) (A : Fin nc → Fin nc → ℝ) (B : Fin (n + 1) → Fin nc → ℝ)
    (z : Fin (n + 1) → Fin nc) : 0 ≤ logMass π A B z := by
  unfold logMass; positivity

theorem Spec.LogNear.off {k c : ℕ} {x : XF} {b : ℝ} (h : LogNear u η k c x b) (hb : 0 < b) :
    Off u η k c |Real.log b| x (Real.log b) := by
  rcases h with ⟨h, -⟩ | ⟨-, r, h1, h2⟩
  · exact absurd h hb.ne'
  · exact ⟨le_rfl, r, h1, h2⟩

theorem Spec.LogNear.val {k c : ℕ} {x : RX ρ} {b : ℝ} (h : LogNear u η k c x b) : LogVal x := by
  rcases h with ⟨-, h⟩ | ⟨-, r, h1, -⟩
  · exact Or.inl h
  · exact Or.inr ⟨r, h1⟩

variable {π : Fin nc → ℝ} {A : Fin nc → Fin nc → ℝ} {B : Fin (n + 1) → Fin nc → ℝ} {kb cb : ℕ}
  {lb : Fin (n + 1) → Row (RX ρ) nc}

/-- The logarithms of stored parameters. -/
noncomputable def logP (ρ : Rounding) (π : Fin nc → ℝ) : Row (RX ρ) nc :=
  fun i => FloatLike.log (α := RX ρ) (XF.fin (π i))

/-- The logarithms of stored parameters. -/
noncomputable def logT (ρ : Rounding) (A : Fin nc → Fin nc → ℝ) : Mat (RX ρ) nc :=
  fun i j => FloatLike.log (α := RX ρ) (XF.fin (A i j))

theorem log_val {p : ℝ} (hp : 0 ≤ p) : LogVal (FloatLike.log (α := RX ρ) (XF.fin p)) := by
  show LogVal (ρ.ap (XF.log (XF.fin p)))
  rcases hp.eq_or_lt with rfl | hp
  · left; simp [XF.log, Rounding.ap]
  · simp only [XF.log, hp.ne', if_false, hp, if_true, Rounding.ap]
    exact ρ.valid _

theorem log_zero' : FloatLike.log (α := RX ρ) (XF.fin 0) = XF.ninf := by
  show ρ.ap (XF.log (XF.fin 0)) = _
  simp [XF.log, Rounding.ap]

theorem pathScore_val (hπ : ∀ i, 0 ≤ π i) (hA : ∀ i j, 0 ≤ A i j) (hb : ∀ t i, LogVal (lb t i))
    (z : Fin (n + 1) → Fin nc) : LogVal (pathScore (α := RX ρ) (logP ρ π) (logT ρ A) lb z) :=
  haveI : NeZero nc := ⟨by have := (z 0).pos; omega⟩
  pathScore_V (rxMono ρ) (fun i => log_val (hπ i)) (fun i j => log_val (hA i j)) hb z

/-- Impossible paths have score `-inf`. -/
theorem pathScore_ninf (hπ : ∀ i, 0 ≤ π i) (hA : ∀ i j, 0 ≤ A i j)
    (hb : ∀ t i, LogNear u η kb cb (lb t i) (B t i)) (z : Fin (n + 1) → Fin nc) (h0 : joint π A B z = 0) :
    pathScore (α := RX ρ) (logP ρ π) (logT ρ A) lb z = (XF.ninf : RX ρ) := by
  have zero : ∀ {x : RX ρ} {b : ℝ}, LogNear u η kb cb x b → b = 0 → x = XF.ninf := by
    rintro x b (⟨-, h⟩ | ⟨h, -⟩) h0
    · exact h
    · exact absurd h0 h.ne'
  induction n with
  | zero =>
    simp only [joint, Finset.univ_eq_empty, Finset.prod_empty, mul_one, zero_add, Finset.univ_unique,
      Finset.prod_singleton, Fin.default_eq_zero, mul_eq_zero] at h0
    show logP ρ π (z 0) + lb 0 (z 0) = _
    rcases h0 with h0 | h0
    · refine add_ninf_left ?_ (hb _ _).val
      unfold logP; rw [h0]; exact log_zero'
    · exact add_ninf_right (log_val (hπ _)) (zero (hb 0 (z 0)) (by simpa using h0))
  | succ n ih =>
    rw [pathScore_succ]
    rw [joint_last, mul_eq_zero, mul_eq_zero] at h0
    have hv : LogVal (pathScore (α := RX ρ) (logP ρ π) (logT ρ A) (fun t => lb t.castSucc) fun t => z t.castSucc) :=
      pathScore_val hπ hA (fun t i => (hb _ _).val) _
    have hAv : LogVal (logT ρ A (z (Fin.last n).castSucc) (z (Fin.last (n + 1)))) := log_val (hA _ _)
    rcases h0 with (h0 | h0) | h0
    · refine add_ninf_left (add_ninf_left ?_ hAv) (hb _ _).val
      exact ih (lb := fun t => lb t.castSucc) (B := fun t => B t.castSucc) (fun t i => hb _ _) _ h0
    · refine add_ninf_left (add_ninf_right hv ?_) (hb _ _).val
      unfold logT; rw [h0]; exact log_zero'
    · exact add_ninf_right (hv.add hAv) (zero (hb _ _) h0)

/-- Possible paths have the logarithm of their weight as score, up to `pathError`. -/
theorem pathScore_off (h : Accurate ρ u η Ω) (hπ : ∀ i, 0 ≤ π i) (hA : ∀ i j, 0 ≤ A i j)
    (hB : ∀ t i, 0 ≤ B t i) (hb : ∀ t i, LogNear u η kb cb (lb t i) (B t i)) (z : Fin (n + 1) → Fin nc)
    (h0 : 0 < joint π A B z)
    (hΩ : (1 + u) ^ scoreRoundings n kb * (logMass π A B z + scoreTerms n cb * η) ≤ Ω) :
    Off u η (scoreRoundings n kb) (scoreTerms n cb) (logMass π A B z)
      (pathScore (α := RX ρ) (logP ρ π) (logT ρ A) lb z) (Real.log (joint π A B z)) := by
  have hu := h.u_nonneg
  have hη := h.η_nonneg
  have bound : ∀ {W W' : ℝ} {k c k' c' : ℕ}, k' ≤ k → c' ≤ c → 0 ≤ W' → W' ≤ W →
      (1 + u) ^ k * (W + c * η) ≤ Ω → (1 + u) ^ k' * (W' + c' * η) ≤ Ω := by
    intro W W' k c k' c' hk hc h0 hW hle
    refine le_trans ?_ hle
    have h2 : (1 + u) ^ k' ≤ (1 + u) ^ k := pow_le_pow_right₀ (by linarith) hk
    have h3 : (c' : ℝ) * η ≤ c * η := mul_le_mul_of_nonneg_right (by exact_mod_cast hc) hη
    exact mul_le_mul h2 (by linarith) (by positivity) (by positivity)
  have single : ∀ {W : ℝ} {k c : ℕ} {p : ℝ}, |Real.log p| ≤ W → (1 + u) ^ k * (W + c * η) ≤ Ω →
      |Real.log p| ≤ Ω := by
    intro W k c p hp hle
    have := bound (k' := 0) (c' := 0) (Nat.zero_le _) (Nat.zero_le _) (abs_nonneg _) hp hle
    simpa using this
  induction n with
  | zero =>
    obtain ⟨p1, -, p2⟩ := (joint_pos_iff hπ hA hB z).1 h0
    have e1 : logMass π A B z = |Real.log (π (z 0))| + |Real.log (B 0 (z 0))| := by simp [logMass]
    have e2 : Real.log (joint π A B z) = Real.log (π (z 0)) + Real.log (B 0 (z 0)) := by
      rw [← Real.log_mul p1.ne' (p2 0).ne']; simp [joint]
    rw [e1] at hΩ ⊢
    rw [e2]
    have o1 := (Off.log h p1 (single (le_add_of_nonneg_right (abs_nonneg _)) hΩ)).mono (k' := kb + 1) h
      (by omega) le_rfl le_rfl
    have o2 := (LogNear.off (hb 0 (z 0)) (p2 0)).mono (k' := kb + 1) h (by omega) le_rfl le_rfl
    have := o1.add h o2 (bound (k := scoreRoundings 0 kb) (c := scoreTerms 0 cb) le_rfl
      (by unfold scoreTerms; omega) (by positivity) le_rfl hΩ)
    rw [show scoreRoundings 0 kb = kb + 1 + 1 from rfl, show scoreTerms 0 cb = 1 + cb + 1 by
      unfold scoreTerms; omega]
    exact this
  | succ n ih =>
    have h0' := h0
    rw [joint_last] at h0'
    have hjn : 0 ≤ joint π A (fun t => B t.castSucc) (fun t => z t.castSucc) :=
      joint_nonneg hπ hA (fun t i => hB _ _) _
    obtain ⟨q1, q2, q3⟩ : 0 < joint π A (fun t => B t.castSucc) (fun t => z t.castSucc) ∧
        0 < A (z (Fin.last n).castSucc) (z (Fin.last (n + 1))) ∧
        0 < B (Fin.last (n + 1)) (z (Fin.last (n + 1))) := by
      refine ⟨lt_of_le_of_ne hjn fun e => ?_, lt_of_le_of_ne (hA _ _) fun e => ?_,
        lt_of_le_of_ne (hB _ _) fun e => ?_⟩ <;> rw [← e] at h0' <;> simp at h0'
    have hlm := logMass_nonneg π A (fun t => B t.castSucc) (fun t => z t.castSucc)
    rw [pathScore_succ, logMass_succ, joint_last, Real.log_mul (mul_pos q1 q2).ne' q3.ne',
      Real.log_mul q1.ne' q2.ne']
    rw [logMass_succ] at hΩ
    have hr : scoreRoundings (n + 1) kb = scoreRoundings n kb + 1 + 1 := by unfold scoreRoundings; ring
    have ht : scoreTerms (n + 1) cb = scoreTerms n cb + 1 + 1 + cb + 1 := by unfold scoreTerms; ring
    rw [hr, ht] at hΩ ⊢
    have o0 := ih (B := fun t => B t.castSucc) (lb := fun t => lb t.castSucc) (fun t i => hB _ _)
      (fun t i => hb _ _) (fun t => z t.castSucc) q1
      (bound (by omega) (by omega) hlm (by linarith [abs_nonneg (Real.log (A (z (Fin.last n).castSucc) (z (Fin.last (n + 1))))), abs_nonneg (Real.log (B (Fin.last (n + 1)) (z (Fin.last (n + 1)))))]) hΩ)
    have o1 := (Off.log h q2 (single (by linarith [abs_nonneg (Real.log (B (Fin.last (n + 1)) (z (Fin.last (n + 1)))))]) hΩ)).mono
      (k' := scoreRoundings n kb) h (by unfold scoreRoundings; omega) le_rfl le_rfl
    have o2 := o0.add h o1 (bound (by omega) (by omega) (by positivity)
      (by linarith [abs_nonneg (Real.log (B (Fin.last (n + 1)) (z (Fin.last (n + 1)))))]) hΩ)
    have o3 := (LogNear.off (hb (Fin.last (n + 1)) (z (Fin.last (n + 1)))) q3).mono
      (k' := scoreRoundings n kb + 1) h (by unfold scoreRoundings; omega) le_rfl le_rfl
    exact o2.add h o3 hΩ

end Verif
