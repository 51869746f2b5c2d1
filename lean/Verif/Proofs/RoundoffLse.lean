import Verif.Spec.RoundoffSum
import Verif.Proofs.RoundoffLog
import Verif.Proofs.Kernel
import Mathlib.Analysis.SpecialFunctions.Exponential

/-!
# Errors of `logsumexp`
-/

set_option autoImplicit false

namespace Verif
open FloatLike Hmmc Spec

variable {ρ : Rounding} {u η Ω V : ℝ} {nc : ℕ}

theorem Spec.LogWithin.mono {e e' : ℝ} {x : XF} {p : ℝ} (h : LogWithin e x p) (he : e ≤ e') :
    LogWithin e' x p := by
  rcases h with ⟨h1, h2⟩ | ⟨h1, r, h2, h3⟩
  · exact Or.inl ⟨h1, h2⟩
  · exact Or.inr ⟨h1, r, h2, h3.trans he⟩

theorem Spec.LogWithin.nonneg {e : ℝ} {x : XF} {p : ℝ} (h : LogWithin e x p) : 0 ≤ p := by
  rcases h with ⟨h1, _⟩ | ⟨h1, _⟩
  · exact h1.ge
  · exact h1.le

theorem Spec.LogWithin.logVal {e : ℝ} {x : RX ρ} {p : ℝ} (h : LogWithin e x p) : LogVal x := by
  rcases h with ⟨_, h2⟩ | ⟨_, r, h2, _⟩
  · exact Or.inl h2
  · exact Or.inr ⟨r, h2⟩

theorem Spec.LogBound.mono {W W' p : ℝ} (h : LogBound W p) (hW : W ≤ W') : LogBound W' p :=
  h.imp_right fun h => ⟨h.1, h.2.trans hW⟩

theorem Spec.LogBound.nonneg {W p : ℝ} (h : LogBound W p) : 0 ≤ p := by
  rcases h with h | h
  · exact h.ge
  · exact h.1.le

theorem Spec.LogBound.mul {W W' p q : ℝ} (h : LogBound W p) (h' : LogBound W' q) :
    LogBound (W + W') (p * q) := by
  rcases h with rfl | h
  · exact Or.inl (zero_mul _)
  rcases h' with rfl | h'
  · exact Or.inl (mul_zero _)
  refine Or.inr ⟨mul_pos h.1 h'.1, ?_⟩
  rw [Real.log_mul h.1.ne' h'.1.ne']
  exact (abs_add_le _ _).trans (add_le_add h.2 h'.2)

theorem Spec.LogBound.sum [NeZero nc] {W : ℝ} {p : Fin nc → ℝ} (h : ∀ i, LogBound W (p i)) :
    LogBound (W + Real.log nc) (∑ i, p i) := by
  have hnc : (1 : ℝ) ≤ nc := by exact_mod_cast NeZero.one_le
  have hlog := Real.log_nonneg hnc
  have h0 : ∀ i, 0 ≤ p i := fun i => (h i).nonneg
  by_cases hz : ∀ i, p i = 0
  · exact Or.inl (by simp [hz])
  · push Not at hz
    obtain ⟨k, hk⟩ := hz
    have hk' := (h k).resolve_left hk
    have hs : p k ≤ ∑ i, p i := Finset.single_le_sum (fun i _ => h0 i) (Finset.mem_univ k)
    have hpos : 0 < ∑ i, p i := lt_of_lt_of_le hk'.1 hs
    refine Or.inr ⟨hpos, abs_le.2 ⟨?_, ?_⟩⟩
    · have := Real.log_le_log hk'.1 hs
      have := (abs_le.1 hk'.2).1
      linarith
    · have hle : ∀ i, p i ≤ Real.exp W := by
        intro i
        rcases h i with hi | hi
        · rw [hi]; exact (Real.exp_pos _).le
        · rw [← Real.log_le_iff_le_exp hi.1]; exact (abs_le.1 hi.2).2
      have : ∑ i, p i ≤ nc * Real.exp W := by
        calc ∑ i, p i ≤ ∑ _i : Fin nc, Real.exp W := Finset.sum_le_sum fun i _ => hle i
          _ = nc * Real.exp W := by simp
      have h2 := Real.log_le_log hpos this
      rw [Real.log_mul (by positivity) (Real.exp_pos _).ne', Real.log_exp] at h2
      linarith

section Range
variable (h : LogRange ρ u η Ω V nc)
include h

theorem Spec.LogRange.unit_nonneg : 0 ≤ unitError u η V := by
  have := h.acc.u_nonneg
  have := h.acc.η_nonneg
  have := h.V_nonneg
  unfold unitError; positivity

theorem Spec.LogRange.sumExp_nonneg : 0 ≤ sumExpError u η V nc := by
  have := h.acc.u_nonneg
  have := h.acc.η_nonneg
  have := h.unit_nonneg
  unfold sumExpError; positivity

theorem Spec.LogRange.unit_le : 4 * unitError u η V ≤ 1 := by
  have hu := h.acc.u_nonneg
  have hη := h.acc.η_nonneg
  have h2 : 0 ≤ 2 * (nc : ℝ) * (u + η) := by positivity
  have := h.small
  unfold sumExpError at this
  linarith

/-- One rounding within the range. -/
theorem Spec.LogRange.round {r : ℝ} (hr : |r| ≤ 4 * V + 4) :
    ∃ x, ρ.rnd r = .fin x ∧ |x - r| ≤ unitError u η V := by
  obtain ⟨x, hx, he⟩ := h.acc.rnd r (hr.trans h.range)
  exact ⟨x, hx, he.trans (by unfold unitError; nlinarith [h.acc.u_nonneg])⟩

/-- The logarithm of a stored number. -/
theorem Spec.LogRange.log {p : ℝ} (hp : LogBound V p) :
    LogWithin (unitError u η V) (FloatLike.log (α := RX ρ) (XF.fin p)) p := by
  have hV := h.V_nonneg
  rcases hp with rfl | ⟨hp, hb⟩
  · exact Or.inl ⟨rfl, by show ρ.ap (XF.log (XF.fin 0)) = _; simp [XF.log, Rounding.ap]⟩
  · obtain ⟨x, hx, he⟩ := h.round (r := Real.log p) (by linarith)
    refine Or.inr ⟨hp, x, ?_, he⟩
    show ρ.ap (XF.log (XF.fin p)) = _
    simp only [XF.log, hp.ne', if_false, hp, if_true, Rounding.ap]
    exact hx

/-- A sum of two logarithms. -/
theorem Spec.LogRange.add {e e' p q : ℝ} {x y : RX ρ} (hx : LogWithin e x p) (hy : LogWithin e' y q)
    (he : e + e' ≤ 3) (hb : LogBound V (p * q)) :
    LogWithin (e + e' + unitError u η V) (x + y) (p * q) := by
  have hV := h.V_nonneg
  rcases hx with ⟨rfl, rfl⟩ | ⟨hp, a, rfl, ha⟩
  · refine Or.inl ⟨zero_mul _, ?_⟩
    rcases hy with ⟨_, rfl⟩ | ⟨_, b, rfl, _⟩ <;> rfl
  rcases hy with ⟨rfl, rfl⟩ | ⟨hq, b, rfl, hb'⟩
  · exact Or.inl ⟨mul_zero _, rfl⟩
  have hpq := mul_pos hp hq
  have hbd := (hb.resolve_left hpq.ne').2
  have hd : |a + b - Real.log (p * q)| ≤ e + e' := by
    rw [Real.log_mul hp.ne' hq.ne']
    have : a + b - (Real.log p + Real.log q) = (a - Real.log p) + (b - Real.log q) := by ring
    rw [this]
    exact (abs_add_le _ _).trans (add_le_add ha hb')
  have hm : |a + b| ≤ 4 * V + 4 := by
    have : a + b = (a + b - Real.log (p * q)) + Real.log (p * q) := by ring
    rw [this]
    exact (abs_add_le _ _).trans (by linarith)
  obtain ⟨w, hw, hwe⟩ := h.round hm
  refine Or.inr ⟨hpq, w, ?_, ?_⟩
  · show ρ.ap (XF.add (XF.fin a) (XF.fin b)) = _
    simpa [XF.add, Rounding.ap] using hw
  · have : w - Real.log (p * q) = (w - (a + b)) + (a + b - Real.log (p * q)) := by ring
    rw [this]
    exact (abs_add_le _ _).trans (by linarith)

end Range

/-- A sum of finite numbers, of total magnitude such that the partial sums stay below `M`. -/
theorem sum_rounded (ha : Accurate ρ u η Ω) {ι : Type} (f : ι → RX ρ) (y : ι → ℝ) (hf : ∀ i, f i = XF.fin (y i))
    {M : ℝ} (hM : M ≤ Ω) (l : List ι) :
    ∀ (a s : ℝ) (k : ℕ), |a - s| ≤ k * (u * M + η) →
      |s| + (l.map fun i => |y i|).sum + (k + l.length) * (u * M + η) ≤ M → 0 ≤ u * M + η →
      ∃ r, l.foldl (fun (acc : RX ρ) i => acc + f i) (XF.fin a) = XF.fin r ∧
        |r - (s + (l.map y).sum)| ≤ (k + l.length) * (u * M + η) := by
  induction l with
  | nil => intro a s k h1 _ _; exact ⟨a, rfl, by simpa using h1⟩
  | cons i l ih =>
    intro a s k h1 h2 hδ
    simp only [List.map_cons, List.sum_cons, List.length_cons, Nat.cast_add, Nat.cast_one] at h2
    have hl : 0 ≤ (l.map fun i => |y i|).sum := List.sum_nonneg (by simp)
    have hlδ : 0 ≤ (l.length : ℝ) * (u * M + η) := by positivity
    have hay : |a + y i| ≤ M := by
      have : a + y i = (a - s) + (s + y i) := by ring
      rw [this]
      refine (abs_add_le _ _).trans ?_
      have := abs_add_le s (y i)
      nlinarith
    obtain ⟨w, hw, hwe⟩ := ha.rnd (a + y i) (hay.trans hM)
    have hwe' : |w - (a + y i)| ≤ u * M + η :=
      hwe.trans (by nlinarith [ha.u_nonneg])
    obtain ⟨r, hr, hre⟩ := ih w (s + y i) (k + 1) (by
      have : w - (s + y i) = (w - (a + y i)) + (a - s) := by ring
      rw [this]
      refine (abs_add_le _ _).trans ?_
      push_cast
      nlinarith) (by
      have := abs_add_le s (y i)
      push_cast
      nlinarith) hδ
    refine ⟨r, ?_, ?_⟩
    · rw [List.foldl_cons, hf]
      have : ρ.ap (XF.add (XF.fin a) (XF.fin (y i))) = XF.fin w := by
        simpa [XF.add, Rounding.ap] using hw
      show List.foldl _ (ρ.ap (XF.add (XF.fin a) (XF.fin (y i)))) l = _
      rw [this]; exact hr
    · rw [List.map_cons, List.sum_cons, ← add_assoc]
      refine hre.trans (le_of_eq ?_)
      push_cast [List.length_cons]; ring

theorem exp_sub_exp_le {d d' ε : ℝ} (h : |d' - d| ≤ ε) (hε : ε ≤ 1) :
    |Real.exp d' - Real.exp d| ≤ 2 * ε * Real.exp d := by
  have e : Real.exp d' - Real.exp d = Real.exp d * (Real.exp (d' - d) - 1) := by
    rw [mul_sub, ← Real.exp_add]; ring_nf
  rw [e, abs_mul, abs_of_pos (Real.exp_pos d)]
  have := Real.abs_exp_sub_one_le (h.trans hε)
  have := Real.exp_pos d
  nlinarith

/-- The logarithm of a number with a small relative error. -/
theorem abs_log_sub_log_le {a S E : ℝ} (hS : 0 < S) (h : |a - S| ≤ E * S) (hE : 2 * E ≤ 1) :
    0 < a ∧ |Real.log a - Real.log S| ≤ 2 * E := by
  have hh := abs_le.1 h
  have hE0 : 0 ≤ E := by
    by_contra hc
    have := abs_nonneg (a - S)
    nlinarith
  have ha : 0 < a := by nlinarith
  refine ⟨ha, ?_⟩
  rw [← Real.log_div ha.ne' hS.ne']
  have hx : 0 < a / S := div_pos ha hS
  have h1 : a / S ≤ 1 + E := by rw [div_le_iff₀ hS]; linarith
  have h2 : 1 - E ≤ a / S := by rw [le_div_iff₀ hS]; linarith
  rw [abs_le]
  constructor
  · have := Real.one_sub_inv_le_log_of_pos hx
    have h3 : (a / S)⁻¹ ≤ (1 - E)⁻¹ := inv_anti₀ (by linarith) h2
    have h4 : (1 - E)⁻¹ ≤ 1 + 2 * E := by
      rw [inv_le_iff_one_le_mul₀ (by linarith)]
      nlinarith
    linarith
  · have := Real.log_le_sub_one_of_pos hx
    linarith

/-- The term of a sum that stands for the logarithm `x`. -/
noncomputable def expTerm (m : ℝ) (x : XF) : ℝ :=
  match x with
  | .fin r => Real.exp (r - m)
  | _ => 0

/-- A term of the sum of exponentials. -/
theorem Spec.LogRange.term (h : LogRange ρ u η Ω V nc) {x : RX ρ} {m : ℝ} (hx : LogVal x)
    (hle : ∀ r, x = XF.fin r → r ≤ m ∧ |r - m| ≤ 4 * V + 4) :
    ∃ y, FloatLike.exp (α := RX ρ) (x - (XF.fin m : RX ρ)) = XF.fin y ∧
      |y - expTerm m x| ≤ (2 * unitError u η V + 2 * u) * expTerm m x + η := by
  have hε := h.unit_le
  have hε0 := h.unit_nonneg
  have hu := h.acc.u_nonneg
  have hV := h.V_nonneg
  rcases hx with rfl | ⟨r, rfl⟩
  · obtain ⟨y, hy, he⟩ := h.acc.rnd 0 (by rw [abs_zero]; linarith [h.range])
    refine ⟨y, hy, ?_⟩
    simpa [expTerm] using he
  · obtain ⟨hrm, hb⟩ := hle r rfl
    obtain ⟨d, hd, hde⟩ := h.round hb
    have hexp := exp_sub_exp_le hde (by linarith)
    have hE1 : Real.exp (r - m) ≤ 1 := Real.exp_le_one_iff.2 (by linarith)
    have hE0 := Real.exp_pos (r - m)
    have hd2 : |Real.exp d| ≤ 2 * Real.exp (r - m) := by
      have : Real.exp d = (Real.exp d - Real.exp (r - m)) + Real.exp (r - m) := by ring
      rw [this]
      refine (abs_add_le _ _).trans ?_
      rw [abs_of_pos hE0]
      nlinarith
    obtain ⟨y, hy, he⟩ := h.acc.rnd (Real.exp d) (by linarith [h.range])
    refine ⟨y, ?_, ?_⟩
    · have : XF.sub (XF.fin r) (XF.fin m) = XF.fin (r - m) := XF.fin_sub r m
      show ρ.ap (XF.exp (ρ.ap (XF.sub (XF.fin r) (XF.fin m)))) = _
      rw [this]
      simp only [Rounding.ap, hd]
      exact hy
    · have : y - Real.exp (r - m) = (y - Real.exp d) + (Real.exp d - Real.exp (r - m)) := by ring
      show |y - Real.exp (r - m)| ≤ _ * Real.exp (r - m) + η
      rw [this]
      refine (abs_add_le _ _).trans ?_
      nlinarith

/-- The logarithm of a sum of exponentials, the largest taken out. -/
theorem Spec.LogRange.lse (h : LogRange ρ u η Ω V nc) {v : Row (RX ρ) nc} {p : Fin nc → ℝ} {e : ℝ}
    (hv : ∀ i, LogWithin e (v i) (p i)) (hb : ∀ i, LogBound V (p i)) (he : e ≤ 1)
    (k : Fin nc) {m : ℝ} (hk : v k = XF.fin m) (hmax : ∀ i, xfKey (v i) ≤ xfKey (v k)) :
    LogWithin (e + lseError u η V nc)
      (FloatLike.log (α := RX ρ) (sumF fun i => FloatLike.exp (v i - (XF.fin m : RX ρ))) + (XF.fin m : RX ρ))
      (∑ i, p i) := by
  have hε := h.unit_le
  have hε0 := h.unit_nonneg
  have hE0 := h.sumExp_nonneg
  have hE := h.small
  have hu := h.acc.u_nonneg
  have hη := h.acc.η_nonneg
  have hV := h.V_nonneg
  have hm : |m| ≤ V + 1 := by
    rcases hv k with ⟨_, h2⟩ | ⟨h1, r, h2, h3⟩
    · rw [hk] at h2; exact absurd h2 (by simp)
    · rw [hk] at h2; cases h2
      have := ((hb k).resolve_left h1.ne').2
      have e : m = (m - Real.log (p k)) + Real.log (p k) := by ring
      rw [e]; exact (abs_add_le _ _).trans (by linarith)
  have hle : ∀ i r, v i = XF.fin r → r ≤ m ∧ |r - m| ≤ 4 * V + 4 := by
    intro i r hr
    have h1 : r ≤ m := by have := hmax i; rw [hr, hk] at this; simpa [xfKey] using this
    refine ⟨h1, ?_⟩
    rcases hv i with ⟨_, h2⟩ | ⟨hp, r', h2, h3⟩
    · rw [hr] at h2; exact absurd h2 (by simp)
    · rw [hr] at h2; cases h2
      have h4 := ((hb i).resolve_left hp.ne').2
      have h5 : |r| ≤ V + 1 := by
        have e : r = (r - Real.log (p i)) + Real.log (p i) := by ring
        rw [e]; exact (abs_add_le _ _).trans (by linarith)
      refine (abs_sub _ _).trans ?_
      linarith
  choose y hy hye using fun i => h.term (hv i).logVal (hle i)
  set t : Fin nc → ℝ := fun i => expTerm m (v i) with ht
  set S := ∑ i, t i with hS
  have ht0 : ∀ i, 0 ≤ t i := by
    intro i; simp only [ht, expTerm]; split
    · exact (Real.exp_pos _).le
    · exact le_rfl
  have ht1 : ∀ i, t i ≤ 1 := by
    intro i
    rcases (hv i).logVal with h1 | ⟨r, h1⟩
    · simp [ht, h1, expTerm]
    · simp only [ht, h1, expTerm]; exact Real.exp_le_one_iff.2 (by linarith [(hle i r h1).1])
  have htk : t k = 1 := by simp [ht, hk, expTerm]
  have hS1 : 1 ≤ S := by rw [← htk]; exact Finset.single_le_sum (fun i _ => ht0 i) (Finset.mem_univ k)
  have hSn : S ≤ nc := by
    calc S ≤ ∑ _i : Fin nc, (1 : ℝ) := Finset.sum_le_sum fun i _ => ht1 i
      _ = nc := by simp
  have hyt : |∑ i, y i - S| ≤ (2 * unitError u η V + 2 * u) * S + nc * η := by
    rw [hS, ← Finset.sum_sub_distrib]
    refine (Finset.abs_sum_le_sum_abs _ _).trans ((Finset.sum_le_sum fun i _ => hye i).trans (le_of_eq ?_))
    rw [Finset.sum_add_distrib, ← Finset.mul_sum]; simp [ht]
  have hyabs : ∑ i, |y i| ≤ S + ((2 * unitError u η V + 2 * u) * S + nc * η) := by
    have : ∀ i, |y i| ≤ t i + ((2 * unitError u η V + 2 * u) * t i + η) := by
      intro i
      have e : y i = (y i - t i) + t i := by ring
      rw [e]
      refine (abs_add_le _ _).trans ?_
      rw [abs_of_nonneg (ht0 i)]
      have := hye i
      simp only [ht] at this ⊢
      linarith
    refine (Finset.sum_le_sum fun i _ => this i).trans (le_of_eq ?_)
    rw [Finset.sum_add_distrib, Finset.sum_add_distrib, ← Finset.mul_sum]; simp [hS]
  have hnc0 : (0 : ℝ) ≤ nc := Nat.cast_nonneg _
  have hEdef : sumExpError u η V nc = 2 * unitError u η V + 2 * u + 2 * nc * (u + η) := rfl
  have hnu : 0 ≤ (nc : ℝ) * u := by positivity
  have hnη : 0 ≤ (nc : ℝ) * η := by positivity
  obtain ⟨a, haq, hae⟩ := sum_rounded h.acc (fun i => FloatLike.exp (α := RX ρ) (v i - (XF.fin m : RX ρ))) y
    hy (M := 2 * S) (by linarith [h.width]) (List.finRange nc) 0 0 0 (by simp) (by
      rw [← Fin.sum_univ_def]
      simp only [abs_zero, List.length_finRange, CharP.cast_eq_zero, zero_add]
      nlinarith) (by positivity)
  have haS : |a - S| ≤ sumExpError u η V nc * S := by
    rw [← Fin.sum_univ_def, zero_add] at hae
    simp only [List.length_finRange, CharP.cast_eq_zero, zero_add] at hae
    have e : a - S = (a - ∑ i, y i) + (∑ i, y i - S) := by ring
    rw [e]
    refine (abs_add_le _ _).trans ?_
    rw [hEdef]
    nlinarith
  obtain ⟨hapos, halog⟩ := abs_log_sub_log_le (by linarith) haS hE
  have hlogS0 : 0 ≤ Real.log S := Real.log_nonneg hS1
  have hlogS1 : Real.log S ≤ V := (Real.log_le_log (by linarith) hSn).trans h.card
  have hla : |Real.log a| ≤ V + 1 := by
    have e : Real.log a = (Real.log a - Real.log S) + Real.log S := by ring
    rw [e]; refine (abs_add_le _ _).trans ?_
    rw [abs_of_nonneg hlogS0]; linarith
  obtain ⟨la, hla1, hla2⟩ := h.round (r := Real.log a) (by linarith)
  have hlam : |la + m| ≤ 4 * V + 4 := by
    have e : la + m = (la - Real.log a) + Real.log a + m := by ring
    rw [e]
    refine (abs_add_le _ _).trans ?_
    have := abs_add_le (la - Real.log a) (Real.log a)
    linarith
  obtain ⟨w, hw, hwe⟩ := h.round hlam
  -- the exact sum
  have hterm : ∀ i, Real.exp (-e) * p i ≤ t i * Real.exp m ∧ t i * Real.exp m ≤ Real.exp e * p i := by
    intro i
    rcases hv i with ⟨h1, h2⟩ | ⟨h1, r, h2, h3⟩
    · simp [ht, h2, expTerm, h1]
    · have e1 : t i * Real.exp m = Real.exp r := by
        simp only [ht, h2, expTerm]; rw [← Real.exp_add]; ring_nf
      have e2 : ∀ c, Real.exp c * p i = Real.exp (c + Real.log (p i)) := fun c => by
        rw [Real.exp_add, Real.exp_log h1]
      rw [e1, e2, e2]
      have := abs_le.1 h3
      exact ⟨Real.exp_le_exp.2 (by linarith), Real.exp_le_exp.2 (by linarith)⟩
  have hp0 : ∀ i, 0 ≤ p i := fun i => (hv i).nonneg
  have hpk : 0 < p k := by
    rcases hv k with ⟨_, h2⟩ | ⟨h1, _⟩
    · rw [hk] at h2; exact absurd h2 (by simp)
    · exact h1
  have hP : 0 < ∑ i, p i := lt_of_lt_of_le hpk (Finset.single_le_sum (fun i _ => hp0 i) (Finset.mem_univ k))
  have hex : |(Real.log S + m) - Real.log (∑ i, p i)| ≤ e := by
    have hSm : Real.log S + m = Real.log (S * Real.exp m) := by
      rw [Real.log_mul (by linarith) (Real.exp_pos _).ne', Real.log_exp]
    have hlo : Real.exp (-e) * ∑ i, p i ≤ S * Real.exp m := by
      rw [hS, Finset.mul_sum, Finset.sum_mul]; exact Finset.sum_le_sum fun i _ => (hterm i).1
    have hhi : S * Real.exp m ≤ Real.exp e * ∑ i, p i := by
      rw [hS, Finset.mul_sum, Finset.sum_mul]; exact Finset.sum_le_sum fun i _ => (hterm i).2
    have h1 := Real.log_le_log (mul_pos (Real.exp_pos _) hP) hlo
    have h2 := Real.log_le_log (mul_pos (by linarith) (Real.exp_pos _)) hhi
    rw [Real.log_mul (Real.exp_pos _).ne' hP.ne', Real.log_exp] at h1 h2
    rw [hSm, abs_le]; constructor <;> linarith
  refine Or.inr ⟨hP, w, ?_, ?_⟩
  · have e1 : sumF (fun i => FloatLike.exp (α := RX ρ) (v i - (XF.fin m : RX ρ))) = (XF.fin a : RX ρ) := haq
    rw [e1]
    have e2 : FloatLike.log (α := RX ρ) (XF.fin a) = XF.fin la := by
      show ρ.ap (XF.log (XF.fin a)) = _
      simp only [XF.log, hapos.ne', if_false, hapos, if_true, Rounding.ap]
      exact hla1
    rw [e2]
    show ρ.ap (XF.add (XF.fin la) (XF.fin m)) = _
    simpa [XF.add, Rounding.ap] using hw
  · have e1 : w - Real.log (∑ i, p i) = (w - (la + m)) + (la - Real.log a) + (Real.log a - Real.log S) +
        ((Real.log S + m) - Real.log (∑ i, p i)) := by ring
    rw [e1]
    refine (abs_add_le _ _).trans ?_
    have h1 := abs_add_le ((w - (la + m)) + (la - Real.log a)) (Real.log a - Real.log S)
    have h2 := abs_add_le (w - (la + m)) (la - Real.log a)
    unfold lseError
    linarith

theorem LogVal.lt {x y : RX ρ} (hx : LogVal x) (hy : LogVal y) :
    FloatLike.lt (α := RX ρ) x y = decide (xfKey x < xfKey y) :=
  (rxMono ρ).lt_eq _ _ hx hy

/-- `logsumexp` of `_hmmc.cpp`. -/
theorem Spec.LogRange.logsumexp [NeZero nc] (h : LogRange ρ u η Ω V nc) {v : Row (RX ρ) nc} {p : Fin nc → ℝ}
    {e : ℝ} (hv : ∀ i, LogWithin e (v i) (p i)) (hb : ∀ i, LogBound V (p i)) (he : e ≤ 1) :
    LogWithin (e + lseError u η V nc) (Hmmc.logsumexp (α := RX ρ) v) (∑ i, p i) := by
  have hmax := le_maxElement (α := RX ρ) v (fun i => xfKey (v i)) (fun i j => (hv i).logVal.lt (hv j).logVal)
  unfold Hmmc.logsumexp
  dsimp only
  generalize maxElement (α := RX ρ) v = k at hmax ⊢
  rcases (hv k).logVal with hk | ⟨m, hk⟩
  · have hz : ∀ i, p i = 0 := by
      intro i
      rcases hv i with ⟨h1, _⟩ | ⟨_, r, h2, _⟩
      · exact h1
      · have := hmax i; rw [h2, hk] at this; simp [xfKey] at this
    refine Or.inl ⟨by simp [hz], ?_⟩
    simp only [hk]; rfl
  · have := h.lse hv hb he k hk hmax
    have e1 : isInf (α := RX ρ) (v k) = false := by rw [hk]; rfl
    simp only [e1, Bool.false_eq_true, if_false]
    simpa only [hk] using this

/-- scipy's `logsumexp`. -/
theorem Spec.LogRange.scipyLogsumexp [NeZero nc] (h : LogRange ρ u η Ω V nc) {v : Row (RX ρ) nc}
    {p : Fin nc → ℝ} {e : ℝ} (hv : ∀ i, LogWithin e (v i) (p i)) (hb : ∀ i, LogBound V (p i)) (he : e ≤ 1)
    (hpos : 0 < ∑ i, p i) :
    LogWithin (e + lseError u η V nc) (Verif.scipyLogsumexp (α := RX ρ) v) (∑ i, p i) := by
  obtain ⟨k, hk', hmax⟩ := npMax_spec (α := RX ρ) v (fun i => xfKey (v i))
    (fun i => by rcases (hv i).logVal with h | ⟨r, h⟩ <;> rw [h] <;> rfl)
    (fun i j => (hv i).logVal.lt (hv j).logVal)
  unfold Verif.scipyLogsumexp
  rw [hk']
  dsimp only
  rcases (hv k).logVal with hk | ⟨m, hk⟩
  · have hz : ∀ i, p i = 0 := by
      intro i
      rcases hv i with ⟨h1, _⟩ | ⟨_, r, h2, _⟩
      · exact h1
      · have := hmax i; rw [h2, hk] at this; simp [xfKey] at this
    simp [hz] at hpos
  · have := h.lse hv hb he k hk hmax
    have e1 : isFinite (α := RX ρ) (v k) = true := by rw [hk]; rfl
    simp only [e1, if_true]
    simpa only [hk] using this

end Verif
