import Verif.Proofs.RoundoffForward

/-!
# Errors of the posteriors of the log implementation
-/

set_option autoImplicit false

namespace Verif
open FloatLike Hmmc Spec

variable {ρ : Rounding} {u η Ω V ℓ eb : ℝ} {nc N : ℕ} [NeZero nc]

/-- The exponential of a logarithm known up to `δ`. -/
theorem Spec.LogRange.exp (h : LogRange ρ u η Ω V nc) {x : RX ρ} {δ p : ℝ} (hx : LogWithin δ x p) (hδ : δ ≤ 1)
    (hp : 3 * p ≤ Ω) :
    ∃ y, FloatLike.exp (α := RX ρ) x = XF.fin y ∧ |y - p| ≤ (2 * δ + 3 * u) * p + η ∧
      (ρ.rnd 0 = .fin 0 → p = 0 → y = 0) := by
  have hu := h.acc.u_nonneg
  have hV := h.V_nonneg
  rcases hx with ⟨rfl, rfl⟩ | ⟨hpos, r, rfl, hr⟩
  · obtain ⟨y, hy, he⟩ := h.acc.rnd 0 (by rw [abs_zero]; linarith [h.range])
    exact ⟨y, hy, by simpa using he, fun h0 _ => XF.fin_injective (hy.symm.trans h0)⟩
  · have hexp := exp_sub_exp_le hr hδ
    rw [Real.exp_log hpos] at hexp
    have h3 : |Real.exp r| ≤ 3 * p := by
      have : Real.exp r = (Real.exp r - p) + p := by ring
      rw [this]
      refine (abs_add_le _ _).trans ?_
      rw [abs_of_pos hpos]
      nlinarith
    obtain ⟨y, hy, he⟩ := h.acc.rnd (Real.exp r) (by linarith)
    refine ⟨y, hy, ?_, fun _ h0 => absurd h0 hpos.ne'⟩
    have : y - p = (y - Real.exp r) + (Real.exp r - p) := by ring
    rw [this]
    refine (abs_add_le _ _).trans ?_
    nlinarith

/-- A difference of two logarithms. -/
theorem Spec.LogRange.sub (h : LogRange ρ u η Ω V nc) {e e' p q : ℝ} {x y : RX ρ} (hx : LogWithin e x p)
    (hy : LogWithin e' y q) (hq : 0 < q) (he : e + e' ≤ 3) (hb : LogBound (4 * V + 1) (p / q)) :
    LogWithin (e + e' + unitError u η V) (x - y) (p / q) := by
  have hV := h.V_nonneg
  rcases hy with ⟨rfl, rfl⟩ | ⟨hq, b, rfl, hb'⟩
  · exact absurd hq (lt_irrefl _)
  rcases hx with ⟨rfl, rfl⟩ | ⟨hp, a, rfl, ha⟩
  · exact Or.inl ⟨zero_div _, rfl⟩
  have hpq := div_pos hp hq
  have hbd := (hb.resolve_left hpq.ne').2
  have hd : |a - b - Real.log (p / q)| ≤ e + e' := by
    rw [Real.log_div hp.ne' hq.ne']
    have : a - b - (Real.log p - Real.log q) = (a - Real.log p) - (b - Real.log q) := by ring
    rw [this]
    exact (abs_sub _ _).trans (add_le_add ha hb')
  have hm : |a - b| ≤ 4 * V + 4 := by
    have : a - b = (a - b - Real.log (p / q)) + Real.log (p / q) := by ring
    rw [this]
    exact (abs_add_le _ _).trans (by linarith)
  obtain ⟨w, hw, hwe⟩ := h.round hm
  refine Or.inr ⟨hpq, w, ?_, ?_⟩
  · have e1 : XF.sub (XF.fin a) (XF.fin b) = XF.fin (a - b) := XF.fin_sub a b
    show ρ.ap (XF.sub (XF.fin a) (XF.fin b)) = _
    rw [e1]; exact hw
  · have : w - Real.log (p / q) = (w - (a - b)) + (a - b - Real.log (p / q)) := by ring
    rw [this]
    exact (abs_add_le _ _).trans (by linarith)

/-- One row of the posteriors. -/
theorem Spec.LogRange.posteriorRow (h : LogRange ρ u η Ω V nc) {g : Row (RX ρ) nc} {x : Fin nc → ℝ} {e : ℝ}
    (hg : ∀ i, LogWithin e (g i) (x i)) (hb : ∀ i, LogBound V (x i)) (hS : 0 < ∑ k, x k) (he0 : 0 ≤ e)
    (he : 2 * e + lseError u η V nc + unitError u η V ≤ 1) (i : Fin nc) :
    ∃ y, FloatLike.exp (α := RX ρ) (logNormalizeRow (α := RX ρ) g i) = XF.fin y ∧
      |y - x i / ∑ k, x k| ≤
        (2 * (2 * e + lseError u η V nc + unitError u η V) + 3 * u) * (x i / ∑ k, x k) + η ∧
      (ρ.rnd 0 = .fin 0 → x i / ∑ k, x k = 0 → y = 0) := by
  have hu := h.acc.u_nonneg
  have hη := h.acc.η_nonneg
  have hV := h.V_nonneg
  have hε := h.unit_nonneg
  have hE := h.sumExp_nonneg
  have hlse : 0 ≤ lseError u η V nc := by unfold lseError; linarith
  have hx0 : ∀ i, 0 ≤ x i := fun i => (hg i).nonneg
  unfold logNormalizeRow
  by_cases h1 : nc = 1
  · subst h1
    have : i = 0 := Subsingleton.elim _ _
    subst this
    simp only [Fin.sum_univ_one, Fin.isValue] at hS ⊢
    rw [div_self hS.ne', if_pos trivial]
    obtain ⟨y, hy, hye⟩ := h.acc.rnd 1 (by rw [abs_one]; linarith [h.range])
    refine ⟨y, ?_, hye.trans ?_, fun _ h0 => absurd h0 one_ne_zero⟩
    · show ρ.ap (XF.exp (XF.fin 0)) = _
      simp only [XF.exp, Real.exp_zero, Rounding.ap]
      exact hy
    · rw [abs_one]; nlinarith
  · simp only [h1, if_false]
    have hz := h.scipyLogsumexp hg hb (by linarith) hS
    have hbS : LogBound (V + Real.log nc) (∑ k, x k) := LogBound.sum hb
    have hq : LogBound (4 * V + 1) (x i / ∑ k, x k) := by
      rcases hb i with h0 | h0
      · exact Or.inl (by rw [h0, zero_div])
      · refine Or.inr ⟨div_pos h0.1 hS, ?_⟩
        rw [Real.log_div h0.1.ne' hS.ne']
        have := (hbS.resolve_left hS.ne').2
        have := h.card
        exact (abs_sub _ _).trans (by linarith)
    have hd := h.sub (hg i) hz hS (by linarith) hq
    have hle : x i / ∑ k, x k ≤ 1 := by
      rw [div_le_one hS]; exact Finset.single_le_sum (fun i _ => hx0 i) (Finset.mem_univ i)
    obtain ⟨y, hy, hye, hy0⟩ := h.exp hd (by linarith) (by linarith [h.range])
    refine ⟨y, hy, hye.trans (le_of_eq ?_), hy0⟩
    ring

/-- `forward_log`, `backward_log` and `_compute_posteriors_log`. -/
theorem Spec.LogBudget.posteriors (h : LogBudget ρ u η Ω V nc N ℓ eb) {π : Fin nc → ℝ} {A : Fin nc → Fin nc → ℝ}
    (hA : ∀ i j, LogBound ℓ (A i j)) {n : ℕ} (hn : n ≤ N) (lb : Fin (n + 1) → Row (RX ρ) nc)
    (B : Fin (n + 1) → Fin nc → ℝ) (hB : ∀ t i, LogBound ℓ (B t i)) (hlb : ∀ t i, LogWithin eb (lb t i) (B t i))
    {fwd : List (Row (RX ρ) nc)}
    (hf : RowsNear (fun t => (t + 1) * stepError u η V nc eb) (fun t => (t + 1) * stepSpan ℓ nc) 0 fwd
      (rfwd A π (List.ofFn B)))
    (hpos : 0 < likelihood π A B) :
    ∃ bwd, backwardLog (α := RX ρ) (fun i j => XF.fin (A i j)) (List.ofFn lb) = .ok bwd ∧
      ∃ y : Fin (n + 1) → Fin nc → ℝ,
        computePosteriorsLog (α := RX ρ) fwd bwd = List.ofFn (fun t i => XF.fin (y t i)) ∧
        ∀ t i, |y t i - posterior π A B t i| ≤ (4 * n + 7) * stepError u η V nc eb * posterior π A B t i + η ∧
          (ρ.rnd 0 = .fin 0 → posterior π A B t i = 0 → y t i = 0) := by
  have hN : (n : ℝ) ≤ N := by exact_mod_cast hn
  have hn0 : (0 : ℝ) ≤ n := Nat.cast_nonneg _
  have hbw := h.backwardLoop hA n hn (List.ofFn lb) (List.ofFn B) 0 (by simp)
    (by
      rw [List.forall₂_iff_get]
      refine ⟨by simp, fun i h1 h2 => ?_⟩
      rw [List.get_ofFn, List.get_ofFn]
      exact hlb _)
    (by
      intro b hb
      obtain ⟨t, rfl⟩ := List.mem_ofFn.1 hb
      exact hB _)
  set bwd := backwardLogLoop (α := RX ρ) (fun i j => FloatLike.log (α := RX ρ) (XF.fin (A i j))) (List.ofFn lb) with hbwd
  refine ⟨bwd, ?_, ?_⟩
  · have hne : (List.ofFn lb).isEmpty = false := by
      simp [List.isEmpty_eq_false_iff, List.ofFn_eq_nil_iff]
    unfold backwardLog
    simp only [hne, memo_eq]
    rfl
  · have hε := h.range.unit_nonneg
    have hu := h.range.acc.u_nonneg
    have hlse := h.lse_nonneg
    have hκ := h.step_nonneg
    have hV := h.range.V_nonneg
    have hη := h.range.acc.η_nonneg
    have heb := h.eb_nonneg
    have hst : stepError u η V nc eb = lseError u η V nc + 3 * unitError u η V + eb := rfl
    have huε : 4 * u ≤ unitError u η V := by unfold unitError; nlinarith
    have ht1 := h.total_le (k := 2 * n + 3) (by linarith)
    have hsum : ∀ r ∈ List.ofFn (fun t => stateMass π A B t), ∑ i, r i = likelihood π A B := by
      intro r hr
      obtain ⟨t, rfl⟩ := List.mem_ofFn.1 hr
      exact (likelihood_eq_sum_stateMass π A B t).symm
    have hall := hf.zip hbw
      (P := fun _ (row : Row (RX ρ) nc) r => ∀ i, ∃ y, row i = XF.fin y ∧
        |y - r i / likelihood π A B| ≤ (4 * n + 7) * stepError u η V nc eb * (r i / likelihood π A B) + η ∧
        (ρ.rnd 0 = .fin 0 → r i / likelihood π A B = 0 → y = 0))
      (f := fun f w => fun i => FloatLike.exp (α := RX ρ) (logNormalizeRow (α := RX ρ)
        (fun i => (f i + w i : RX ρ)) i))
      (fun t a b r s ht ha hb hm i => by
        rw [zip_fwd_bwd] at hm
        have hS : ∑ k, r k * s k = likelihood π A B := hsum _ hm
        have htn : t ≤ n := by simp at ht; omega
        have hcast : ((n - t : ℕ) : ℝ) = n - t := by rw [Nat.cast_sub htn]
        have hb1 : ∀ k, LogBound V (r k * s k) := fun k =>
          ((ha k).2.mul (hb k).2).mono (by
            have := h.depth_le (k := n + 1) (by linarith)
            rw [hcast]; nlinarith)
        have hw1 : ∀ k, LogWithin ((n + 1) * stepError u η V nc eb + unitError u η V) (a k + b k : RX ρ)
            (r k * s k) := fun k =>
          (h.range.add (ha k).1 (hb k).1 (by rw [hcast]; nlinarith) (hb1 k)).mono (by rw [hcast]; nlinarith)
        obtain ⟨y, hy, hye, hy0⟩ := h.range.posteriorRow hw1 hb1 (by rw [hS]; exact hpos) (by positivity)
          (by nlinarith) i
        rw [hS] at hye hy0
        refine ⟨y, hy, hye.trans ?_, hy0⟩
        have hp : 0 ≤ r i * s i / likelihood π A B := div_nonneg (hb1 i).nonneg hpos.le
        have : 2 * (2 * ((n + 1) * stepError u η V nc eb + unitError u η V) + lseError u η V nc +
            unitError u η V) + 3 * u ≤ (4 * n + 7) * stepError u η V nc eb := by nlinarith
        have := mul_le_mul_of_nonneg_right this hp
        linarith)
    rw [zip_fwd_bwd] at hall
    have hlist : computePosteriorsLog (α := RX ρ) fwd bwd = List.zipWith (fun f w => fun i =>
        FloatLike.exp (α := RX ρ) (logNormalizeRow (α := RX ρ) (fun i => (f i + w i : RX ρ)) i)) fwd bwd := by
      unfold computePosteriorsLog
      simp only [memo_eq]
    rw [hlist]
    set rows := List.zipWith (fun f w => fun i =>
        FloatLike.exp (α := RX ρ) (logNormalizeRow (α := RX ρ) (fun i => (f i + w i : RX ρ)) i)) fwd bwd
    have hlen : rows.length = n + 1 := by rw [hall.length_eq, List.length_ofFn]
    have hget : ∀ t : Fin (n + 1), ∀ i, ∃ y, (rows[t.val]'(by omega)) i = XF.fin y ∧
        |y - posterior π A B t i| ≤ (4 * n + 7) * stepError u η V nc eb * posterior π A B t i + η ∧
        (ρ.rnd 0 = .fin 0 → posterior π A B t i = 0 → y = 0) := by
      intro t i
      have := (List.forall₂_iff_get.1 hall).2 t.val (by omega) (by rw [List.length_ofFn]; exact t.isLt)
      rw [List.get_ofFn] at this
      obtain ⟨_, this⟩ := this
      exact this i
    choose y hy hye using hget
    refine ⟨y, ?_, hye⟩
    apply List.ext_getElem
    · simp [hlen]
    · intro k h1 h2
      rw [List.getElem_ofFn]
      funext i
      exact hy ⟨k, by omega⟩ i

end Verif
