import Verif.Proofs.RoundoffPosterior

/-!
# Errors of `logaddexp` and of `compute_log_xi_sum`
-/

set_option autoImplicit false

namespace Verif
open FloatLike Hmmc Spec

variable {ρ : Rounding} {u η Ω V ℓ eb : ℝ} {nc N : ℕ}

theorem abs_exp_neg_sub_le {x y : ℝ} (hx : 0 ≤ x) (hy : 0 ≤ y) : |Real.exp (-x) - Real.exp (-y)| ≤ |x - y| := by
  have key : ∀ x y : ℝ, 0 ≤ x → x ≤ y → |Real.exp (-x) - Real.exp (-y)| ≤ |x - y| := by
    intro x y hx hxy
    have h1 : Real.exp (-y) ≤ Real.exp (-x) := Real.exp_le_exp.2 (by linarith)
    rw [abs_of_nonneg (by linarith), abs_of_nonpos (by linarith)]
    have h2 : Real.exp (-y) = Real.exp (-x) * Real.exp (x - y) := by rw [← Real.exp_add]; ring_nf
    have h3 := Real.add_one_le_exp (x - y)
    have h4 : Real.exp (-x) ≤ 1 := Real.exp_le_one_iff.2 (by linarith)
    have h5 := Real.exp_pos (-x)
    rw [h2]
    nlinarith
  rcases le_total x y with h | h
  · exact key x y hx h
  · rw [abs_sub_comm, abs_sub_comm x y]; exact key y x hy h

theorem max_add_log {a b : ℝ} :
    max a b + Real.log (1 + Real.exp (-|b - a|)) = Real.log (Real.exp a + Real.exp b) := by
  have key : ∀ a b : ℝ, a ≤ b → b + Real.log (1 + Real.exp (-(b - a))) = Real.log (Real.exp a + Real.exp b) := by
    intro a b _
    conv_lhs => rw [← Real.log_exp b]
    rw [← Real.log_mul (Real.exp_pos b).ne' (by positivity), mul_add, mul_one, ← Real.exp_add, Real.log_exp, add_comm]
    ring_nf
  rcases le_total a b with h | h
  · rw [max_eq_right h, abs_of_nonneg (by linarith)]; exact key a b h
  · rw [max_eq_left h, abs_of_nonpos (by linarith), add_comm (Real.exp a), ← key b a h]; ring_nf

/-- Perturbed logarithms of two terms of a sum. -/
theorem abs_log_add_exp_le {a b p q e : ℝ} (hp : 0 < p) (hq : 0 < q) (ha : |a - Real.log p| ≤ e)
    (hb : |b - Real.log q| ≤ e) : |Real.log (Real.exp a + Real.exp b) - Real.log (p + q)| ≤ e := by
  have up : ∀ {a p : ℝ}, 0 < p → |a - Real.log p| ≤ e → Real.exp a ≤ Real.exp e * p ∧ p ≤ Real.exp e * Real.exp a := by
    intro a p hp h
    obtain ⟨h1, h2⟩ := abs_le.1 h
    constructor
    · conv_rhs => rw [← Real.exp_log hp]
      rw [← Real.exp_add]; exact Real.exp_le_exp.2 (by linarith)
    · conv_lhs => rw [← Real.exp_log hp]
      rw [← Real.exp_add]; exact Real.exp_le_exp.2 (by linarith)
  have hpq : 0 < p + q := by linarith
  have hE : 0 < Real.exp a + Real.exp b := add_pos (Real.exp_pos _) (Real.exp_pos _)
  have h1 := Real.log_le_log hE (add_le_add (up hp ha).1 (up hq hb).1)
  have h2 := Real.log_le_log hpq (add_le_add (up hp ha).2 (up hq hb).2)
  rw [← mul_add, Real.log_mul (Real.exp_pos e).ne' hpq.ne', Real.log_exp] at h1
  rw [← mul_add, Real.log_mul (Real.exp_pos e).ne' hE.ne', Real.log_exp] at h2
  rw [abs_le]; constructor <;> linarith

/-- A number between `exp (-3 V)` and `exp V`, or zero. -/
def CountRange (V p : ℝ) : Prop := 0 < p → -(3 * V) ≤ Real.log p ∧ Real.log p ≤ V

/-- `logaddexp` of two logarithms known up to `e`. -/
theorem Spec.LogRange.logaddexp (h : LogRange ρ u η Ω V nc) {x y : RX ρ} {p q e : ℝ} (hx : LogWithin e x p)
    (hy : LogWithin e y q) (he0 : 0 ≤ e) (he : e ≤ 1) (hp : CountRange V p) (hq : CountRange V q)
    (hpq : CountRange V (p + q)) :
    LogWithin (e + 6 * unitError u η V) (Hmmc.logaddexp (α := RX ρ) x y) (p + q) := by
  have hε := h.unit_nonneg
  have hε4 := h.unit_le
  have hu := h.acc.u_nonneg
  have hη := h.acc.η_nonneg
  have hV := h.V_nonneg
  have huη : u + η ≤ unitError u η V := by unfold unitError; nlinarith
  unfold Hmmc.logaddexp
  rcases hx with ⟨rfl, rfl⟩ | ⟨hp0, a, rfl, ha⟩
  · have : FloatLike.eq (α := RX ρ) XF.ninf (negInf : RX ρ) = true := rfl
    rw [this, zero_add]
    exact hy.mono (by linarith)
  · have e1 : FloatLike.eq (α := RX ρ) (XF.fin a) (negInf : RX ρ) = false := rfl
    rw [e1]
    rcases hy with ⟨rfl, rfl⟩ | ⟨hq0, b, rfl, hb⟩
    · have : FloatLike.eq (α := RX ρ) XF.ninf (negInf : RX ρ) = true := rfl
      rw [this, add_zero]
      exact Or.inr ⟨hp0, a, rfl, ha.trans (by linarith)⟩
    · have e2 : FloatLike.eq (α := RX ρ) (XF.fin b) (negInf : RX ρ) = false := rfl
      rw [e2]
      have hpq0 : 0 < p + q := by linarith
      obtain ⟨p1, p2⟩ := hp hp0
      obtain ⟨q1, q2⟩ := hq hq0
      obtain ⟨s1, s2⟩ := hpq hpq0
      obtain ⟨a1, a2⟩ := abs_le.1 ha
      obtain ⟨b1, b2⟩ := abs_le.1 hb
      -- the difference
      obtain ⟨d, hd, hde⟩ := h.round (r := b - a) (abs_le.2 ⟨by linarith, by linarith⟩)
      have hdd : |Real.exp (-|d|) - Real.exp (-|b - a|)| ≤ unitError u η V :=
        (abs_exp_neg_sub_le (abs_nonneg _) (abs_nonneg _)).trans ((abs_abs_sub_abs_le _ _).trans hde)
      have hE1 : Real.exp (-|d|) ≤ 1 := Real.exp_le_one_iff.2 (by linarith [abs_nonneg d])
      have hE0 := Real.exp_pos (-|d|)
      obtain ⟨y, hy, hye⟩ := h.acc.rnd (Real.exp (-|d|)) (by rw [abs_of_pos hE0]; linarith [h.range])
      rw [abs_of_pos hE0] at hye
      have hF0 := Real.exp_pos (-|b - a|)
      have hF1 : Real.exp (-|b - a|) ≤ 1 := Real.exp_le_one_iff.2 (by linarith [abs_nonneg (b - a)])
      have hyF : |y - Real.exp (-|b - a|)| ≤ 2 * unitError u η V := by
        have e : y - Real.exp (-|b - a|) = (y - Real.exp (-|d|)) + (Real.exp (-|d|) - Real.exp (-|b - a|)) := by ring
        rw [e]
        refine (abs_add_le _ _).trans ?_
        nlinarith
      obtain ⟨hy1, hl⟩ := abs_log_sub_log_le (a := 1 + y) (S := 1 + Real.exp (-|b - a|))
        (E := 2 * unitError u η V) (by linarith) (by
          rw [add_sub_add_left_eq_sub]
          refine hyF.trans (le_mul_of_one_le_right (by linarith) (by linarith))) (by linarith)
      have hFl : Real.log (1 + Real.exp (-|b - a|)) ≤ 1 := by
        have := Real.log_le_sub_one_of_pos (x := 1 + Real.exp (-|b - a|)) (by linarith)
        linarith
      have hFl0 : 0 ≤ Real.log (1 + Real.exp (-|b - a|)) := Real.log_nonneg (by linarith)
      obtain ⟨l1, l2⟩ := abs_le.1 hl
      obtain ⟨z, hz, hze⟩ := h.round (r := Real.log (1 + y)) (abs_le.2 ⟨by linarith, by linarith⟩)
      obtain ⟨z1, z2⟩ := abs_le.1 hze
      have hex := max_add_log (a := a) (b := b)
      have hlog := abs_log_add_exp_le hp0 hq0 ha hb
      obtain ⟨g1, g2⟩ := abs_le.1 hlog
      obtain ⟨w, hw, hwe⟩ := h.round (r := max a b + z) (abs_le.2 ⟨by linarith, by linarith⟩)
      obtain ⟨w1, w2⟩ := abs_le.1 hwe
      refine Or.inr ⟨hpq0, w, ?_, abs_le.2 ⟨by linarith, by linarith⟩⟩
      have c1 : ρ.ap (XF.sub (XF.fin b) (XF.fin a)) = XF.fin d := by
        have e : XF.sub (XF.fin b) (XF.fin a) = XF.fin (b - a) := XF.fin_sub b a
        rw [e]; exact hd
      have c2 : ρ.ap (XF.exp (XF.neg (XF.abs (XF.fin d)))) = XF.fin y := hy
      have c3 : ρ.ap (XF.log (XF.add (XF.fin 1) (XF.fin y))) = XF.fin z := by
        simp only [XF.add, XF.log, hy1.ne', if_false, hy1, if_true, Rounding.ap]
        exact hz
      have c4 : stdMax (α := RX ρ) (XF.fin a) (XF.fin b) = (XF.fin (max a b) : RX ρ) := by
        have : FloatLike.lt (α := RX ρ) (XF.fin a) (XF.fin b) = decide (a < b) := rfl
        unfold stdMax
        rw [this]
        by_cases hab : a < b
        · simp [hab, max_eq_right hab.le]
        · simp [hab, max_eq_left (not_lt.1 hab)]
      rw [if_neg Bool.false_ne_true, if_neg Bool.false_ne_true, c4]
      show ρ.ap (XF.add (XF.fin (max a b)) (ρ.ap (XF.log (XF.add (XF.fin 1) (ρ.ap (XF.exp (XF.neg (XF.abs
        (ρ.ap (XF.sub (XF.fin b) (XF.fin a))))))))))) = _
      rw [c1, c2, c3]
      simpa [XF.add, Rounding.ap] using hw

/-- The running `logaddexp` of terms known up to `e`, each at most one and at least `exp (-3 V)`. -/
theorem Spec.LogRange.foldl_logaddexp (h : LogRange ρ u η Ω V nc) {e : ℝ} (he0 : 0 ≤ e) :
    ∀ (xs : List (RX ρ)) (ps : List ℝ), List.Forall₂ (fun x p => LogWithin e x p) xs ps →
      (∀ p ∈ ps, CountRange V p ∧ p ≤ 1) → ∀ (k : ℕ) (x : RX ρ) (a : ℝ),
      LogWithin (e + k * (6 * unitError u η V)) x a → CountRange V a → a ≤ k → Real.log (k + xs.length : ℕ) ≤ V →
      e + (k + xs.length) * (6 * unitError u η V) ≤ 1 →
      LogWithin (e + (k + xs.length) * (6 * unitError u η V))
        (xs.foldl (Hmmc.logaddexp (α := RX ρ)) x) (a + ps.sum) := by
  have hε := h.unit_nonneg
  intro xs
  induction xs with
  | nil =>
    intro ps hf _ k x a hx _ _ _ _
    cases hf
    simpa using hx
  | cons y xs ih =>
    intro ps hf hp k x a hx ha hak hlog hsum
    cases hf with
    | @cons _ q _ ps hq hf =>
      obtain ⟨hqr, hq1⟩ := hp q List.mem_cons_self
      have ha0 := hx.nonneg
      have hq0 := hq.nonneg
      simp only [List.length_cons] at hlog hsum
      push_cast at hsum
      have hsmall : e + k * (6 * unitError u η V) ≤ 1 := by
        have : 0 ≤ ((xs.length : ℝ) + 1) * (6 * unitError u η V) := by positivity
        linarith
      have hr : CountRange V (a + q) := by
        intro hpos
        constructor
        · rcases ha0.eq_or_lt with h0 | h0
          · rw [← h0, zero_add] at hpos ⊢; exact (hqr hpos).1
          · exact (ha h0).1.trans (Real.log_le_log h0 (by linarith))
        · refine le_trans (Real.log_le_log hpos (?_ : a + q ≤ ((k + (xs.length + 1) : ℕ) : ℝ))) hlog
          push_cast
          have : (0 : ℝ) ≤ xs.length := Nat.cast_nonneg _
          linarith
      have hstep := h.logaddexp hx (hq.mono (by
        have : 0 ≤ (k : ℝ) * (6 * unitError u η V) := by positivity
        linarith)) (by positivity) hsmall ha hqr hr
      have := ih ps hf (fun p hp' => hp p (List.mem_cons_of_mem _ hp')) (k + 1) (Hmmc.logaddexp (α := RX ρ) x y)
        (a + q) (hstep.mono (by push_cast; linarith)) hr (by push_cast; linarith)
        (by rw [show k + 1 + xs.length = k + (xs.length + 1) by omega]; exact hlog)
        (by push_cast; linarith)
      simp only [List.foldl_cons, List.sum_cons, List.length_cons]
      push_cast at this ⊢
      rw [← add_assoc a q]
      exact this.mono (by linarith)

theorem RowsNear.get {e w : ℕ → ℝ} {rows : List (Row (RX ρ) nc)} {rs : List (Fin nc → ℝ)} {k : ℕ}
    (h : RowsNear e w k rows rs) : rows.length = rs.length ∧ ∀ (t : ℕ) (h1 : t < rows.length) (h2 : t < rs.length) i,
      LogWithin (e (k + t)) (rows[t] i) (rs[t] i) ∧ LogBound (w (k + t)) (rs[t] i) := by
  induction rows generalizing rs k with
  | nil => cases rs with
    | nil => exact ⟨rfl, fun t h1 => absurd h1 (by simp)⟩
    | cons _ _ => exact absurd h (by simp [RowsNear])
  | cons row rows ih => cases rs with
    | nil => exact absurd h (by simp [RowsNear])
    | cons r rs =>
      obtain ⟨h3, h4⟩ := h
      obtain ⟨h5, h6⟩ := ih h4
      refine ⟨by simp [h5], fun t h1 h2 i => ?_⟩
      cases t with
      | zero => simpa using h3 i
      | succ t =>
        have := h6 t (by simpa using h1) (by simpa using h2) i
        rw [show k + 1 + t = k + (t + 1) by omega] at this
        simpa using this

variable [NeZero nc]

/-- `forward_log`, `backward_log` and `compute_log_xi_sum` on a possible sequence. -/
theorem Spec.LogBudget.xi (h : LogBudget ρ u η Ω V nc N ℓ eb) {π : Fin nc → ℝ} {A : Fin nc → Fin nc → ℝ}
    (hA : ∀ i j, LogBound ℓ (A i j)) {n : ℕ} (hn : n ≤ N) (hlogN : Real.log N ≤ V) (hn0 : n ≠ 0)
    (hxi : (3 * N + 3) * stepError u η V nc eb ≤ 1) (lb : Fin (n + 1) → Row (RX ρ) nc)
    (B : Fin (n + 1) → Fin nc → ℝ) (hB : ∀ t i, LogBound ℓ (B t i)) (hlb : ∀ t i, LogWithin eb (lb t i) (B t i))
    (hπ : ∀ i, 0 ≤ π i)
    {fwd bwd : List (Row (RX ρ) nc)}
    (hf : RowsNear (fun t => (t + 1) * stepError u η V nc eb) (fun t => (t + 1) * stepSpan ℓ nc) 0 fwd
      (rfwd A π (List.ofFn B)))
    (hbw : RowsNear (fun t => ((n - t : ℕ) : ℝ) * stepError u η V nc eb) (fun t => ((n - t : ℕ) : ℝ) * stepSpan ℓ nc)
      0 bwd (rbwd A (List.ofFn B)))
    (hpos : 0 < likelihood π A B) :
    ∃ xi, computeLogXiSum (α := RX ρ) fwd (fun i j => XF.fin (A i j)) bwd (List.ofFn lb) = .ok xi ∧
      ∀ i j, LogWithin ((3 * n + 3) * stepError u η V nc eb) (xi i j) (expectedTransitions π A B i j) := by
  have hN : (n : ℝ) ≤ N := by exact_mod_cast hn
  have hn1 : (1 : ℝ) ≤ n := by exact_mod_cast Nat.one_le_iff_ne_zero.2 hn0
  have hε := h.range.unit_nonneg
  have hE := h.range.sumExp_nonneg
  have hu := h.range.acc.u_nonneg
  have hη := h.range.acc.η_nonneg
  have hlse := h.lse_nonneg
  have hκ := h.step_nonneg
  have hV := h.range.V_nonneg
  have heb := h.eb_nonneg
  have hsp := h.span_nonneg
  have h2ℓ := h.two_ℓ_le
  have hℓ := h.ℓ_nonneg
  have hst : stepError u η V nc eb = lseError u η V nc + 3 * unitError u η V + eb := rfl
  have hlse6 : 6 * unitError u η V ≤ lseError u η V nc := by
    have : 0 ≤ 2 * (nc : ℝ) * (u + η) := by positivity
    unfold lseError sumExpError; linarith
  have hdep := h.depth_le (k := n + 1) (by linarith)
  have htot := h.total_le (k := 2 * n + 3) (by linarith)
  have hxin : (3 * n + 3) * stepError u η V nc eb ≤ 1 := by nlinarith
  obtain ⟨hfl, hfg⟩ := hf.get
  obtain ⟨hbl, hbg⟩ := hbw.get
  have hfl' : fwd.length = n + 1 := by rw [hfl]; simp
  have hbl' : bwd.length = n + 1 := by rw [hbl]; simp
  have hne : fwd ≠ [] := by rintro rfl; simp at hfl'
  have hrne : rfwd A π (List.ofFn B) ≠ [] := by rw [List.ofFn_succ]; simp [rfwd]
  -- the log-likelihood, computed again from the last row
  have hlast := hf.getLast hne hrne
  have hlen : (rfwd A π (List.ofFn B)).length - 1 + 0 = n := by simp
  rw [hlen] at hlast
  have hfin := h.range.logsumexp (fun i => (hlast i).1)
    (fun i => (hlast i).2.mono hdep) (h.total_le (by linarith))
  have hbl := LogBound.sum fun i => (hlast i).2
  rw [rfwd_getLast_sum] at hfin hbl
  have hLb := (hbl.resolve_left hpos.ne').2
  have hcard := h.range.card
  refine ⟨_, by
    unfold computeLogXiSum
    rw [if_neg (by rw [hfl', hbl']; simp), dif_neg hne], fun i j => ?_⟩
  simp only [memo_eq]
  have hpm : ∀ t : Fin n, 0 ≤ pairMass π A B t i j := fun t => Finset.sum_nonneg fun z _ =>
    joint_nonneg hπ (fun i j => (hA i j).nonneg) (fun t i => (hB t i).nonneg) z
  have hps : ∀ t : Fin n, pairMass π A B t i j ≤ likelihood π A B := fun t =>
    Finset.sum_le_sum_of_subset_of_nonneg (Finset.filter_subset _ _) fun z _ _ =>
      joint_nonneg hπ (fun i j => (hA i j).nonneg) (fun t i => (hB t i).nonneg) z
  set L := logsumexp (α := RX ρ) (fwd.getLast hne) with hL
  set term : Row (RX ρ) nc × Row (RX ρ) nc × Row (RX ρ) nc → RX ρ := fun x =>
    (x.1 i + FloatLike.log (α := RX ρ) (XF.fin (A i j)) + x.2.1 j + x.2.2 j - L : RX ρ) with hterm
  have hfold : ∀ (l : List (Row (RX ρ) nc × Row (RX ρ) nc × Row (RX ρ) nc)) (acc : RX ρ),
      l.foldl (fun acc x => Hmmc.logaddexp (α := RX ρ) acc (term x)) acc =
        (l.map term).foldl (Hmmc.logaddexp (α := RX ρ)) acc := by
    intro l acc; rw [List.foldl_map]
  have hzl := zip_pairs π A B i j
  have hget : ∀ (t : ℕ) (ht : t < n),
      LogWithin ((2 * n + 3) * stepError u η V nc eb)
        (term (fwd[t]'(by omega), lb ⟨t + 1, by omega⟩, bwd[t + 1]'(by omega))) (pairPosterior π A B ⟨t, ht⟩ i j) ∧
      CountRange V (pairPosterior π A B ⟨t, ht⟩ i j) ∧ pairPosterior π A B ⟨t, ht⟩ i j ≤ 1 := by
    intro t ht
    have hpe : pairMass π A B ⟨t, ht⟩ i j = ((rfwd A π (List.ofFn B))[t]'(by simp; omega)) i * A i j *
        B ⟨t + 1, by omega⟩ j * ((rbwd A (List.ofFn B))[t + 1]'(by simp; omega)) j := by
      have := congrArg (fun l => l[t]?) hzl
      simp only [List.getElem?_map] at this
      rw [List.getElem?_eq_getElem (by simp; omega), List.getElem?_eq_getElem (by simp; omega)] at this
      simp only [List.getElem_zip, List.getElem_tail, List.getElem_ofFn, Option.map_some, Option.some.injEq] at this
      exact this.symm
    obtain ⟨f1, f2⟩ := hfg t (by omega) (by simp; omega) i
    obtain ⟨b1, b2⟩ := hbg (t + 1) (by omega) (by simp; omega) j
    simp only [zero_add] at f1 f2 b1 b2
    have hcast : ((n - (t + 1) : ℕ) : ℝ) = n - t - 1 := by rw [Nat.cast_sub (by omega)]; push_cast; ring
    rw [hcast] at b1 b2
    have htn : (t : ℝ) + 1 ≤ n := by exact_mod_cast ht
    have ht0 : (0 : ℝ) ≤ t := Nat.cast_nonneg _
    have m1 := f2.mul (hA i j)
    have m2 := m1.mul (hB ⟨t + 1, by omega⟩ j)
    have m3 := m2.mul b2
    have p1 : 0 ≤ (n - t - 1) * stepSpan ℓ nc := mul_nonneg (by linarith) hsp
    have p2 : 0 ≤ (n - t - 1) * stepError u η V nc eb := mul_nonneg (by linarith) hκ
    have w1 := h.range.add f1 (h.range.log ((hA i j).mono h.ℓ_le)) (by linarith) (m1.mono (by linarith))
    have w2 := h.range.add w1 (hlb ⟨t + 1, by omega⟩ j) (by linarith) (m2.mono (by linarith))
    have w3 := h.range.add w2 b1 (by linarith) (m3.mono (by linarith))
    rw [← hpe] at w3 m3
    have hm3 : ∀ h0 : 0 < pairMass π A B ⟨t, ht⟩ i j, |Real.log (pairMass π A B ⟨t, ht⟩ i j)| ≤ V := fun h0 =>
      (m3.resolve_left h0.ne').2.trans (by linarith)
    have w4 := h.range.sub w3 hfin hpos (by linarith) (by
      rcases (hpm ⟨t, ht⟩).eq_or_lt with h0 | h0
      · exact Or.inl (by rw [← h0, zero_div])
      · refine Or.inr ⟨div_pos h0 hpos, ?_⟩
        rw [Real.log_div h0.ne' hpos.ne']
        refine (abs_sub _ _).trans ?_
        linarith [hm3 h0])
    have hp1 : pairPosterior π A B ⟨t, ht⟩ i j ≤ 1 := (div_le_one hpos).2 (hps _)
    refine ⟨w4.mono (by linarith), fun h0 => ⟨?_, (Real.log_nonpos h0.le hp1).trans hV⟩, hp1⟩
    have h1 : 0 < pairMass π A B ⟨t, ht⟩ i j := by
      rcases (hpm ⟨t, ht⟩).eq_or_lt with h1 | h1
      · rw [pairPosterior, ← h1, zero_div] at h0; exact absurd h0 (lt_irrefl _)
      · exact h1
    rw [pairPosterior, Real.log_div h1.ne' hpos.ne']
    have := (abs_le.1 (hm3 h1)).1
    have := (abs_le.1 hLb).2
    linarith
  have hall : List.Forall₂ (fun x p => LogWithin ((2 * n + 3) * stepError u η V nc eb) x p)
      ((fwd.zip ((List.ofFn lb).tail.zip bwd.tail)).map term) (List.ofFn fun t => pairPosterior π A B t i j) := by
    rw [List.forall₂_iff_get]
    refine ⟨by simp [hfl', hbl'], fun t h1 h2 => ?_⟩
    have ht : t < n := by simpa using h2
    rw [List.get_ofFn]
    simp only [List.get_eq_getElem, List.getElem_map, List.getElem_zip, List.getElem_tail, List.getElem_ofFn]
    exact (hget t ht).1
  have hres := h.range.foldl_logaddexp (e := (2 * n + 3) * stepError u η V nc eb) (by positivity) _ _ hall
    (by
      intro p hp
      obtain ⟨t, rfl⟩ := List.mem_ofFn.1 hp
      exact (hget t.val t.isLt).2)
    0 XF.ninf 0 (Or.inl ⟨rfl, rfl⟩) (fun h => absurd h (lt_irrefl _)) (by simp) (by
      rw [hall.length_eq]
      simp only [List.length_ofFn, zero_add]
      exact (Real.log_le_log (by linarith) hN).trans hlogN) (by
      rw [hall.length_eq]
      simp only [List.length_ofFn, Nat.cast_zero, zero_add]
      nlinarith)
  rw [zero_add, List.sum_ofFn, hall.length_eq, List.length_ofFn, Nat.cast_zero, zero_add] at hres
  refine LogWithin.mono (e := _) ?_ (e' := _) (?_ : (2 * n + 3) * stepError u η V nc eb + n * (6 * unitError u η V) ≤ _)
  · rw [show expectedTransitions π A B i j = ∑ t, pairPosterior π A B t i j from rfl]
    rw [← hfold] at hres
    exact hres
  · nlinarith

end Verif
