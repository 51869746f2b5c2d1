import Verif.Proofs.Roundoff
import Verif.Proofs.Split

/-!
# Roundoff over whole sequences and data sets
-/

set_option autoImplicit false

namespace Verif
open FloatLike Hmmc Spec

variable {τ : Trapped} {nc n : ℕ}

/-- Ratios of consecutive prefix likelihoods. -/
noncomputable def preds : ℝ → List ℝ → List ℝ
  | _, [] => []
  | C, L :: Ls => L / C :: preds L Ls

theorem preds_ofFn {m : ℕ} (C : ℝ) (L : Fin (m + 1) → ℝ) :
    preds C (List.ofFn L) =
      List.ofFn (Fin.cases (L 0 / C) fun t : Fin m => L t.succ / L t.castSucc : Fin (m + 1) → ℝ) := by
  induction m generalizing C with
  | zero => simp [preds]
  | succ m ih =>
    rw [List.ofFn_succ, List.ofFn_succ (n := m + 1)]
    simp only [preds]
    rw [ih]
    congr 1
    congr 1
    funext t
    refine Fin.cases ?_ (fun t => ?_) t
    · rfl
    · rfl

theorem preds_predictive (p : Fin nc → ℝ) (A : Fin nc → Fin nc → ℝ) (B : Fin (n + 1) → Fin nc → ℝ) :
    preds 1 ((rfwd A p (List.ofFn B)).map rowSum) = List.ofFn (predictive p A B) := by
  rw [map_rowSum_eq, preds_ofFn, div_one]; rfl

theorem Trapped.loss_nonneg (τ : Trapped) : 0 ≤ loss τ.u :=
  neg_nonneg.2 (Real.log_nonpos τ.q_pos.le τ.q_le)

theorem loss_eq (τ : Trapped) : loss τ.u = -Real.log τ.q := rfl

/-- The scalings are the inverse predictive probabilities, up to roundoff. -/
theorem FwdRows.scaling_log {d k K M : ℕ} {P C : ℝ} {cs : List ℝ} {fs : List (Row (TX τ) nc)}
    {as : List (Fin nc → ℝ)} (h : FwdRows d k P cs fs as) (hP : 0 < P) (hC : 0 < C)
    (hPC : Within τ.q M (P * C) 1) (hM : M ≤ K) (hK : ∀ j < as.length, k + j * d + nc ≤ K) :
    (cs.map fun c => |Real.log c|).sum ≤
        ((preds C (as.map rowSum)).map fun p => |Real.log p|).sum + as.length * (2 * K * loss τ.u) ∧
      ∀ p ∈ preds C (as.map rowSum), τ.q ^ (2 * K + 2) * eps ≤ p := by
  induction cs generalizing k P C M fs as with
  | nil => cases fs <;> cases as <;> simp_all [FwdRows, preds]
  | cons c cs ih =>
    cases fs with
    | nil => exact h.elim
    | cons f fs =>
    cases as with
    | nil => exact h.elim
    | cons a as =>
      obtain ⟨⟨hc, -, hw, he⟩, hrest⟩ := h
      have hk : k + nc ≤ K := by simpa using hK 0 (by simp)
      have hw := Within.mono (τ := τ) hw hk zero_le_one
      have hL : 0 < rowSum a := by
        have := Within.right_pos (Within.symm hw) one_pos
        exact (mul_pos_iff_of_pos_left (mul_pos hP hc)).1 this
      have hPc := mul_pos hP hc
      have l1 := hw.log (mul_pos hPc hL) one_pos
      have l2 := hPC.log (mul_pos hP hC) one_pos
      have hM' : (M : ℝ) * -Real.log τ.q ≤ K * -Real.log τ.q :=
        mul_le_mul_of_nonneg_right (by exact_mod_cast hM) (by have := τ.loss_nonneg; rwa [loss_eq] at this)
      rw [Real.log_one, sub_zero, Real.log_mul hPc.ne' hL.ne', Real.log_mul hP.ne' hc.ne'] at l1
      rw [Real.log_one, sub_zero, Real.log_mul hP.ne' hC.ne'] at l2
      obtain ⟨i1, i2⟩ := ih hrest hPc hL hw le_rfl fun j hj => by
        have := hK (j + 1) (by simpa using hj)
        rw [Nat.add_mul, one_mul] at this; omega
      simp only [List.map_cons, List.sum_cons, preds, List.length_cons, Nat.cast_add, Nat.cast_one]
      constructor
      · have : |Real.log c| ≤ |Real.log (rowSum a / C)| + 2 * K * loss τ.u := by
          rw [Real.log_div hL.ne' hC.ne', loss_eq]
          have e : Real.log c = (Real.log P + Real.log c + Real.log (rowSum a)) - (Real.log P + Real.log C)
            - (Real.log (rowSum a) - Real.log C) := by ring
          rw [e]
          refine (abs_sub _ _).trans ?_
          have := (abs_sub (Real.log P + Real.log c + Real.log (rowSum a)) (Real.log P + Real.log C))
          linarith
        linarith
      · intro p hp
        rcases List.mem_cons.1 hp with rfl | hp
        · have h1 : τ.q ^ K ≤ P * c * rowSum a := by simpa using hw.1
          have h2 : τ.q ^ K * (P * C) ≤ 1 := (Within.mono (τ := τ) hPC hM zero_le_one).2
          rw [le_div_iff₀ hC]
          have hq := τ.qpow_pos K
          have : τ.q ^ (2 * K + 2) * eps * C * (P * c) ≤ rowSum a * (P * c) := by
            calc τ.q ^ (2 * K + 2) * eps * C * (P * c)
                = τ.q ^ K * ((τ.q ^ K * (P * C)) * (τ.q ^ 2 * eps * c)) := by ring
              _ ≤ τ.q ^ K * 1 := by
                refine mul_le_mul_of_nonneg_left ?_ hq.le
                exact mul_le_one₀ h2 (by have := eps_pos; have := τ.q_pos; positivity) he
              _ ≤ rowSum a * (P * c) := by rw [mul_one]; linarith
          exact le_of_mul_le_mul_right this hPc
        · exact i2 p hp

/-! ## One sequence -/

section One
variable {Obs D : Type} [NeZero nc] {m : Hmm (TX τ) nc Obs} {obs : D → Obs} {kp ka kb : ℕ}
  {π : Fin nc → ℝ} {A : Fin nc → Fin nc → ℝ} {b : D → Fin nc → ℝ}

theorem Spec.Approximates.frame (h : Approximates m obs kp ka kb π A b) (x : Fin (n + 1) → D) :
    ∃ rows, m.computeLikelihood (List.ofFn fun t => obs (x t)) = .ok rows ∧
      List.Forall₂ (fun (row : Row (TX τ) nc) (v : Fin nc → ℝ) => ∀ i, Near kb (row i) (v i)) rows
        (List.ofFn fun t => b (x t)) := by
  obtain ⟨rows, hr, hf⟩ := h.lik (List.ofFn x)
  refine ⟨rows, ?_, ?_⟩
  · rw [← hr, List.map_ofFn]; rfl
  · rw [show (List.ofFn fun t => b (x t)) = (List.ofFn x).map b by rw [List.map_ofFn]; rfl,
      List.forall₂_map_right_iff]
    exact hf

/-- The likelihood against the scalings. -/
theorem FwdRows.likelihood {k d : ℕ} {cs : List ℝ} {fs : List (Row (TX τ) nc)}
    {B : Fin (n + 1) → Fin nc → ℝ} (h : FwdRows d k 1 cs fs (rfwd A π (List.ofFn B))) :
    Within τ.q (k + n * d + nc) (cs.prod * likelihood π A B) 1 := by
  have := h.total (by rw [List.ofFn_succ]; simp [rfwd]) 0
  rw [getLastD_map_rowSum, one_mul, length_rfwd, List.length_ofFn, Nat.add_sub_cancel] at this
  exact this

theorem FwdRows.likelihood_pos {k d : ℕ} {cs : List ℝ} {fs : List (Row (TX τ) nc)}
    {B : Fin (n + 1) → Fin nc → ℝ} (h : FwdRows d k 1 cs fs (rfwd A π (List.ofFn B))) :
    0 < Spec.likelihood π A B :=
  (mul_pos_iff_of_pos_left (List.prod_pos h.scalings_pos)).1 (Within.left_pos h.likelihood one_pos)

theorem scoreOneScaling_near (hm : τ.HasMinSum) (h : Approximates m obs kp ka kb π A b)
    (x : Fin (n + 1) → D) {cp : Bool} {lp : TX τ} {g : List (Row (TX τ) nc)}
    (ho : scoreOneScaling m cp (List.ofFn fun t => obs (x t)) = .ok (lp, g)) (hn : lp ≠ TX.nan τ) :
    0 < likelihood π A (fun t => b (x t)) ∧
    (∃ r, lp = TX.fin τ r ∧ |r - Real.log (likelihood π A fun t => b (x t))| ≤
      scoreError τ.u (n + 1) (steps nc n kp ka kb) (surprise π A fun t => b (x t))) ∧
    (∀ t, τ.q ^ (2 * steps nc n kp ka kb + 2) * eps ≤ predictive π A (fun t => b (x t)) t) ∧
    (cp = true → List.Forall₂ (fun (g : Row (TX τ) nc) (p : Fin nc → ℝ) => ∀ i,
        Near (2 * steps nc n kp ka kb + 2) (g i) (p i)) g
      (List.ofFn fun t i => posterior π A (fun t => b (x t)) t i)) := by
  obtain ⟨rows, hr, hb⟩ := h.frame x
  unfold scoreOneScaling at ho
  simp only [hr, bind, Except.bind] at ho
  set B : Fin (n + 1) → Fin nc → ℝ := fun t => b (x t) with hB
  split at ho
  · cases ho
  next v hfw =>
  obtain ⟨lp', fs, scs⟩ := v
  have hlp : lp' = lp := by
    cases cp
    · cases ho; rfl
    · simp only [if_true] at ho
      split at ho
      · cases ho
      · cases ho; rfl
  subst hlp
  obtain ⟨cs, rfl, hF, hl⟩ := forwardScaling_near hm h.startprob h.transmat hb hfw hn
  have hc := hF.scalings_pos
  have hlen : cs.length = n + 1 := by have := hF.length.1; simpa using this
  have hL := hF.likelihood_pos
  have hW := hF.likelihood
  have hstep : kp + kb + 2 + n * (ka + kb + nc + 3) + nc = steps nc n kp ka kb := rfl
  rw [hstep] at hW
  have hsc := hF.scaling_log (K := steps nc n kp ka kb) (M := 0) (C := 1) one_pos one_pos
    (by rw [one_mul]; exact Within.refl) (Nat.zero_le _) (fun j hj => by
      have : j ≤ n := by simpa [Nat.lt_succ_iff] using hj
      have := Nat.mul_le_mul_right (ka + kb + nc + 3) this
      unfold steps; omega)
  rw [preds_predictive, length_rfwd, List.length_ofFn] at hsc
  obtain ⟨hsum, hpred⟩ := hsc
  refine ⟨hL, ?_, fun t => hpred _ (List.mem_ofFn.2 ⟨t, rfl⟩), ?_⟩
  · obtain ⟨r, hr, hb⟩ := logFold (τ := τ) cs hc (a := 0) (S := 0) (W := 0) (m := 1) le_rfl (by simp)
      (by simp) hl hn
    refine ⟨r, hr, ?_⟩
    have hlog := hW.log (mul_pos (List.prod_pos hc) hL) one_pos
    rw [Real.log_one, sub_zero, Real.log_mul (List.prod_pos hc).ne' hL.ne',
      Real.log_list_prod fun c h => (hc c h).ne', ← loss_eq] at hlog
    rw [hlen, zero_add, zero_sub, Nat.add_comm 1] at hb
    rw [List.map_ofFn, List.sum_ofFn] at hsum
    have hpow : 0 ≤ (1 + τ.u) ^ (n + 1 + 1) - 1 :=
      sub_nonneg.2 (one_le_pow₀ (by have := τ.u_nonneg; linarith))
    have hb' := hb.trans (mul_le_mul_of_nonneg_left hsum hpow)
    unfold scoreError
    rw [show r - Real.log (likelihood π A B) = (r - -(cs.map Real.log).sum) -
      ((cs.map Real.log).sum + Real.log (likelihood π A B)) by ring]
    exact (abs_sub _ _).trans (add_le_add hb' hlog)
  · rintro rfl
    simp only [if_true] at ho
    split at ho
    · cases ho
    next ws hbw =>
    cases ho
    unfold backwardScaling at hbw
    split at hbw
    · cases hbw
    split at hbw
    · cases hbw
    cases hbw
    have hBw := backwardScalingLoop_near h.transmat hb cs (by simpa using hlen) hc
    have := posteriors_near one_pos hF hBw hL (fun v hv => by
      rw [zip_fwd_bwd, List.mem_ofFn] at hv
      obtain ⟨t, rfl⟩ := hv
      exact (likelihood_eq_sum_stateMass _ _ _ t).symm)
    rw [zip_fwd_bwd, length_rfwd, List.length_ofFn, Nat.add_sub_cancel] at this
    rw [show (List.ofFn fun t i => posterior π A B t i) =
      (List.ofFn fun t => stateMass π A B t).map fun (v : Fin nc → ℝ) i => v i / likelihood π A B by
        rw [List.map_ofFn]; rfl, List.forall₂_map_right_iff]
    refine this.imp fun g v hgv i => (hgv i).mono ?_
    have : 1 ≤ nc := Nat.one_le_iff_ne_zero.2 (NeZero.ne nc)
    unfold steps
    omega
end One

/-! ## Where the kernel raises -/

theorem scaleRow_ok (hm : τ.HasMinSum) {row : Row (TX τ) nc} {a : Fin nc → ℝ} {P C : ℝ} {k K M : ℕ}
    (h : ∀ i, Near k (row i) (P * a i)) (hC : 0 < C) (hPC : Within τ.q M (P * C) 1)
    (hM : M ≤ K) (hk : k + nc ≤ K) (hp : eps ≤ τ.q ^ (2 * K + 1) * (rowSum a / C)) :
    ∃ c f, scaleRow row = .ok (c, f) ∧ (c = TX.nan τ → ∀ i, f i = TX.nan τ) := by
  obtain ⟨x, hm, m0, hme⟩ := minSum_TX hm
  unfold scaleRow
  simp only [memo_eq, hm]
  have hs : Near (k + nc) (sumF row) (P * rowSum a) := by
    have := Near.sumF h
    rwa [← Finset.mul_sum] at this
  have hlt : FloatLike.lt (sumF row) (TX.fin τ x) = false := by
    rcases hs with hs | ⟨s, hs, hy, hw⟩
    · rw [hs]; exact TX.nan_lt _
    · rw [hs, TX.lt_fin, decide_eq_false_iff_not, not_lt]
      have hL : 0 < rowSum a / C := by
        have := eps_pos.trans_le hp
        exact (mul_pos_iff_of_pos_left (τ.qpow_pos _)).1 this
      have h1 : τ.q ^ K ≤ P * C := by
        have := (Within.mono (τ := τ) hPC hM zero_le_one).1
        rwa [mul_one] at this
      have h2 := (Within.mono (τ := τ) hw hk hy).1
      have h3 : τ.q * x ≤ eps := by have := hme.2; rwa [pow_one] at this
      have h4 : τ.q * x ≤ τ.q * (τ.q ^ K * (τ.q ^ K * (rowSum a / C))) := by
        refine (h3.trans hp).trans_eq ?_
        rw [show 2 * K + 1 = K + K + 1 by omega, pow_succ, pow_add]; ring
      have h5 := le_of_mul_le_mul_left h4 τ.q_pos
      refine h5.trans (le_trans ?_ h2)
      refine mul_le_mul_of_nonneg_left ?_ (τ.qpow_pos K).le
      calc τ.q ^ K * (rowSum a / C) ≤ P * C * (rowSum a / C) := mul_le_mul_of_nonneg_right h1 hL.le
        _ = P * rowSum a := by field_simp
  simp only [hlt, Bool.false_eq_true, if_false]
  refine ⟨_, _, rfl, fun hc i => ?_⟩
  simp only [hc]
  exact TX.mul_nan _

theorem sumF_nan [NeZero nc] {f : Fin nc → TX τ} (h : ∀ i, f i = TX.nan τ) : sumF f = TX.nan τ := by
  have stuck : ∀ (l : List (Fin nc)), l.foldl (fun acc i => acc + f i) (TX.nan τ) = TX.nan τ := by
    intro l
    induction l with
    | nil => rfl
    | cons i l ih => simpa only [List.foldl_cons, TX.nan_add] using ih
  obtain ⟨k, rfl⟩ : ∃ k, nc = k + 1 := Nat.exists_eq_succ_of_ne_zero (NeZero.ne nc)
  unfold sumF
  rw [List.finRange_succ, List.foldl_cons, h, TX.add_nan]
  exact stuck _

/-- Once NaN, the lattice stays NaN and the kernel does not raise. -/
theorem forwardScalingLoop_nanRow [NeZero nc] (A : Mat (TX τ) nc) (bs : List (Row (TX τ) nc))
    {p : Row (TX τ) nc} (hp : ∀ i, p i = TX.nan τ) (lp : TX τ) :
    ∃ v, forwardScalingLoop A p lp bs = .ok v := by
  induction bs generalizing p lp with
  | nil => exact ⟨_, rfl⟩
  | cons b bs ih =>
    have hrow : ∀ j, fwdScalingRow A p b j = TX.nan τ := fun j => by
      unfold fwdScalingRow
      rw [sumF_nan fun i => by rw [hp, TX.nan_mul], TX.nan_mul]
    have hs : ∃ c f, scaleRow (fwdScalingRow A p b) = .ok (c, f) ∧ ∀ i, f i = TX.nan τ := by
      unfold scaleRow
      simp only [memo_eq, sumF_nan hrow, TX.nan_lt, Bool.false_eq_true, if_false]
      exact ⟨_, _, rfl, fun i => by simp only [hrow, TX.nan_mul]⟩
    obtain ⟨c, f, hs, hf⟩ := hs
    obtain ⟨v, hv⟩ := ih hf (lp - FloatLike.log c)
    simp only [forwardScalingLoop, memo_eq, hs]
    rw [hv]
    exact ⟨_, rfl⟩

theorem forwardScalingLoop_ok [NeZero nc] (hm : τ.HasMinSum) {A' : Mat (TX τ) nc}
    {A : Fin nc → Fin nc → ℝ} {ka kb : ℕ} (hA : ∀ i j, Near ka (A' i j) (A i j))
    {bs' : List (Row (TX τ) nc)} {bs : List (Fin nc → ℝ)}
    (hb : List.Forall₂ (fun b' b => ∀ i, Near kb (b' i) (b i)) bs' bs)
    {p' : Row (TX τ) nc} {r : Fin nc → ℝ} {P C : ℝ} (hP : 0 < P) (hC : 0 < C) {k K M : ℕ}
    (hp : ∀ i, Near k (p' i) (P * r i)) (hPC : Within τ.q M (P * C) 1) (hM : M ≤ K)
    (hK : ∀ j < bs.length, k + (j + 1) * (ka + kb + nc + 3) + nc ≤ K)
    (hpr : ∀ p ∈ preds C ((rfwd A (push A r) bs).map rowSum), eps ≤ τ.q ^ (2 * K + 1) * p)
    (lp : TX τ) :
    ∃ v, forwardScalingLoop A' p' lp bs' = .ok v := by
  induction hb generalizing p' r P C k M lp with
  | nil => exact ⟨_, rfl⟩
  | @cons b' b bs' bs hb0 _ ih =>
    simp only [rfwd, List.map_cons, preds, List.mem_cons, forall_eq_or_imp] at hpr
    have hk : k + (ka + kb + nc + 3) + nc ≤ K := by simpa using hK 0 (by simp)
    obtain ⟨c, f, hs, hnan⟩ := scaleRow_ok hm (fwdRow_near hA hb0 hp) hC hPC hM (by omega) hpr.1
    have hL : 0 < rowSum (fun i => push A r i * b i) := by
      have := (mul_pos_iff_of_pos_left (τ.qpow_pos _)).1 (eps_pos.trans_le hpr.1)
      exact (div_pos_iff_of_pos_right hC).1 this
    simp only [forwardScalingLoop, memo_eq, hs]
    rcases scaleRow_near hm hP (fwdRow_near hA hb0 hp) hs with rfl | ⟨c, rfl, hc, hf, hw, he⟩
    · obtain ⟨v, hv⟩ := forwardScalingLoop_nanRow A' bs' (hnan rfl) (lp - FloatLike.log (TX.nan τ))
      rw [hv]; exact ⟨_, rfl⟩
    · obtain ⟨v, hv⟩ := ih (mul_pos hP hc) hL hf hw (by omega) (fun j hj => by
        have := hK (j + 1) (by simpa using hj)
        rw [Nat.add_mul] at this ⊢
        rw [Nat.add_mul, one_mul] at this
        omega) hpr.2 (lp - FloatLike.log (TX.fin τ c))
      rw [hv]; exact ⟨_, rfl⟩

theorem forwardScaling_ok [NeZero nc] (hm : τ.HasMinSum) {π' : Row (TX τ) nc} {π : Fin nc → ℝ}
    {A' : Mat (TX τ) nc} {A : Fin nc → Fin nc → ℝ} {kp ka kb : ℕ} (hπ : ∀ i, Near kp (π' i) (π i))
    (hA : ∀ i j, Near ka (A' i j) (A i j)) {bs' : List (Row (TX τ) nc)} {B : Fin (n + 1) → Fin nc → ℝ}
    (hb : List.Forall₂ (fun b' b => ∀ i, Near kb (b' i) (b i)) bs' (List.ofFn B))
    (hpr : ∀ t, eps ≤ τ.q ^ (2 * steps nc n kp ka kb + 1) * predictive π A B t) :
    ∃ v, forwardScaling π' A' bs' = .ok v := by
  have hpr : ∀ p ∈ preds 1 ((rfwd A π (List.ofFn B)).map rowSum),
      eps ≤ τ.q ^ (2 * steps nc n kp ka kb + 1) * p := by
    rw [preds_predictive]
    intro p hp
    obtain ⟨t, rfl⟩ := List.mem_ofFn.1 hp
    exact hpr t
  rw [List.ofFn_succ] at hb hpr
  cases hb with
  | @cons b' _ bs' _ hb0 hbs =>
    simp only [rfwd, List.map_cons, preds, List.mem_cons, forall_eq_or_imp] at hpr
    have h0 : ∀ i, Near (kp + kb + 1) (π' i * b' i) (1 * (π i * B 0 i)) := fun i => by
      rw [one_mul]; exact (hπ i).mul (hb0 i)
    obtain ⟨c, f, hs, hnan⟩ := scaleRow_ok hm h0 one_pos (M := 0) (by rw [one_mul]; exact Within.refl)
      (Nat.zero_le _) (by unfold steps; omega) hpr.1
    have hL : 0 < rowSum (fun i => π i * B 0 i) := by
      have := (mul_pos_iff_of_pos_left (τ.qpow_pos _)).1 (eps_pos.trans_le hpr.1)
      exact (div_pos_iff_of_pos_right one_pos).1 this
    simp only [forwardScaling, memo_eq, hs]
    rcases scaleRow_near hm one_pos h0 hs with rfl | ⟨c, rfl, hc, hf, hw, he⟩
    · obtain ⟨v, hv⟩ := forwardScalingLoop_nanRow A' bs' (hnan rfl) (0 - FloatLike.log (TX.nan τ))
      rw [hv]; exact ⟨_, rfl⟩
    · obtain ⟨v, hv⟩ := forwardScalingLoop_ok hm hA hbs (mul_pos one_pos hc) hL hf hw
        (K := steps nc n kp ka kb) (by unfold steps; omega) (fun j hj => by
          have hj : j + 1 ≤ n := by simpa using hj
          have := Nat.mul_le_mul_right (ka + kb + nc + 3) hj
          unfold steps; omega) hpr.2 (0 - FloatLike.log (TX.fin τ c))
      rw [hv]; exact ⟨_, rfl⟩

end Verif
