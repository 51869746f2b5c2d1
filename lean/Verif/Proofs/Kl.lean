import Verif.Spec.Kl
import Verif.Proofs.Digamma
import Verif.Proofs.GaussianFull

/-!
# The closed forms are non-negative; the model computes them
-/

namespace Verif
open Spec XF FloatLike
open scoped Matrix

variable {n : ℕ}

/-! ## Inequalities -/

theorem klDirichlet_eq (q p : Fin n → ℝ) :
    klDirichlet q p = (∑ i, breg (p i) (q i)) - breg (∑ i, p i) (∑ i, q i) := by
  simp only [klDirichlet, breg, Finset.sum_sub_distrib, mul_sub, sub_mul, ← Finset.sum_mul]
  ring

theorem klDirichlet_nonneg {q p : Fin n → ℝ} (hq : ∀ i, 0 < q i) (hp : ∀ i, 0 < p i) :
    0 ≤ klDirichlet q p := by
  rw [klDirichlet_eq, sub_nonneg]
  rcases Nat.eq_zero_or_pos n with rfl | hn
  · simp
  · haveI : NeZero n := ⟨hn.ne'⟩
    exact breg_sum Finset.univ_nonempty (fun i _ => hq i) fun i _ => hp i

@[simp] theorem klDirichlet_self (q : Fin n → ℝ) : klDirichlet q q = 0 := by simp [klDirichlet]

theorem klNormal_nonneg {m v m' v' : ℝ} (hv : 0 < v) (hv' : 0 < v') : 0 ≤ klNormal m v m' v' := by
  have h := Real.add_one_le_exp (Real.log (v / v'))
  rw [Real.exp_log (div_pos hv hv'), Real.log_div hv.ne' hv'.ne'] at h
  have e : klNormal m v m' v' = (m - m') ^ 2 / (2 * v') +
      1 / 2 * (v / v' - (Real.log v - Real.log v' + 1)) := by
    simp only [klNormal, Real.log_div hv'.ne' hv.ne']
    field_simp
    ring
  rw [e]
  have : 0 ≤ (m - m') ^ 2 / (2 * v') := by positivity
  linarith

@[simp] theorem klNormal_self {m v : ℝ} (hv : 0 < v) : klNormal m v m v = 0 := by
  simp [klNormal, div_self hv.ne']
  field_simp
  norm_num

theorem klMvn_nonneg {m m' : Fin n → ℝ} {S S' : Matrix (Fin n) (Fin n) ℝ} (hS : S.PosDef) (hS' : S'.PosDef) :
    0 ≤ klMvn m S m' S' := by
  have h := Gaussian.log_det_sub_le hS' hS
  have hq : 0 ≤ (m - m') ⬝ᵥ (S'⁻¹ *ᵥ (m - m')) := by
    have := hS'.inv.posSemidef.dotProduct_mulVec_nonneg (m - m')
    simpa using this
  unfold klMvn
  rw [Real.log_div (Gaussian.det_pos hS').ne' (Gaussian.det_pos hS).ne']
  linarith

theorem klMvn_self {m : Fin n → ℝ} {S : Matrix (Fin n) (Fin n) ℝ} (hS : S.PosDef) : klMvn m S m S = 0 := by
  have hu : IsUnit S.det := isUnit_iff_ne_zero.2 (Gaussian.det_pos hS).ne'
  simp [klMvn, div_self (Gaussian.det_pos hS).ne', Matrix.nonsing_inv_mul _ hu]

/-- The gap of `x ln x`. -/
noncomputable def bregLog (b a : ℝ) : ℝ := b * Real.log (b / a) - (b - a)

theorem bregLog_eq {a b : ℝ} (ha : 0 < a) (hb : 0 < b) :
    bregLog b a = b * Real.log b - b * Real.log a - (b - a) := by
  rw [bregLog, Real.log_div hb.ne' ha.ne']; ring

/-- The tangent gap of `lnΓ(x − s)` dominates that of `x ln x`. -/
theorem bregLog_le {a b s : ℝ} (hs : 0 ≤ s) (ha : s < a) (hb : s < b) :
    bregLog b a ≤ breg (b - s) (a - s) := by
  have ha0 := hs.trans_lt ha
  have hb0 := hs.trans_lt hb
  let f : ℝ → ℝ := fun x => lnGamma (x - s) - (x * Real.log x - x)
  have hd : ∀ x, s < x → HasDerivAt f (digamma (x - s) - Real.log x) x := by
    intro x hx
    have h1 : HasDerivAt (fun x => lnGamma (x - s)) (digamma (x - s)) x := by
      have := (hasDerivAt_lnGamma (sub_pos.2 hx)).comp x ((hasDerivAt_id x).sub_const s)
      simpa [Function.comp_def] using this
    have h2 : HasDerivAt (fun x : ℝ => x * Real.log x - x) (Real.log x) x := by
      have := (Real.hasDerivAt_mul_log (hs.trans_lt hx).ne').sub (hasDerivAt_id x)
      have h3 : Real.log x + 1 - 1 = Real.log x := by ring
      rw [h3] at this
      exact this
    exact h1.sub h2
  have hmono : MonotoneOn (deriv f) (Set.Ioi s) := by
    intro x hx y hy hxy
    rw [(hd x hx).deriv, (hd y hy).deriv]
    have hx' : 0 < x - s := sub_pos.2 hx
    have hy' : 0 < y - s := sub_pos.2 hy
    have h1 := digamma_sub_log_mono hx' (sub_le_sub_right hxy s)
    have h2 : Real.log (x - s) + Real.log y ≤ Real.log (y - s) + Real.log x := by
      rw [← Real.log_mul hx'.ne' (hs.trans_lt hy).ne', ← Real.log_mul hy'.ne' (hs.trans_lt hx).ne']
      refine Real.log_le_log (mul_pos hx' (hs.trans_lt hy)) ?_
      nlinarith
    linarith
  have hconv : ConvexOn ℝ (Set.Ioi s) f := by
    refine MonotoneOn.convexOn_of_deriv (convex_Ioi s) ?_ ?_ ?_
    · exact fun x hx => (hd x hx).continuousAt.continuousWithinAt
    · rw [interior_Ioi]; exact fun x hx => (hd x hx).differentiableAt.differentiableWithinAt
    · rwa [interior_Ioi]
  have key : f a + (b - a) * (digamma (a - s) - Real.log a) ≤ f b := by
    rcases lt_trichotomy a b with h | h | h
    · have := hconv.le_slope_of_hasDerivAt ha hb h (hd a ha)
      rw [slope_def_field, le_div_iff₀ (by linarith)] at this
      linarith
    · subst h; simp
    · have := hconv.slope_le_of_hasDerivAt hb ha h (hd a ha)
      rw [slope_def_field, div_le_iff₀ (by linarith)] at this
      linarith
  rw [bregLog_eq ha0 hb0]
  simp only [f] at key
  simp only [breg]
  have : b - s - (a - s) = b - a := by ring
  rw [this]
  linarith

/-- `−p ln u + q (u − 1)` is smallest at `u = p / q`. -/
theorem log_min {p q u : ℝ} (hp : 0 < p) (hq : 0 < q) (hu : 0 < u) :
    -bregLog p q ≤ -p * Real.log u + q * (u - 1) := by
  have h := Real.log_le_sub_one_of_pos (show 0 < q * u / p by positivity)
  rw [Real.log_div (by positivity) hp.ne', Real.log_mul hq.ne' hu.ne'] at h
  rw [bregLog_eq hq hp]
  have h2 := mul_le_mul_of_nonneg_left h hp.le
  have e : p * (q * u / p - 1) = q * u - p := by field_simp
  rw [e] at h2
  linarith

theorem klGamma_nonneg {b c b' c' : ℝ} (hb : 0 < b) (hc : 0 < c) (hb' : 0 < b') (hc' : 0 < c') :
    0 ≤ klGamma b c b' c' := by
  have h1 := bregLog_le le_rfl hb hb'
  have h2 := log_min hb' hb (div_pos hc' hc)
  rw [Real.log_div hc'.ne' hc.ne'] at h2
  simp only [sub_zero, breg] at h1
  have e : klGamma b c b' c' = lnGamma b' - lnGamma b - (b' - b) * digamma b +
      (-b' * (Real.log c' - Real.log c) + b * (c' / c - 1)) := by
    rw [klGamma, Real.log_div hc.ne' hc'.ne']
    field_simp
    ring
  rw [e]
  linarith

@[simp] theorem klGamma_self {b c : ℝ} (hc : 0 < c) : klGamma b c b c = 0 := by
  simp [klGamma, div_self hc.ne']

theorem trace_log_min {S S' : Matrix (Fin n) (Fin n) ℝ} (hS : S.PosDef) (hS' : S'.PosDef) {p q : ℝ}
    (hp : 0 < p) (hq : 0 < q) :
    -(n * bregLog p q) ≤ p * Real.log (S.det / S'.det) + q * ((S' * S⁻¹).trace - n) := by
  have hk : 0 < q / p := div_pos hq hp
  have h := Gaussian.log_det_sub_le hS (hS'.smul hk)
  rw [Matrix.det_smul, Fintype.card_fin, Real.log_mul (by positivity) (Gaussian.det_pos hS').ne', Real.log_pow,
    Real.log_div hq.ne' hp.ne', Matrix.mul_smul, Matrix.trace_smul, Matrix.trace_mul_comm, smul_eq_mul] at h
  have h2 := mul_le_mul_of_nonneg_left h hp.le
  rw [bregLog_eq hq hp, Real.log_div (Gaussian.det_pos hS).ne' (Gaussian.det_pos hS').ne']
  have e : p * (q / p * (S' * S⁻¹).trace - n) = q * (S' * S⁻¹).trace - p * n := by field_simp
  rw [e] at h2
  linarith

theorem klWishart_nonneg {ν ν' : ℝ} {S S' : Matrix (Fin n) (Fin n) ℝ} (hS : S.PosDef) (hS' : S'.PosDef)
    (hν : (n : ℝ) - 1 < ν) (hν' : (n : ℝ) - 1 < ν') (h0 : 0 < ν) (h0' : 0 < ν') :
    0 ≤ klWishart ν S ν' S' := by
  have h1 := trace_log_min hS hS' (half_pos h0') (half_pos h0)
  have h2 : ∀ i : Fin n, bregLog (ν' / 2) (ν / 2) ≤
      lnGamma ((ν' - i) / 2) - lnGamma ((ν - i) / 2) + (ν - ν') / 2 * digamma ((ν - i) / 2) := by
    intro i
    have hi : (i : ℝ) + 1 ≤ n := by exact_mod_cast i.2
    have := bregLog_le (s := (i : ℝ) / 2) (a := ν / 2) (b := ν' / 2) (by positivity) (by linarith) (by linarith)
    simp only [breg, ← sub_div] at this
    refine this.trans (le_of_eq ?_)
    ring
  have h3 := Finset.sum_le_sum fun (i : Fin n) (_ : i ∈ Finset.univ) => h2 i
  rw [Finset.sum_const, Finset.card_univ, Fintype.card_fin, nsmul_eq_mul] at h3
  unfold klWishart
  linarith

theorem klWishart_self {ν : ℝ} {S : Matrix (Fin n) (Fin n) ℝ} (hS : S.PosDef) : klWishart ν S ν S = 0 := by
  have hu : IsUnit S.det := isUnit_iff_ne_zero.2 (Gaussian.det_pos hS).ne'
  simp [klWishart, div_self (Gaussian.det_pos hS).ne', Matrix.mul_nonsing_inv _ hu]

/-! ## The model computes them -/

/-- The library routines exist. -/
noncomputable def Sci.real : Sci XF where
  gammaln
    | fin x => fin (lnGamma x)
    | _ => XF.nan
  digamma
    | fin x => fin (Spec.digamma x)
    | _ => XF.nan
  inv {n} a :=
    let M : Matrix (Fin n) (Fin n) ℝ := fun i j => match a i j with
      | fin x => x
      | _ => 0
    if M.det = 0 then .error .linAlgError else .ok fun i j => fin (M⁻¹ i j)
  slogdet {n} a :=
    let M : Matrix (Fin n) (Fin n) ℝ := fun i j => match a i j with
      | fin x => x
      | _ => 0
    if M.det = 0 then (fin 0, ninf) else (fin (SignType.sign M.det : ℝ), fin (Real.log |M.det|))

theorem Sci.real_exact : Sci.real.Exact where
  gammaln _ _ := rfl
  digamma _ _ := rfl
  inv M h := by
    show (if Matrix.det (fun i j => M i j) = 0 then _ else _) = _
    rw [if_neg h]
  slogdet M h := by
    show (if Matrix.det (fun i j => M i j) = 0 then _ else _) = _
    rw [if_neg h]
  slogdet_zero M h := by
    show (if Matrix.det (fun i j => M i j) = 0 then _ else _) = _
    rw [if_pos h]

namespace Kl
variable {sci : Sci XF} (hsci : sci.Exact)
include hsci

theorem dirichlet_fin [NeZero n] {q p : Fin n → ℝ} (hq : ∀ i, 0 < q i) (hp : ∀ i, 0 < p i) :
    dirichlet sci (fun i => fin (q i)) (fun i => fin (p i)) = fin (klDirichlet q p) := by
  have hqs : 0 < ∑ i, q i := Finset.sum_pos (fun i _ => hq i) Finset.univ_nonempty
  have hps : 0 < ∑ i, p i := Finset.sum_pos (fun i _ => hp i) Finset.univ_nonempty
  simp only [dirichlet, sumF_fin, hsci.gammaln _ hqs, hsci.gammaln _ hps, hsci.digamma _ hqs,
    fun i => hsci.gammaln _ (hq i), fun i => hsci.gammaln _ (hp i), fun i => hsci.digamma _ (hq i),
    fin_sub, fin_mul, fin_add]
  rfl

theorem logdet_fin {M : Matrix (Fin n) (Fin n) ℝ} (h : 0 < M.det) :
    logdet sci (fun i j => fin (M i j)) = fin (Real.log M.det) := by
  simp [logdet, hsci.slogdet M h.ne', sign_pos h, abs_of_pos h]

omit hsci in
theorem trace_fin (M : Matrix (Fin n) (Fin n) ℝ) : trace (fun i j => fin (M i j)) = fin M.trace := by
  simp [trace, Matrix.trace, sumF_fin]

omit hsci in
theorem matMul_fin (M N : Matrix (Fin n) (Fin n) ℝ) :
    matMul (fun i j => fin (M i j)) (fun i j => fin (N i j)) = fun i j => fin ((M * N) i j) := by
  funext i j
  simp [matMul, Matrix.mul_apply, sumF_fin]

omit hsci in
theorem quad_fin (v : Fin n → ℝ) (M : Matrix (Fin n) (Fin n) ℝ) :
    quad (fun i => fin (v i)) (fun i j => fin (M i j)) = fin (v ⬝ᵥ (M *ᵥ v)) := by
  simp only [quad, sumF_fin, fin_mul]
  congr 1
  rw [Matrix.dotProduct_mulVec, dotProduct]
  rfl

theorem mvn_fin (m m' : Fin n → ℝ) {S S' : Matrix (Fin n) (Fin n) ℝ} (hS : S.PosDef) (hS' : S'.PosDef) :
    mvn sci (fun i => fin (m i)) (fun i j => fin (S i j)) (fun i => fin (m' i)) (fun i j => fin (S' i j)) =
      .ok (fin (klMvn m S m' S')) := by
  have h := Gaussian.det_pos hS
  have h' := Gaussian.det_pos hS'
  simp only [mvn, hsci.inv S' h'.ne', bind, Except.bind, logdet_fin hsci h, logdet_fin hsci h', matMul_fin, trace_fin,
    pure, Except.pure, fin_sub, quad_fin (fun i => m i - m' i), fin_add, ofRat_def, fin_mul, ofNat'_def]
  congr 2
  rw [klMvn, Real.log_div h'.ne' h.ne']
  push_cast
  rfl

omit hsci in
theorem normal_fin (m m' : ℝ) {v v' : ℝ} (hv : 0 < v) (hv' : 0 < v') :
    normal (fin m) (fin v) (fin m') (fin v') = .ok (fin (klNormal m v m' v')) := by
  have h := klNormal_nonneg (m := m) (m' := m') hv hv'
  have e : (log (fin v' / fin v) / ofNat' 2 + (Gaussian.sq (fin m - fin m') + fin v) / (ofNat' 2 * fin v')
      - ofRat (1 / 2) : XF) = fin (klNormal m v m' v') := by
    rw [fin_div _ _ hv.ne', lg_def, lg_pos (div_pos hv' hv)]
    simp only [Gaussian.sq, fin_sub, fin_mul, fin_add, ofNat'_def, ofRat_def]
    rw [fin_div _ _ (by norm_num), fin_div _ _ (by positivity), fin_add, fin_sub]
    congr 1
    rw [klNormal]
    push_cast
    ring
  rw [normal, e, assertNonneg]
  simp [h]

theorem gamma_fin {b c b' c' : ℝ} (hb : 0 < b) (hc : 0 < c) (hb' : 0 < b') (hc' : 0 < c') :
    gamma sci (fin b) (fin c) (fin b') (fin c') = .ok (fin (klGamma b c b' c')) := by
  have h := klGamma_nonneg hb hc hb' hc'
  have e : ((fin b - fin b') * sci.digamma (fin b) - sci.gammaln (fin b) + sci.gammaln (fin b')
      + fin b' * (log (fin c) - log (fin c')) + fin b * (fin c' - fin c) / fin c : XF) =
      fin (klGamma b c b' c') := by
    rw [lg_def, lg_def, lg_pos hc, lg_pos hc', hsci.gammaln _ hb, hsci.gammaln _ hb', hsci.digamma _ hb]
    simp only [fin_sub, fin_mul, fin_add]
    rw [fin_div _ _ hc.ne', fin_add, klGamma, Real.log_div hc.ne' hc'.ne']
  rw [gamma, e, assertNonneg]
  simp [h]

theorem half_logdet {S : Matrix (Fin n) (Fin n) ℝ} (h : 0 < S.det) :
    logdet sci (half fun i j => fin (S i j)) = fin (Real.log S.det - n * Real.log 2) := by
  have e : (half fun i j => fin (S i j)) = fun i j => fin (((1 / 2 : ℝ) • S) i j) := by
    funext i j
    simp only [half, ofNat'_def]
    rw [fin_div _ _ (by norm_num)]
    simp [div_eq_inv_mul]
  have hd : ((1 / 2 : ℝ) • S).det = (1 / 2) ^ n * S.det := by rw [Matrix.det_smul, Fintype.card_fin]
  rw [e, logdet_fin hsci (by rw [hd]; positivity), hd, Real.log_mul (by positivity) h.ne', Real.log_pow, one_div,
    Real.log_inv]
  congr 1; ring

theorem wishart_fin {ν ν' : ℝ} {S S' : Matrix (Fin n) (Fin n) ℝ} (hS : S.PosDef) (hS' : S'.PosDef)
    (hν : (n : ℝ) - 1 < ν) (hν' : (n : ℝ) - 1 < ν') :
    wishart sci (fin ν) (fun i j => fin (S i j)) (fin ν') (fun i j => fin (S' i j)) =
      .ok (fin (klWishart ν S ν' S')) := by
  have h := Gaussian.det_pos hS
  have h' := Gaussian.det_pos hS'
  have two : (2 : ℝ) ≠ 0 := two_ne_zero
  have hpos : ∀ {μ : ℝ}, (n : ℝ) - 1 < μ → ∀ i : Fin n, 0 < (μ - i) / 2 := fun {μ} hμ i => by
    have hi : (i : ℝ) + 1 ≤ n := by exact_mod_cast i.2
    linarith
  have d : ∀ a : ℝ, (fin a / fin ((2:ℕ):ℝ) : XF) = fin (a / 2) := fun a => by
    rw [fin_div _ _ (by norm_num)]; norm_num
  have d4 : ∀ a : ℝ, (fin a / fin ((4:ℕ):ℝ) : XF) = fin (a / 4) := fun a => by
    rw [fin_div _ _ (by norm_num)]; norm_num
  simp only [wishart, hsci.inv S h.ne', bind, Except.bind, pure, Except.pure, wishartE, wishartLogZ,
    half_logdet hsci h, half_logdet hsci h', matMul_fin, trace_fin, ofNat'_def, one_def, fin_sub, d,
    fun i => hsci.gammaln _ (hpos hν i), fun i => hsci.gammaln _ (hpos hν' i), fun i => hsci.digamma _ (hpos hν i),
    sumF_fin, pi_def, lg_def, lg_pos Real.pi_pos, fin_neg, fin_add, fin_mul, d4]
  congr 2
  simp only [klWishart, Real.log_div h.ne' h'.ne', Finset.sum_add_distrib, Finset.sum_sub_distrib, ← Finset.mul_sum]
  ring

end Kl
end Verif
