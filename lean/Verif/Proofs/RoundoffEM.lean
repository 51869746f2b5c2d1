import Verif.Proofs.RoundoffSeq
import Verif.Proofs.Categorical
import Verif.Model.Categorical

/-!
# Roundoff through an EM iteration
-/

set_option autoImplicit false

namespace Verif
open FloatLike Hmmc Spec

variable {τ : Trapped} {nc n : ℕ}

/-! ## The E-step -/

section One
variable {Obs D : Type} [NeZero nc] {m : Hmm (TX τ) nc Obs} {obs : D → Obs} {kp ka kb : ℕ}
  {π : Fin nc → ℝ} {A : Fin nc → Fin nc → ℝ} {b : D → Fin nc → ℝ}

theorem fitScaling_near (hm : τ.HasMinSum) (h : Approximates m obs kp ka kb π A b)
    (x : Fin (n + 1) → D) {r : FitOne (TX τ) nc}
    (ho : fitScaling m (List.ofFn fun t => obs (x t)) = .ok r) (hn : r.logProb ≠ TX.nan τ) :
    List.Forall₂ (fun (g : Row (TX τ) nc) (p : Fin nc → ℝ) => ∀ i,
        Near (2 * steps nc n kp ka kb + 2) (g i) (p i)) r.posteriors
      (List.ofFn fun t i => posterior π A (fun t => b (x t)) t i) ∧
    r.lattice.length = n + 1 ∧
    (1 ≤ n → ∃ xi, xiSum .scaling m.transmat r = .ok xi ∧ ∀ i j,
      Near (2 * steps nc n kp ka kb + n) (xi i j)
        (expectedTransitions π A (fun t => b (x t)) i j)) := by
  obtain ⟨rows, hr, hb⟩ := h.frame x
  have hrl : rows.length = n + 1 := by simpa using hb.length_eq
  unfold fitScaling at ho
  simp only [hr, bind, Except.bind] at ho
  split at ho
  · cases ho
  next v hfw =>
  obtain ⟨lp, fs, scs⟩ := v
  split at ho
  · cases ho
  next ws hbw =>
  cases ho
  simp only at hn
  have hsc : scoreOneScaling m true (List.ofFn fun t => obs (x t)) =
      .ok (lp, computePosteriorsScaling fs ws) := by
    unfold scoreOneScaling
    simp only [hr, hfw, hbw, bind, Except.bind, if_true]
    rfl
  obtain ⟨hL, -, -, hpost⟩ := scoreOneScaling_near hm h x hsc hn
  refine ⟨hpost rfl, hrl, fun h1 => ?_⟩
  set B : Fin (n + 1) → Fin nc → ℝ := fun t => b (x t) with hB
  obtain ⟨cs, rfl, hF, -⟩ := forwardScaling_near hm h.startprob h.transmat hb hfw hn
  have hc := hF.scalings_pos
  have hlen : cs.length = n + 1 := by have := hF.length.1; simpa using this
  have hfl : fs.length = n + 1 := by have := hF.length.2; simpa using this
  unfold backwardScaling at hbw
  split at hbw
  · cases hbw
  split at hbw
  · cases hbw
  cases hbw
  have hBw := backwardScalingLoop_near h.transmat hb cs (by simpa using hlen) hc
  set ws := backwardScalingLoop m.transmat (rows.zip (cs.map (TX.fin τ))) with hws
  have hwl : ws.length = n + 1 := by
    have : ∀ (cs : List ℝ) (ws : List (Row (TX τ) nc)) (es : List (Fin nc → ℝ)) (d : ℕ),
        BwdRows d cs ws es → ws.length = cs.length := by
      intro cs
      induction cs with
      | nil => intro ws es d h; cases ws <;> cases es <;> simp_all [BwdRows]
      | cons c cs ih =>
        intro ws es d h
        cases ws with
        | nil => exact h.elim
        | cons w ws =>
          cases es with
          | nil => exact h.elim
          | cons e es => simp [ih _ _ _ h.2]
    rw [this _ _ _ _ hBw, hlen]
  refine ⟨_, by
    show computeScalingXiSum fs m.transmat ws rows = _
    unfold computeScalingXiSum
    rw [if_neg (by rw [hfl, hwl, hrl]; simp)], fun i j => ?_⟩
  simp only [memo_eq]
  have hx := xiTerms_near h.transmat hb hF hBw i j
  rw [length_rfwd, List.length_ofFn] at hx
  have hf := Near.foldl₂ hx ((Near.fin (τ := τ) le_rfl).mono (Nat.zero_le _)) le_rfl
  have hzl : ((rfwd A π (List.ofFn B)).zip ((List.ofFn B).tail.zip (rbwd A (List.ofFn B)).tail)).map
      (fun x => x.1 i * A i j * x.2.1 j * x.2.2 j) = List.ofFn fun t => pairMass π A B t i j :=
    zip_pairs π A B i j
  have hlen2 := congrArg List.length hzl
  rw [List.length_map, List.length_ofFn] at hlen2
  rw [hlen2, zero_add] at hf
  have e1 : (((rfwd A π (List.ofFn B)).zip ((List.ofFn B).tail.zip (rbwd A (List.ofFn B)).tail)).map
      fun x => 1 * cs.prod * (x.1 i * A i j * x.2.1 j * x.2.2 j)).sum =
      cs.prod * ∑ t, pairMass π A B t i j := by
    rw [← List.sum_ofFn, ← hzl, ← List.sum_map_mul_left]
    simp only [one_mul]
  rw [e1] at hf
  have hW := hF.likelihood
  have hstep : kp + kb + 2 + n * (ka + kb + nc + 3) + nc = steps nc n kp ka kb := rfl
  rw [hstep] at hW
  refine Near.mono (k := _) (j := kp + kb + 2 + (n + 1 - 2) * (ka + kb + nc + 3) + ka + kb + 3 + n +
    steps nc n kp ka kb) ?_ (by
      have : n = n - 1 + 1 := by omega
      have e : n + 1 - 2 = n - 1 := by omega
      have e2 : n * (ka + kb + nc + 3) = (n - 1) * (ka + kb + nc + 3) + (ka + kb + nc + 3) := by
        conv_lhs => rw [this]
        rw [Nat.add_mul, one_mul]
      unfold steps
      rw [e, e2]; omega)
  rcases hf with hf | ⟨r, hf, hy, hwr⟩
  · exact Or.inl hf
  · have hprod := List.prod_pos hc
    have hS : 0 ≤ ∑ t, pairMass π A B t i j := (mul_nonneg_iff_of_pos_left hprod).1 hy
    refine Or.inr ⟨r, hf, ?_, ?_⟩
    · rw [show expectedTransitions π A B i j = (∑ t, pairMass π A B t i j) / likelihood π A B by
        simp only [expectedTransitions, pairPosterior, Finset.sum_div]]
      exact div_nonneg hS hL.le
    · have h2 : Within τ.q (steps nc n kp ka kb) (cs.prod * ∑ t, pairMass π A B t i j)
          (expectedTransitions π A B i j) := by
        have := Within.scale (τ := τ) hW (div_nonneg hS hL.le)
        rw [show expectedTransitions π A B i j = (∑ t, pairMass π A B t i j) / likelihood π A B by
          simp only [expectedTransitions, pairPosterior, Finset.sum_div]]
        rw [mul_one] at this
        rwa [show (∑ t, pairMass π A B t i j) / likelihood π A B * (cs.prod * likelihood π A B) =
          cs.prod * ∑ t, pairMass π A B t i j by field_simp] at this
      exact hwr.trans h2

end One

/-! ## Categorical emission counts -/

theorem zipWith_ofFn {β γ δ : Type} {k : ℕ} (f : β → γ → δ) (a : Fin k → β) (c : Fin k → γ) :
    List.zipWith f (List.ofFn a) (List.ofFn c) = List.ofFn fun t => f (a t) (c t) := by
  refine List.ext_getElem (by simp) fun t h1 h2 => ?_
  rw [List.getElem_zipWith, List.getElem_ofFn, List.getElem_ofFn, List.getElem_ofFn]


section Cat
variable {nf : ℕ} [NeZero nc]

theorem Categorical.addAt_near {e : ℕ} (X : List (Fin nf)) {ps : List (Row (TX τ) nc)}
    {rs : List (Fin nc → ℝ)} (h : List.Forall₂ (fun (g : Row (TX τ) nc) (p : Fin nc → ℝ) => ∀ i,
      Near e (g i) (p i)) ps rs) (hl : X.length = rs.length) {j : ℕ} {st st' : Categorical.Params (TX τ) nc nf}
    {y : Fin nc → Fin nf → ℝ} (hst : ∀ i k, Near (e + j) (st i k) (y i k))
    (ho : Categorical.addAt st (X.map Categorical.sym) ps = .ok st') (i : Fin nc) (k : Fin nf) :
    Near (e + j + X.length) (st' i k)
      (y i k + (List.zipWith (fun s r => if s = k then r i else 0) X rs).sum) := by
  induction h generalizing X j st y with
  | nil =>
    have : X = [] := by simpa using hl
    subst this
    cases ho
    simpa using hst i k
  | @cons p r ps rs hp _ ih =>
    cases X with
    | nil => simp at hl
    | cons s X =>
      simp only [List.map_cons, Categorical.addAt, Categorical.sym, Categorical.index_fin] at ho
      have ih := ih X (by simpa using hl) (j := j + 1)
        (y := fun i k => y i k + if s = k then r i else 0) (fun i k => ?_) ho
      · simp only [List.zipWith_cons_cons, List.sum_cons, List.length_cons]
        rw [← add_assoc (y i k), show e + j + (X.length + 1) = e + (j + 1) + X.length by omega]
        exact ih
      · simp only [memo_eq]
        by_cases hk : k = s
        · subst hk
          simp only [if_true]
          exact (hst i k).add ((hp i).mono (by omega))
        · rw [if_neg hk, if_neg (Ne.symm hk), add_zero]
          exact (hst i k).mono (by omega)

/-- What the E-step of a `CategoricalHMM` accumulates, over the sequences seen so far. -/
structure CatStatsNear (params : List Char) (e j : ℕ) (st : Stats (TX τ) nc (Categorical.Params (TX τ) nc nf))
    (y : Fin nc → ℝ) (Y : Fin nc → Fin nc → ℝ) (Z : Fin nc → Fin nf → ℝ) : Prop where
  start : 's' ∈ params → ∀ i, Near (e + j) (st.base.start i) (y i)
  trans : 't' ∈ params → ∀ i k, Near (e + j) (st.base.trans i k) (Y i k)
  em : 'e' ∈ params → ∀ i k, Near (e + j) (st.em i k) (Z i k)

variable {params : List Char} {prior : Categorical.Params (TX τ) nc nf}
  {θ : Theta (TX τ) nc (Categorical.Params (TX τ) nc nf)} {kp ka kb : ℕ} {π : Fin nc → ℝ}
  {A : Fin nc → Fin nc → ℝ} {b : Fin nf → Fin nc → ℝ}

theorem estepOne_near (hm : τ.HasMinSum)
    (h : Approximates ((Categorical.emission prior).toHmm .scaling θ) Categorical.sym kp ka kb π A b)
    {N : ℕ} (s : ObsSeq (Fin nf)) (hN : s.n ≤ N) {j : ℕ}
    {st st' : Stats (TX τ) nc (Categorical.Params (TX τ) nc nf)} {y : Fin nc → ℝ} {Y : Fin nc → Fin nc → ℝ}
    {Z : Fin nc → Fin nf → ℝ}
    (hst : CatStatsNear params (2 * steps nc N kp ka kb + N + 2) j st y Y Z) {lp : TX τ}
    (ho : estepOne (Categorical.emission prior) params .scaling θ st (s.rows Categorical.sym) = .ok (st', lp))
    (hn : lp ≠ TX.nan τ) :
    CatStatsNear params (2 * steps nc N kp ka kb + N + 2) (j + (s.n + 1)) st'
      (fun i => y i + posterior π A (s.weights b) 0 i)
      (fun i k => Y i k + expectedTransitions π A (s.weights b) i k)
      (fun i k => Z i k + ∑ t, if s.x t = k then posterior π A (s.weights b) t i else 0) := by
  unfold estepOne at ho
  simp only [bind, Except.bind] at ho
  split at ho
  · cases ho
  next r hfit =>
  split at ho
  · cases ho
  next base hbase =>
  split at ho
  · cases ho
  next em hem =>
  cases ho
  have hsteps : steps nc s.n kp ka kb ≤ steps nc N kp ka kb := by
    have := Nat.mul_le_mul_right (ka + kb + nc + 3) hN
    unfold steps; omega
  obtain ⟨hpost, hlat, hxi⟩ := fitScaling_near hm h s.x (r := r) hfit hn
  -- base statistics
  unfold accumulateBase at hbase
  have hpost' := hpost
  rw [List.ofFn_succ] at hpost'
  obtain ⟨p0, hp0, hh⟩ : ∃ p0, r.posteriors.head? = some p0 ∧
      ∀ i, Near (2 * steps nc s.n kp ka kb + 2) (p0 i) (posterior π A (s.weights b) 0 i) := by
    cases hq : r.posteriors with
    | nil => rw [hq] at hpost'; cases hpost'
    | cons p ps =>
      rw [hq] at hpost'
      cases hpost' with
      | cons h _ => exact ⟨p, rfl, h⟩
  simp only [hp0, memo_eq, bind, Except.bind, pure, Except.pure] at hbase
  have hstart : 's' ∈ params → ∀ i, base.start i = st.base.start i + p0 i := by
    intro hs i
    simp only [hs, if_true] at hbase
    split at hbase
    · split at hbase
      · cases hbase; rfl
      · split at hbase
        · cases hbase
        · cases hbase; rfl
    · cases hbase; rfl
  have htrans : 't' ∈ params → ∀ i k, Near (2 * steps nc N kp ka kb + N + 2 + (j + (s.n + 1)))
      (base.trans i k) (Y i k + expectedTransitions π A (s.weights b) i k) := by
    intro ht i k
    by_cases h1 : 1 ≤ s.n
    · obtain ⟨xi, hxe, hx⟩ := hxi h1
      have hl : ¬ r.lattice.length ≤ 1 := by omega
      have hbt : base.trans i k = st.base.trans i k + xi i k := by
        by_cases hs : 's' ∈ params
        · simp only [hs, ht, if_true, if_neg hl] at hbase
          rw [show xiSum .scaling θ.transmat r = .ok xi from hxe] at hbase
          cases hbase; rfl
        · simp only [hs, ht, if_true, if_false, if_neg hl] at hbase
          rw [show xiSum .scaling θ.transmat r = .ok xi from hxe] at hbase
          cases hbase; rfl
      rw [hbt]
      refine ((hst.trans ht i k).add ((hx i k).mono ?_)).mono ?_ <;> omega
    · have h0 : s.n = 0 := by omega
      have hl : r.lattice.length ≤ 1 := by omega
      have hbt : base.trans i k = st.base.trans i k := by
        by_cases hs : 's' ∈ params
        · simp only [hs, ht, if_true, if_pos hl] at hbase
          cases hbase; rfl
        · simp only [hs, ht, if_true, if_false, if_pos hl] at hbase
          cases hbase; rfl
      rw [hbt, show expectedTransitions π A (s.weights b) i k = 0 by
        have : IsEmpty (Fin s.n) := by rw [h0]; infer_instance
        exact Finset.sum_of_isEmpty _, add_zero]
      exact (hst.trans ht i k).mono (by omega)
  refine ⟨fun hs i => ?_, htrans, fun he i k => ?_⟩
  · rw [hstart hs]
    refine ((hst.start hs i).add ((hh i).mono ?_)).mono ?_ <;> omega
  · simp only [Categorical.emission, he, if_true] at hem
    have hrow : s.rows Categorical.sym = (List.ofFn s.x).map Categorical.sym := by
      rw [List.map_ofFn]; rfl
    rw [hrow] at hem
    have := Categorical.addAt_near (e := 2 * steps nc N kp ka kb + N + 2) (List.ofFn s.x)
      (hpost.imp fun g p hgp i => (hgp i).mono (by omega)) (by simp) (hst.em he) hem i k
    rw [List.length_ofFn, Nat.add_assoc] at this
    refine (congrArg (Near _ _) (congrArg (Z i k + ·) ?_)).mp this
    rw [zipWith_ofFn, List.sum_ofFn]
    rfl

theorem estepLoop_nan {Obs P S : Type} {E : Emission (TX τ) nc Obs P S} {params : List Char} {impl : Impl}
    {θ : Theta (TX τ) nc P} (ss : List (List Obs)) {st st' : Stats (TX τ) nc S} {lp : TX τ}
    (h : estepLoop E params impl θ ss st (TX.nan τ) = .ok (st', lp)) : lp = TX.nan τ := by
  induction ss generalizing st with
  | nil => cases h; rfl
  | cons s ss ih =>
    simp only [estepLoop] at h
    split at h
    · cases h
    · rw [TX.nan_add] at h; exact ih h

theorem estepLoop_near (hm : τ.HasMinSum)
    (h : Approximates ((Categorical.emission prior).toHmm .scaling θ) Categorical.sym kp ka kb π A b)
    {N : ℕ} (ss : List (ObsSeq (Fin nf))) (hN : ∀ s ∈ ss, s.n ≤ N) {j : ℕ}
    {st st' : Stats (TX τ) nc (Categorical.Params (TX τ) nc nf)} {y : Fin nc → ℝ} {Y : Fin nc → Fin nc → ℝ}
    {Z : Fin nc → Fin nf → ℝ}
    (hst : CatStatsNear params (2 * steps nc N kp ka kb + N + 2) j st y Y Z) {lp lp' : TX τ}
    (ho : estepLoop (Categorical.emission prior) params .scaling θ (ss.map (ObsSeq.rows Categorical.sym))
      st lp = .ok (st', lp')) (hn : lp' ≠ TX.nan τ) :
    CatStatsNear params (2 * steps nc N kp ka kb + N + 2) (j + totalSamples ss) st'
      (fun i => y i + startStat π A b ss i) (fun i k => Y i k + transStat π A b ss i k)
      (fun i k => Z i k +
        (ss.map fun s => ∑ t, if s.x t = k then posterior π A (s.weights b) t i else 0).sum) := by
  induction ss generalizing j st y Y Z lp with
  | nil =>
    cases ho
    simpa [totalSamples, startStat, transStat] using hst
  | cons s ss ih =>
    simp only [List.map_cons, estepLoop] at ho
    split at ho
    · cases ho
    next st1 lpi h1 =>
    have hne : lpi ≠ TX.nan τ := by
      rintro rfl
      rw [TX.add_nan] at ho
      exact hn (estepLoop_nan _ ho)
    have := ih (fun s hs => hN s (List.mem_cons_of_mem _ hs))
      (estepOne_near hm h s (hN s List.mem_cons_self) hst h1 hne) ho
    simpa only [totalSamples, startStat, transStat, List.map_cons, List.sum_cons, add_assoc] using this
end Cat

/-! ## The M-step -/

section Mstep

theorem Spec.Near.max_zero {k : ℕ} {x : TX τ} {y : ℝ} (h : Near k x y) :
    Near k (npMaximum x 0) (max y 0) := by
  rcases h with rfl | ⟨r, rfl, hy, hw⟩
  · exact Or.inl rfl
  · rw [max_eq_left hy]
    have hr := Within.left_nonneg hw hy
    refine Or.inr ⟨r, ?_, hy, hw⟩
    have h0 : FloatLike.lt (TX.fin τ r) (0 : TX τ) = false := by
      rw [TX.zero_eq, TX.lt_fin, decide_eq_false_iff_not]
      exact not_lt.2 hr
    unfold npMaximum
    rw [h0]
    simp only [Bool.false_eq_true, if_false]
    rfl

theorem Spec.Close.eq_zero {k : ℕ} {x : TX τ} {y : ℝ} (h : Close k x y) :
    FloatLike.eq x 0 = decide (y = 0) := by
  obtain ⟨r, rfl, hy, hw⟩ := h
  rw [TX.zero_eq, TX.eq_fin, decide_eq_decide]
  constructor
  · rintro rfl
    have := hw.1
    rcases hy.eq_or_lt with h | h
    · exact h.symm
    · exact absurd this (not_le.2 (mul_pos (τ.qpow_pos k) h))
  · rintro rfl
    have h1 := hw.2
    have h2 := Within.left_nonneg (τ := τ) hw le_rfl
    rcases h2.eq_or_lt with h | h
    · exact h.symm
    · exact absurd h1 (not_le.2 (mul_pos (τ.qpow_pos k) h))

theorem Spec.Close.near {k : ℕ} {x : TX τ} {y : ℝ} (h : Close k x y) : Near k x y := Or.inr h

theorem Spec.Near.close {k : ℕ} {x : TX τ} {y : ℝ} (h : Near k x y) (hn : x ≠ TX.nan τ) : Close k x y :=
  h.resolve_left hn

/-- Pseudo-counts. -/
theorem count_near {p y : ℝ} (hp : 1 ≤ p) {e : ℕ} {x : TX τ} (h : Near e x y) :
    Near (e + 1 + 1) (npMaximum (TX.fin τ p - 1 + x) 0) (max (p - 1 + y) 0) := by
  refine Near.max_zero ?_
  refine Near.add ?_ (h.mono (Nat.le_succ _))
  rw [TX.one_eq, TX.sub_fin]
  exact (Near.round (k := 0) (sub_nonneg.2 hp) Within.refl).mono (by omega)

theorem normalizeRow_near' {k n : ℕ} {g : Fin n → TX τ} {a : Fin n → ℝ} (h : ∀ i, Near k (g i) (a i))
    (ha : ∀ i, 0 ≤ a i) (i : Fin n) : Near (2 * k + n + 1) (normalizeRow g i) (a i / ∑ j, a j) := by
  rcases (Finset.sum_nonneg fun j (_ : j ∈ Finset.univ) => ha j).eq_or_lt with h0 | h0
  · have hz : ∀ j, a j = 0 := fun j =>
      (Finset.sum_eq_zero_iff_of_nonneg fun j _ => ha j).1 h0.symm j (Finset.mem_univ j)
    rw [← h0, div_zero]
    unfold normalizeRow
    have hsum := Near.sumF h
    rw [← h0] at hsum
    rcases hsum with h' | h'
    · rw [h', TX.nan_eq]; exact Or.inl (TX.div_nan _)
    · rw [Spec.Close.eq_zero h']
      simp only [decide_true, if_true]
      have := (h i).div (Near.fin (τ := τ) zero_le_one) one_pos
      rw [hz, zero_div] at this
      rw [TX.one_eq]
      exact this.mono (by omega)
  · have := normalizeRow_near (C := 1) (L := ∑ j, a j) (fun i => by rw [one_mul]; exact h i) one_pos h0 rfl i
    exact this

theorem normalizeVec_near {k n : ℕ} {g : Fin n → TX τ} {a : Fin n → ℝ} (h : ∀ i, Near k (g i) (a i))
    (ha : ∀ i, 0 ≤ a i) (i : Fin n) : Near (2 * k + n + 1) (normalizeVec g i) (a i / ∑ j, a j) := by
  have hsum := Near.sumF h
  unfold normalizeVec
  rcases (Finset.sum_nonneg fun j (_ : j ∈ Finset.univ) => ha j).eq_or_lt with h0 | h0
  · have hz : ∀ j, a j = 0 := fun j =>
      (Finset.sum_eq_zero_iff_of_nonneg fun j _ => ha j).1 h0.symm j (Finset.mem_univ j)
    have zero_of : ∀ {k : ℕ} {x : TX τ}, Near k x 0 → x = TX.nan τ ∨ x = TX.fin τ 0 := by
      rintro k x (h | ⟨r, rfl, -, hw⟩)
      · exact Or.inl h
      · refine Or.inr ?_
        have h1 := hw.2
        have h2 := Within.left_nonneg (τ := τ) hw le_rfl
        rcases h2.eq_or_lt with h | h
        · rw [← h]
        · exact absurd h1 (not_le.2 (mul_pos (τ.qpow_pos k) h))
    rw [← h0] at hsum
    have hi := h i
    rw [hz] at hi
    refine Or.inl ?_
    rcases zero_of hsum with hs | hs <;> rcases zero_of hi with hg | hg <;> rw [hs]
    · exact TX.div_nan _
    · exact TX.div_nan _
    · rw [hg]; exact TX.nan_div _
    · rw [hg]
      show τ.ap (XF.div (XF.fin 0) (XF.fin 0)) = _
      simp [XF.div, XF.infMul, Trapped.ap, TX.nan]
  · exact ((h i).div hsum h0).mono (by omega)

theorem mstep_counts {n e ko : ℕ} {prior old stat : Fin n → ℝ} (hp : ∀ i, 1 ≤ prior i)
    {old' stat' : Fin n → TX τ} (hold : ∀ i, Close ko (old' i) (old i)) (hs : ∀ i, Near e (stat' i) (stat i))
    (i : Fin n) :
    Near (e + 1 + 1) (if FloatLike.eq (old' i) 0 then 0 else
      npMaximum (TX.fin τ (prior i) - 1 + stat' i) 0) (mapCounts prior old stat i) := by
  rw [(hold i).eq_zero]
  unfold mapCounts
  by_cases h0 : old i = 0
  · simp only [h0, decide_true, if_true]
    exact (Near.fin (τ := τ) le_rfl).mono (Nat.zero_le _)
  · simp only [h0, decide_false, Bool.false_eq_true, if_false]
    exact count_near (hp i) (hs i)

theorem mapCounts_nonneg' {ι : Type*} (prior old stat : ι → ℝ) (i : ι) : 0 ≤ mapCounts prior old stat i := by
  unfold mapCounts
  split
  · exact le_rfl
  · exact le_max_right _ _

theorem mstepTransRow_near {e ko : ℕ} {prior old stat : Fin nc → ℝ} (hp : ∀ i, 1 ≤ prior i)
    {old' stat' : Row (TX τ) nc} (hold : ∀ i, Close ko (old' i) (old i))
    (hs : ∀ i, Near e (stat' i) (stat i)) (i : Fin nc) :
    Near (2 * (e + 1 + 1) + nc + 1) (mstepTransRow (fun i => TX.fin τ (prior i)) old' stat' i)
      (mapUpdate prior old stat i) := by
  unfold mstepTransRow
  simp only [memo_eq]
  exact normalizeRow_near' (mstep_counts hp hold hs) (mapCounts_nonneg' _ _ _) i

theorem mstepStart_near {e ko : ℕ} {prior old stat : Fin nc → ℝ} (hp : ∀ i, 1 ≤ prior i)
    {old' stat' : Row (TX τ) nc} (hold : ∀ i, Close ko (old' i) (old i))
    (hs : ∀ i, Near e (stat' i) (stat i)) (i : Fin nc) :
    Near (2 * (e + 1 + 1) + nc + 1) (mstepStart (fun i => TX.fin τ (prior i)) old' stat' i)
      (mapUpdate prior old stat i) := by
  unfold mstepStart
  simp only [memo_eq]
  exact normalizeVec_near (mstep_counts hp hold hs) (mapCounts_nonneg' _ _ _) i

theorem Categorical.mstepRow_near {e nf : ℕ} {prior stat : Fin nf → ℝ} (hp : ∀ i, 1 ≤ prior i)
    {stat' : Fin nf → TX τ} (hs : ∀ i, Near e (stat' i) (stat i)) (i : Fin nf) :
    Near (2 * (e + 1 + 1) + nf + 1) (Categorical.mstepRow (fun i => TX.fin τ (prior i)) stat' i)
      (mapUpdate prior (fun _ => 1) stat i) := by
  unfold Categorical.mstepRow
  simp only [memo_eq]
  refine normalizeRow_near' (fun j => ?_) (mapCounts_nonneg' _ _ _) i
  have := count_near (hp j) (hs j)
  simpa [mapCounts] using this

end Mstep

end Verif
