import Verif.Proofs.RoundoffMstep
import Verif.Proofs.Categorical
import Verif.Proofs.RoundoffEM
import Verif.Spec.Train
import Verif.Spec.Categorical

/-!
# Errors of the E-step of the log implementation
-/

set_option autoImplicit false

namespace Verif
open FloatLike Hmmc Spec

variable {ρ : Rounding} {u η Ω V ℓ eb Q : ℝ} {nc N M c : ℕ} [NeZero nc]

theorem Spec.LogBudget.backward (h : LogBudget ρ u η Ω V nc N ℓ eb) {A : Fin nc → Fin nc → ℝ}
    (hA : ∀ i j, LogBound ℓ (A i j)) {n : ℕ} (hn : n ≤ N) (lb : Fin (n + 1) → Row (RX ρ) nc)
    (B : Fin (n + 1) → Fin nc → ℝ) (hB : ∀ t i, LogBound ℓ (B t i)) (hlb : ∀ t i, LogWithin eb (lb t i) (B t i)) :
    ∃ bwd, backwardLog (α := RX ρ) (fun i j => XF.fin (A i j)) (List.ofFn lb) = .ok bwd ∧
      RowsNear (fun t => ((n - t : ℕ) : ℝ) * stepError u η V nc eb) (fun t => ((n - t : ℕ) : ℝ) * stepSpan ℓ nc)
      0 bwd (rbwd A (List.ofFn B)) := by
  have hbw := h.backwardLoop hA n hn (List.ofFn lb) (List.ofFn B) 0 (by simp)
    (by
      rw [List.forall₂_iff_get]
      refine ⟨by simp, fun i h1 h2 => ?_⟩
      rw [List.get_ofFn, List.get_ofFn]
      exact hlb _)
    (by
      intro b hb
      obtain ⟨t, rfl⟩ := List.mem_ofFn.1 hb
      exact hB _)
  refine ⟨_, ?_, hbw⟩
  have hne : (List.ofFn lb).isEmpty = false := by
    simp [List.isEmpty_eq_false_iff, List.ofFn_eq_nil_iff]
  unfold backwardLog
  simp only [hne, memo_eq]
  rfl

section One
variable {Obs D : Type} {m : Hmm (RX ρ) nc Obs} {obs : D → Obs} {π : Fin nc → ℝ} {A : Fin nc → Fin nc → ℝ}
  {b : D → Fin nc → ℝ}

theorem fitLog_rounded (h : LogEMBudget ρ u η Ω V nc N ℓ eb M c Q) (hm : LogWithinModel m obs ℓ eb π A b)
    (s : ObsSeq D) (hn : s.n ≤ N) (hpos : 0 < likelihood π A (s.weights b)) :
    ∃ r : FitOne (RX ρ) nc, fitLog m (s.rows obs) = .ok r ∧
      scoreOneLog m false (s.rows obs) = .ok (r.logProb, []) ∧
      (∃ y : Fin (s.n + 1) → Fin nc → ℝ, r.posteriors = List.ofFn (fun t i => RX.fin ρ (y t i)) ∧
        ∀ t i, CountNear (seqRel (stepError u η V nc eb) N) η (RX.fin ρ (y t i)) (posterior π A (s.weights b) t i)) ∧
      r.lattice.length = s.n + 1 ∧
      (1 ≤ s.n → ∃ xi, xiSum .log m.transmat r = .ok xi ∧ ∀ i j,
        CountNear (seqRel (stepError u η V nc eb) N) η (xi i j) (expectedTransitions π A (s.weights b) i j)) := by
  have hB := h.budget
  obtain ⟨rows, hrows, hf⟩ := hm.lik (List.ofFn s.x)
  have hlen : rows.length = s.n + 1 := by rw [hf.length_eq, List.length_ofFn]
  let lb : Fin (s.n + 1) → Row (RX ρ) nc := fun t => rows[t.val]'(by omega)
  have hlb : rows = List.ofFn lb := by
    apply List.ext_getElem
    · simp [hlen]
    · intro i h1 h2; rw [List.getElem_ofFn]
  have hb : ∀ t i, LogWithin eb (lb t i) (s.weights b t i) := by
    intro t i
    have := (List.forall₂_iff_get.1 hf).2 t.val (by omega) (by rw [List.length_ofFn]; exact t.isLt)
    rw [List.get_ofFn] at this
    exact this i
  have hBb : ∀ t i, LogBound ℓ (s.weights b t i) := fun t i => hm.b_bound _ _
  have hX : s.rows obs = (List.ofFn s.x).map obs := by simp [ObsSeq.rows, List.map_ofFn, Function.comp_def]
  have hsp : m.startprob = fun i => XF.fin (π i) := funext hm.startprob
  have htm : m.transmat = fun i j => XF.fin (A i j) := funext fun i => funext (hm.transmat i)
  obtain ⟨x, fwd, h1, -, -, h4⟩ := hB.forward hm.π_bound hm.A_bound hn lb (s.weights b) hBb hb
  obtain ⟨bwd, h5, h6⟩ := hB.backward hm.A_bound hn lb (s.weights b) hBb hb
  obtain ⟨bwd', h5', y, h7, h8⟩ := hB.posteriors hm.A_bound hn lb (s.weights b) hBb hb h4 hpos
  rw [h5] at h5'
  cases h5'
  have hN : (s.n : ℝ) ≤ N := by exact_mod_cast hn
  have hn0 : (0 : ℝ) ≤ s.n := Nat.cast_nonneg _
  have hκ := hB.step_nonneg
  have hjn : ∀ z, 0 ≤ joint π A (s.weights b) z := fun z =>
    joint_nonneg (fun i => (hm.π_bound i).nonneg) (fun i j => (hm.A_bound i j).nonneg) (fun t i => (hBb t i).nonneg) z
  refine ⟨⟨rows, x, computePosteriorsLog fwd bwd, fwd, bwd⟩, ?_, ?_, ⟨y, h7, fun t i => ?_⟩, hlen, fun h1n => ?_⟩
  · unfold fitLog
    rw [hX, hrows, hlb, hsp, htm]
    simp only [bind, Except.bind, h1, h5]
    rfl
  · unfold scoreOneLog
    rw [hX, hrows, hlb, hsp, htm]
    simp only [bind, Except.bind, h1]
    rfl
  · have hp0 : 0 ≤ posterior π A (s.weights b) t i := div_nonneg (Finset.sum_nonneg fun z _ => hjn z) hpos.le
    refine ⟨hp0, y t i, rfl, (h8 t i).1.trans ?_, (h8 t i).2 h.zero⟩
    refine add_le_add (mul_le_mul_of_nonneg_right ?_ hp0) le_rfl
    unfold seqRel
    exact mul_le_mul_of_nonneg_right (by linarith) hκ
  · obtain ⟨xi, hx1, hx2⟩ := hB.xi hm.A_bound hn h.count (by omega) h.xi lb (s.weights b) hBb hb
      (fun i => (hm.π_bound i).nonneg) h4 h6 hpos
    have he0 : ∀ i j, 0 ≤ expectedTransitions π A (s.weights b) i j := fun i j =>
      Finset.sum_nonneg fun t _ => div_nonneg (Finset.sum_nonneg fun z _ => hjn z) hpos.le
    have heN : ∀ i j, expectedTransitions π A (s.weights b) i j ≤ s.n := by
      intro i j
      have : ∀ t, pairPosterior π A (s.weights b) t i j ≤ 1 := fun t => (div_le_one hpos).2
        (Finset.sum_le_sum_of_subset_of_nonneg (Finset.filter_subset _ _) fun z _ _ => hjn z)
      calc expectedTransitions π A (s.weights b) i j ≤ ∑ _t : Fin s.n, (1 : ℝ) := Finset.sum_le_sum fun t _ => this t
        _ = s.n := by simp
    have hxin : (3 * s.n + 3) * stepError u η V nc eb ≤ 1 :=
      le_trans (mul_le_mul_of_nonneg_right (by linarith) hκ) h.xi
    have hex : ∀ i j, _ := fun i j => hB.range.exp (hx2 i j) hxin
      (by have := h.wide; linarith [heN i j] : 3 * expectedTransitions π A (s.weights b) i j ≤ Ω)
    choose w hw1 hw2 hw3 using hex
    refine ⟨fun i j => XF.fin (w i j), ?_, fun i j => ⟨he0 i j, w i j, rfl, (hw2 i j).trans ?_, hw3 i j h.zero⟩⟩
    · unfold xiSum
      simp only [hlb, htm, hx1, Except.map, memo_eq, hw1]
    · refine add_le_add (mul_le_mul_of_nonneg_right ?_ (he0 i j)) le_rfl
      have h1 : 3 * u ≤ stepError u η V nc eb := by
        have hu := hB.range.acc.u_nonneg
        have hη := hB.range.acc.η_nonneg
        have hV := hB.range.V_nonneg
        have hlse := hB.lse_nonneg
        have heb := hB.eb_nonneg
        have : 4 * u ≤ unitError u η V := by unfold unitError; nlinarith
        unfold stepError; linarith
      unfold seqRel
      nlinarith

end One

/-! ## Categorical statistics -/

section Cat
variable {nf : ℕ}

/-- A running count after `j` samples. -/
def RunningCount (u η κ : ℝ) (N j : ℕ) (x : XF) (y : ℝ) : Prop :=
  CountNear (stageRel (seqRel κ N) u j) (stageAbs (η + η) u j) x y ∧ y ≤ j

theorem RunningCount.mono (h : LogEMBudget ρ u η Ω V nc N ℓ eb M c Q) {j k : ℕ} (hjk : j ≤ k) {x : XF} {y : ℝ}
    (hx : RunningCount u η (stepError u η V nc eb) N j x y) : RunningCount u η (stepError u η V nc eb) N k x y := by
  have hu := h.budget.range.acc.u_nonneg
  have hη := h.budget.range.acc.η_nonneg
  exact ⟨hx.1.mono (stageRel_mono h.seq_nonneg hu hjk) (stageAbs_mono (by linarith) hu hjk),
    hx.2.trans (by exact_mod_cast hjk)⟩

/-- A term worth at most `k` samples. -/
theorem RunningCount.add (h : LogEMBudget ρ u η Ω V nc N ℓ eb M c Q) {j k : ℕ} (hk : 1 ≤ k) (hjM : j + k ≤ M)
    {x x' : RX ρ} {y y' : ℝ} (hx : RunningCount u η (stepError u η V nc eb) N j x y)
    (hx' : CountNear (seqRel (stepError u η V nc eb) N) η x' y') (hy' : y' ≤ k) :
    RunningCount u η (stepError u η V nc eb) N (j + k) (x + x' : RX ρ) (y + y') := by
  have hu := h.budget.range.acc.u_nonneg
  have hη := h.budget.range.acc.η_nonneg
  have hb : y + y' ≤ (j + k : ℕ) := by push_cast; exact add_le_add hx.2 hy'
  have hM : y + y' ≤ M + Q := by
    have : ((j + k : ℕ) : ℝ) ≤ M := by exact_mod_cast hjM
    linarith [h.Q_nonneg]
  have := CountNear.add h.budget.range.acc h.zero h.seq_nonneg hη hx.1 hx'
    (h.range_le (k := j + 1) (by omega) (add_nonneg hx.1.1 hx'.1) hM)
  exact ⟨this.mono (stageRel_mono h.seq_nonneg hu (by omega)) (stageAbs_mono (by linarith) hu (by omega)), hb⟩

theorem Categorical.addAt_rounded (h : LogEMBudget ρ u η Ω V nc N ℓ eb M c Q) (X : List (Fin nf))
    {ps : List (Row (RX ρ) nc)} {rs : List (Fin nc → ℝ)}
    (hp : List.Forall₂ (fun (g : Row (RX ρ) nc) (p : Fin nc → ℝ) => ∀ i,
      CountNear (seqRel (stepError u η V nc eb) N) η (g i) (p i) ∧ p i ≤ 1) ps rs)
    (hl : X.length = rs.length) {j : ℕ} (hj : j + X.length ≤ M) {st : Categorical.Params (RX ρ) nc nf}
    {y : Fin nc → Fin nf → ℝ} (hst : ∀ i k, RunningCount u η (stepError u η V nc eb) N j (st i k) (y i k)) :
    ∃ st', Categorical.addAt (α := RX ρ) st (X.map Categorical.sym) ps = .ok st' ∧ ∀ i k,
      RunningCount u η (stepError u η V nc eb) N (j + X.length) (st' i k)
        (y i k + (List.zipWith (fun s r => if s = k then r i else 0) X rs).sum) := by
  induction hp generalizing X j st y with
  | nil =>
    have : X = [] := by simpa using hl
    subst this
    exact ⟨st, rfl, fun i k => by simpa using hst i k⟩
  | @cons p r ps rs hp _ ih =>
    cases X with
    | nil => simp at hl
    | cons s X =>
      simp only [List.length_cons] at hj
      have hnew : ∀ i k, RunningCount u η (stepError u η V nc eb) N (j + 1)
          (if k = s then (st i k + p i : RX ρ) else st i k) (y i k + if s = k then r i else 0) := by
        intro i k
        by_cases hk : k = s
        · subst hk
          simp only [if_true]
          exact (hst i k).add h le_rfl (by omega) (hp i).1 (by simpa using (hp i).2)
        · simp only [if_neg hk, if_neg (Ne.symm hk), add_zero]
          exact (hst i k).mono h (by omega)
      obtain ⟨st', h1, h2⟩ := ih X (by simpa using hl) (j := j + 1) (by omega)
        (st := fun i c => if c = s then (st i c + p i : RX ρ) else st i c)
        (y := fun i k => y i k + if s = k then r i else 0) hnew
      refine ⟨st', ?_, fun i k => ?_⟩
      · simp only [List.map_cons, Categorical.addAt, Categorical.sym, Categorical.index_fin, memo_eq]
        exact h1
      · simp only [List.zipWith_cons_cons, List.sum_cons, List.length_cons]
        rw [← add_assoc (y i k), show j + (X.length + 1) = j + 1 + X.length by omega]
        exact h2 i k

/-- What the E-step of a `CategoricalHMM` has accumulated after `j` samples. -/
structure CatRunning (params : List Char) (u η κ : ℝ) (N j : ℕ)
    (st : Stats (RX ρ) nc (Categorical.Params (RX ρ) nc nf))
    (y : Fin nc → ℝ) (Y : Fin nc → Fin nc → ℝ) (Z : Fin nc → Fin nf → ℝ) : Prop where
  start : 's' ∈ params → ∀ i, RunningCount u η κ N j (st.base.start i) (y i)
  trans : 't' ∈ params → ∀ i k, RunningCount u η κ N j (st.base.trans i k) (Y i k)
  em : 'e' ∈ params → ∀ i k, RunningCount u η κ N j (st.em i k) (Z i k)

variable {params : List Char} {prior : Categorical.Params (RX ρ) nc nf}
  {θ : Theta (RX ρ) nc (Categorical.Params (RX ρ) nc nf)} {π : Fin nc → ℝ}
  {A : Fin nc → Fin nc → ℝ} {b : Fin nf → Fin nc → ℝ}

theorem estepOne_rounded (h : LogEMBudget ρ u η Ω V nc N ℓ eb M c Q)
    (hm : LogWithinModel ((Categorical.emission prior).toHmm .log θ) Categorical.sym ℓ eb π A b)
    (s : ObsSeq (Fin nf)) (hN : s.n ≤ N) (hpos : 0 < likelihood π A (s.weights b)) {j : ℕ} (hj : j + (s.n + 1) ≤ M)
    {st : Stats (RX ρ) nc (Categorical.Params (RX ρ) nc nf)} {y : Fin nc → ℝ} {Y : Fin nc → Fin nc → ℝ}
    {Z : Fin nc → Fin nf → ℝ} (hst : CatRunning params u η (stepError u η V nc eb) N j st y Y Z) :
    ∃ st' lp, estepOne (Categorical.emission prior) params .log θ st (s.rows Categorical.sym) = .ok (st', lp) ∧
      scoreOneLog ((Categorical.emission prior).toHmm .log θ) false (s.rows Categorical.sym) = .ok (lp, []) ∧
      CatRunning params u η (stepError u η V nc eb) N (j + (s.n + 1)) st'
        (fun i => y i + posterior π A (s.weights b) 0 i)
        (fun i k => Y i k + expectedTransitions π A (s.weights b) i k)
        (fun i k => Z i k + ∑ t, if s.x t = k then posterior π A (s.weights b) t i else 0) := by
  obtain ⟨r, hfit, hsc, ⟨p, hpost, hp⟩, hlat, hxi⟩ := fitLog_rounded h hm s hN hpos
  have hjn : ∀ z, 0 ≤ joint π A (s.weights b) z := fun z => joint_nonneg (fun i => (hm.π_bound i).nonneg)
    (fun i j => (hm.A_bound i j).nonneg) (fun t i => (hm.b_bound _ i).nonneg) z
  have hp1 : ∀ t i, posterior π A (s.weights b) t i ≤ 1 := fun t i => (div_le_one hpos).2
    (Finset.sum_le_sum_of_subset_of_nonneg (Finset.filter_subset _ _) fun z _ _ => hjn z)
  have heN : ∀ i j, expectedTransitions π A (s.weights b) i j ≤ (s.n + 1 : ℕ) := by
    intro i j
    have : ∀ t, pairPosterior π A (s.weights b) t i j ≤ 1 := fun t => (div_le_one hpos).2
      (Finset.sum_le_sum_of_subset_of_nonneg (Finset.filter_subset _ _) fun z _ _ => hjn z)
    calc expectedTransitions π A (s.weights b) i j ≤ ∑ _t : Fin s.n, (1 : ℝ) := Finset.sum_le_sum fun t _ => this t
      _ ≤ (s.n + 1 : ℕ) := by simp
  have hhead : r.posteriors.head? = some fun i => RX.fin ρ (p 0 i) := by rw [hpost, List.ofFn_succ]; rfl
  -- base statistics
  obtain ⟨base, hbase, hb1, hb2⟩ : ∃ base, accumulateBase params .log θ.transmat st.base r = .ok base ∧
      ('s' ∈ params → ∀ i, base.start i = st.base.start i + RX.fin ρ (p 0 i)) ∧
      ('t' ∈ params → ∀ i k, RunningCount u η (stepError u η V nc eb) N (j + (s.n + 1)) (base.trans i k)
        (Y i k + expectedTransitions π A (s.weights b) i k)) := by
    have htr : ∀ xi : Mat (RX ρ) nc, (∀ i j, CountNear (seqRel (stepError u η V nc eb) N) η (xi i j)
        (expectedTransitions π A (s.weights b) i j)) → 't' ∈ params → ∀ i k,
        RunningCount u η (stepError u η V nc eb) N (j + (s.n + 1)) (st.base.trans i k + xi i k : RX ρ)
          (Y i k + expectedTransitions π A (s.weights b) i k) := fun xi hx ht i k =>
      (hst.trans ht i k).add h (by omega) hj (hx i k) (heN i k)
    unfold accumulateBase
    simp only [hhead, memo_eq, bind, Except.bind, pure, Except.pure]
    by_cases h1 : 1 ≤ s.n
    · obtain ⟨xi, hxe, hx⟩ := hxi h1
      have hxe' : xiSum .log θ.transmat r = .ok xi := hxe
      have hl : ¬ r.lattice.length ≤ 1 := by omega
      by_cases hs : 's' ∈ params <;> by_cases ht : 't' ∈ params <;>
        simp only [hs, ht, if_true, if_false, if_neg hl, hxe', memo_eq] <;>
        refine ⟨_, rfl, fun h' => ?_, fun h' => ?_⟩ <;>
        first
        | exact absurd h' (by simpa using h')
        | exact fun i => rfl
        | exact htr xi hx ht
        | exact absurd h' hs
        | exact absurd h' ht
    · have h0 : s.n = 0 := by omega
      have hl : r.lattice.length ≤ 1 := by omega
      have hz : ∀ i k, expectedTransitions π A (s.weights b) i k = 0 := fun i k => by
        have : IsEmpty (Fin s.n) := by rw [h0]; infer_instance
        exact Finset.sum_of_isEmpty _
      have htr' : 't' ∈ params → ∀ i k,
          RunningCount u η (stepError u η V nc eb) N (j + (s.n + 1)) (st.base.trans i k)
            (Y i k + expectedTransitions π A (s.weights b) i k) := fun ht i k => by
        rw [hz, add_zero]; exact (hst.trans ht i k).mono h (by omega)
      by_cases hs : 's' ∈ params <;> by_cases ht : 't' ∈ params <;>
        simp only [hs, ht, if_true, if_false, if_pos hl] <;>
        refine ⟨_, rfl, fun h' => ?_, fun h' => ?_⟩ <;>
        first
        | exact fun i => rfl
        | exact htr' ht
        | exact absurd h' hs
        | exact absurd h' ht
        | exact absurd h' (by simpa using h')
  -- emission statistics
  obtain ⟨em, hem, hem1⟩ : ∃ em, (Categorical.emission prior).acc params θ.emission st.em (s.rows Categorical.sym)
      r.posteriors = .ok em ∧ ('e' ∈ params → ∀ i k,
        RunningCount u η (stepError u η V nc eb) N (j + (s.n + 1)) (em i k)
          (Z i k + ∑ t, if s.x t = k then posterior π A (s.weights b) t i else 0)) := by
    by_cases he : 'e' ∈ params
    · have hrow : s.rows Categorical.sym = (List.ofFn s.x).map Categorical.sym := by rw [List.map_ofFn]; rfl
      obtain ⟨em, h1, h2⟩ := Categorical.addAt_rounded h (List.ofFn s.x) (ps := r.posteriors)
        (rs := List.ofFn fun t i => posterior π A (s.weights b) t i) (by
          rw [hpost, List.forall₂_iff_get]
          refine ⟨by simp, fun t h1 h2 => ?_⟩
          rw [List.get_ofFn, List.get_ofFn]
          exact fun i => ⟨hp _ i, hp1 _ i⟩) (by simp) (j := j) (by simpa using hj) (hst.em he)
      refine ⟨em, ?_, fun _ i k => ?_⟩
      · simp only [Categorical.emission, he, if_true, hrow]
        exact h1
      · have := h2 i k
        rw [List.length_ofFn, zipWith_ofFn, List.sum_ofFn] at this
        exact this
    · exact ⟨st.em, by simp only [Categorical.emission, he, if_false], fun h' => absurd h' he⟩
  refine ⟨⟨base, em⟩, r.logProb, ?_, hsc, fun hs i => ?_, hb2, hem1⟩
  · unfold estepOne fitOne
    simp only [Emission.toHmm] at hfit
    simp only [Emission.toHmm, bind, Except.bind, hfit, hbase, hem]
    rfl
  · have := (hst.start hs i).add h (k := s.n + 1) (by omega) hj (hp 0 i) (by
      have : (0 : ℝ) ≤ s.n := Nat.cast_nonneg _
      push_cast; linarith [hp1 0 i])
    show RunningCount _ _ _ _ _ (base.start i) _
    rw [hb1 hs]
    exact this

theorem estepLoop_rounded (h : LogEMBudget ρ u η Ω V nc N ℓ eb M c Q)
    (hm : LogWithinModel ((Categorical.emission prior).toHmm .log θ) Categorical.sym ℓ eb π A b)
    (ss : List (ObsSeq (Fin nf))) (hN : ∀ s ∈ ss, s.n ≤ N) (hpos : ∀ s ∈ ss, 0 < likelihood π A (s.weights b))
    {j : ℕ} (hj : j + (ss.map fun s => s.n + 1).sum ≤ M)
    {st : Stats (RX ρ) nc (Categorical.Params (RX ρ) nc nf)} {y : Fin nc → ℝ} {Y : Fin nc → Fin nc → ℝ}
    {Z : Fin nc → Fin nf → ℝ} (hst : CatRunning params u η (stepError u η V nc eb) N j st y Y Z) (lp : RX ρ) :
    ∃ st' lp', estepLoop (Categorical.emission prior) params .log θ (ss.map (ObsSeq.rows Categorical.sym)) st lp =
        .ok (st', lp') ∧
      seqLoop (scoreOneLog ((Categorical.emission prior).toHmm .log θ) false)
        (ss.map (ObsSeq.rows Categorical.sym)) lp [] = .ok (lp', []) ∧
      CatRunning params u η (stepError u η V nc eb) N (j + (ss.map fun s => s.n + 1).sum) st'
        (fun i => y i + startStat π A b ss i) (fun i k => Y i k + transStat π A b ss i k)
        (fun i k => Z i k +
          (ss.map fun s => ∑ t, if s.x t = k then posterior π A (s.weights b) t i else 0).sum) := by
  induction ss generalizing j st y Y Z lp with
  | nil => exact ⟨st, lp, rfl, rfl, by simpa [startStat, transStat] using hst⟩
  | cons s ss ih =>
    simp only [List.map_cons, List.sum_cons] at hj
    obtain ⟨st1, lpi, h1, h2, h3⟩ := estepOne_rounded h hm s (hN s List.mem_cons_self) (hpos s List.mem_cons_self)
      (by omega) hst
    obtain ⟨st', lp', h4, h5, h6⟩ := ih (fun s hs => hN s (List.mem_cons_of_mem _ hs))
      (fun s hs => hpos s (List.mem_cons_of_mem _ hs)) (by omega) h3 (lp + lpi)
    refine ⟨st', lp', ?_, ?_, ?_⟩
    · simp only [List.map_cons, estepLoop, h1]
      exact h4
    · simp only [List.map_cons, seqLoop, h2]
      exact h5
    · simpa only [startStat, transStat, List.map_cons, List.sum_cons, add_assoc] using h6

end Cat

end Verif
