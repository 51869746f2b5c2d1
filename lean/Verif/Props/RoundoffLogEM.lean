import Verif.Proofs.RoundoffLogEstep
import Verif.Proofs.RoundoffMstep
import Verif.Props.RoundoffSumDouble

/-!
# C82: Baum-Welch with the log implementation in floating-point arithmetic
-/

set_option autoImplicit false

namespace Verif
open FloatLike Hmmc Spec

variable {ρ : Rounding} {u η Ω V ℓ : ℝ} {nc nf N c nIter : ℕ} [NeZero nc] {Q : ℝ} {params : List Char}
  {sp : Fin nc → ℝ} {tp : Fin nc → Fin nc → ℝ} {ep : Fin nc → Fin nf → ℝ} {θ : CatParams nc nf}

/-- Configuration of a `CategoricalHMM` with `implementation="log"` (the default), in rounded
arithmetic. -/
noncomputable def logConfig (ρ : Rounding) (sp : Fin nc → ℝ) (tp : Fin nc → Fin nc → ℝ)
    (params : List Char) (nIter : ℕ) : Config (RX ρ) nc :=
  ⟨fun i => XF.fin (sp i), fun i j => XF.fin (tp i j), params, .log, nIter⟩

/-- Its emission family. -/
noncomputable def logEmission (ρ : Rounding) (ep : Fin nc → Fin nf → ℝ) :
    Emission (RX ρ) nc Int (Categorical.Params (RX ρ) nc nf) (Categorical.Params (RX ρ) nc nf) :=
  Categorical.emission fun i k => XF.fin (ep i k)

/-- The parameters `θ''` are those of one exact EM iteration from `θ` (`catEM`), with relative errors `δ`
and absolute errors `a` in the pseudo-counts and their totals; parameters not in `params` are unchanged.
The initial distribution is always proportional to counts that the errors do not reach. -/
structure Spec.StepNear (u η δ a : ℝ) (params : List Char) (sp : Fin nc → ℝ) (tp : Fin nc → Fin nc → ℝ)
    (ep : Fin nc → Fin nf → ℝ) (ss : List (ObsSeq (Fin nf))) (θ : CatParams nc nf)
    (θ'' : Theta (RX ρ) nc (Categorical.Params (RX ρ) nc nf)) : Prop where
  start : 's' ∈ params → ∀ i, ∃ r, θ''.startprob i = XF.fin r ∧
    |r - (catEM params sp tp ep ss θ).π i| ≤ (4 * δ + 3 * u) * (catEM params sp tp ep ss θ).π i + 8 * a + η ∧
    (θ.π i = 0 → r = 0)
  trans : 't' ∈ params → ∀ i, ShareNear u η δ a (θ''.transmat i)
    (mapCounts (tp i) (θ.A i) (transStat θ.π θ.A (catB θ.e) ss i))
  emission : 'e' ∈ params → ∀ i, ShareNear u η δ a (θ''.emission i)
    (mapCounts (ep i) (fun _ => 1) (emitCount θ.π θ.A θ.e ss i))
  start_fixed : 's' ∉ params → ∀ i, θ''.startprob i = XF.fin (θ.π i)
  trans_fixed : 't' ∉ params → ∀ i j, θ''.transmat i j = XF.fin (θ.A i j)
  emission_fixed : 'e' ∉ params → ∀ i k, θ''.emission i k = XF.fin (θ.e i k)

/-- All parameters are probabilities that the floating-point format holds. -/
structure Spec.GridParams (ρ : Rounding) (θ : CatParams nc nf) : Prop where
  start : ∀ i, GridProb ρ (θ.π i)
  trans : ∀ i j, GridProb ρ (θ.A i j)
  emission : ∀ i k, GridProb ρ (θ.e i k)

/-- The total of the pseudo-counts of the first states is at least the number of sequences. -/
theorem start_total_ge {D : Type} {π : Fin nc → ℝ} {A : Fin nc → Fin nc → ℝ} {b : D → Fin nc → ℝ}
    (hsp : ∀ i, 1 ≤ sp i) (ss : List (ObsSeq D)) (hpos : ∀ s ∈ ss, 0 < likelihood π A (s.weights b)) :
    (ss.length : ℝ) ≤ ∑ i, mapCounts sp π (startStat π A b ss) i := by
  rw [← sum_startStat ss hpos]
  refine Finset.sum_le_sum fun i _ => ?_
  unfold mapCounts
  by_cases hi : π i = 0
  · rw [if_pos hi, startStat_zero_of_start hi]
  · rw [if_neg hi]
    exact le_trans (by linarith [hsp i]) (le_max_left _ _)

/-- **C82** One Baum-Welch iteration of a `CategoricalHMM` with `implementation="log"` in floating-point
arithmetic, from any finite parameters under which the data are possible. It does not raise. The value it
reports is the score (see C81). The new parameters are those of an exact iteration from the same
parameters, up to the stated errors; whatever the errors, they are probabilities again. -/
theorem C82_em_step (ss : List (ObsSeq (Fin nf))) (hne : ss ≠ [])
    (h : LogEMBudget ρ u η Ω V nc N ℓ (unitError u η V) (totalSamples ss) c Q)
    (hsmall : 2 * (rowRel u (stepError u η V nc (unitError u η V)) N (totalSamples ss) c +
      rowAbs u η (totalSamples ss) c) ≤ 1)
    (hnc : nc ≤ c) (hnf : nf ≤ c) (hℓ : ℓ ≤ V)
    (hsp : ∀ i, 1 ≤ sp i ∧ sp i - 1 ≤ Q) (htp : ∀ i j, 1 ≤ tp i j ∧ tp i j - 1 ≤ Q)
    (hep : ∀ i k, 1 ≤ ep i k ∧ ep i k - 1 ≤ Q)
    (hπ : ∀ i, LogBound ℓ (θ.π i)) (hA : ∀ i j, LogBound ℓ (θ.A i j)) (he : ∀ i k, LogBound ℓ (θ.e i k))
    (hN : ∀ s ∈ ss, s.n ≤ N) (hpos : ∀ s ∈ ss, 0 < likelihood θ.π θ.A (s.weights (catB θ.e))) :
    ∃ θ'' lp, emStep (logEmission ρ ep) (logConfig ρ sp tp params nIter) (dataX Categorical.sym ss)
        (dataLengths ss) (Categorical.paramsRX ρ θ.π θ.A θ.e) = .ok (θ'', lp) ∧
      score ((logEmission ρ ep).toHmm .log (Categorical.paramsRX ρ θ.π θ.A θ.e)) (dataX Categorical.sym ss)
        (some (dataLengths ss)) = .ok lp ∧
      StepNear u η (rowRel u (stepError u η V nc (unitError u η V)) N (totalSamples ss) c)
        (rowAbs u η (totalSamples ss) c) params sp tp ep ss θ θ'' ∧
      (Grid ρ → GridParams ρ θ → ∃ θ₁ : CatParams nc nf, GridParams ρ θ₁ ∧
        θ'' = Categorical.paramsRX ρ θ₁.π θ₁.A θ₁.e) := by
  have hu := h.budget.range.acc.u_nonneg
  have hη := h.budget.range.acc.η_nonneg
  have hm := Categorical.logWithinModel h.budget.range hℓ (fun i k => (XF.fin (ep i k) : RX ρ)) .log hπ hA he
  have hz : ∀ j, RunningCount u η (stepError u η V nc (unitError u η V)) N j (0 : RX ρ) 0 := fun j =>
    ⟨CountNear.zero (h.seq_nonneg.trans (le_stageRel h.seq_nonneg hu _)) (by unfold stageAbs; positivity),
      Nat.cast_nonneg _⟩
  obtain ⟨st, lp, h1, h2, h3⟩ := estepLoop_rounded (params := params) h hm ss hN hpos (j := 0)
    (by rw [zero_add]; exact le_rfl) (st := ⟨BaseStats.zero, fun _ _ => 0⟩) (y := fun _ => 0) (Y := fun _ _ => 0)
    (Z := fun _ _ => 0) ⟨fun _ _ => hz 0, fun _ _ _ => hz 0, fun _ _ _ => hz 0⟩ 0
  simp only [zero_add] at h3
  have hE : doEstep (logEmission ρ ep) (logConfig ρ sp tp params nIter) (Categorical.paramsRX ρ θ.π θ.A θ.e)
      (dataX Categorical.sym ss) (dataLengths ss) = .ok (st, lp) := by
    unfold doEstep
    simp only [splitXLengths_data Categorical.sym ss hne, bind, Except.bind]
    exact h1
  have hW := start_total_ge (fun i => (hsp i).1) ss hpos
  have hlen : (1 : ℝ) ≤ ss.length := by exact_mod_cast List.length_pos_iff.2 hne
  have hδ : 0 ≤ rowRel u (stepError u η V nc (unitError u η V)) N (totalSamples ss) c :=
    h.seq_nonneg.trans (le_stageRel h.seq_nonneg hu _)
  have ha : 0 ≤ rowAbs u η (totalSamples ss) c := by unfold rowAbs; positivity
  have hsup : 2 * (rowRel u (stepError u η V nc (unitError u η V)) N (totalSamples ss) c *
      (∑ j, mapCounts sp θ.π (startStat θ.π θ.A (catB θ.e) ss) j) + rowAbs u η (totalSamples ss) c) ≤
      ∑ j, mapCounts sp θ.π (startStat θ.π θ.A (catB θ.e) ss) j := by
    generalize ∑ j, mapCounts sp θ.π (startStat θ.π θ.A (catB θ.e) ss) j = W at *
    nlinarith
  have hW0 : 0 < ∑ j, mapCounts sp θ.π (startStat θ.π θ.A (catB θ.e) ss) j := by linarith
  refine ⟨doMstep (logEmission ρ ep) (logConfig ρ sp tp params nIter) (Categorical.paramsRX ρ θ.π θ.A θ.e) st, lp,
    ?_, ?_, ?_, ?_⟩
  · unfold emStep
    simp only [hE, bind, Except.bind, pure, Except.pure]
  · unfold score scoreCore
    simp only [splitXLengths_data Categorical.sym ss hne, bind, Except.bind]
    show Except.map _ (seqLoop (scoreOneLog _ false) _ 0 []) = _
    rw [show seqLoop (scoreOneLog ((logEmission ρ ep).toHmm .log (Categorical.paramsRX ρ θ.π θ.A θ.e)) false)
      (ss.map (ObsSeq.rows Categorical.sym)) 0 [] = .ok (lp, []) from h2]
    rfl
  · refine ⟨fun hs i => ?_, fun ht i => ?_, fun he' i => ?_, fun hs i => ?_, fun ht i j => ?_, fun he' i k => ?_⟩
    · have hr := (h.startRow hnc (fun i => (hsp i).1) (fun i => (hsp i).2) (old := θ.π)
        (stat := startStat θ.π θ.A (catB θ.e) ss) (stat' := st.base.start) (fun i => (h3.start hs i).2)
        (fun i => (h3.start hs i).1) hW0 hsup).2 hW0 hsup i
      obtain ⟨r, r1, r2, r3⟩ := hr
      refine ⟨r, ?_, ?_, fun h0 => r3 ?_⟩
      · show (if 's' ∈ params then _ else _ : Row (RX ρ) nc) i = _
        rw [if_pos hs]
        exact r1
      · have : (catEM params sp tp ep ss θ).π i = mapCounts sp θ.π (startStat θ.π θ.A (catB θ.e) ss) i /
            ∑ j, mapCounts sp θ.π (startStat θ.π θ.A (catB θ.e) ss) j := by
          unfold catEM mapUpdate
          simp only [if_pos hs]
        rw [this]
        refine r2.trans ?_
        have : rowAbs u η (totalSamples ss) c / ∑ j, mapCounts sp θ.π (startStat θ.π θ.A (catB θ.e) ss) j ≤
            rowAbs u η (totalSamples ss) c := div_le_self ha (by linarith)
        linarith
      · unfold mapCounts; rw [if_pos h0]
    · show ShareNear _ _ _ _ ((if 't' ∈ params then _ else _ : Mat (RX ρ) nc) i) _
      rw [if_pos ht, memo_eq]
      exact h.transRow hnc (fun j => (htp i j).1) (fun j => (htp i j).2) (fun j => (h3.trans ht i j).2)
        (fun j => (h3.trans ht i j).1)
    · show ShareNear _ _ _ _ ((if 'e' ∈ params then _ else _ : Categorical.Params (RX ρ) nc nf) i) _
      rw [if_pos he', memo_eq]
      exact h.emitRow hnf (fun j => (hep i j).1) (fun j => (hep i j).2) (fun j => (h3.em he' i j).2)
        (fun j => (h3.em he' i j).1)
    · show (if 's' ∈ params then _ else _ : Row (RX ρ) nc) i = _
      rw [if_neg hs]; rfl
    · show (if 't' ∈ params then _ else _ : Mat (RX ρ) nc) i j = _
      rw [if_neg ht]; rfl
    · show (if 'e' ∈ params then _ else _ : Categorical.Params (RX ρ) nc nf) i k = _
      rw [if_neg he']; rfl
  · intro g hθ
    have hπ' : ∀ i, ∃ p, (doMstep (logEmission ρ ep) (logConfig ρ sp tp params nIter)
        (Categorical.paramsRX ρ θ.π θ.A θ.e) st).startprob i = XF.fin p ∧ GridProb ρ p := by
      intro i
      show ∃ p, (if 's' ∈ params then _ else _ : Row (RX ρ) nc) i = _ ∧ _
      by_cases hs : 's' ∈ params
      · rw [if_pos hs]
        exact h.startRow_grid g hnc (fun i => (hsp i).1) (fun i => (hsp i).2)
          (stat := startStat θ.π θ.A (catB θ.e) ss) (fun i => (h3.start hs i).2) (fun i => (h3.start hs i).1) hW0 hsup i
      · rw [if_neg hs]; exact ⟨_, rfl, hθ.start i⟩
    have hA' : ∀ i j, ∃ p, (doMstep (logEmission ρ ep) (logConfig ρ sp tp params nIter)
        (Categorical.paramsRX ρ θ.π θ.A θ.e) st).transmat i j = XF.fin p ∧ GridProb ρ p := by
      intro i j
      show ∃ p, (if 't' ∈ params then _ else _ : Mat (RX ρ) nc) i j = _ ∧ _
      by_cases ht : 't' ∈ params
      · rw [if_pos ht, memo_eq]
        exact h.transRow_grid g (fun j => (htp i j).1) (fun j => (htp i j).2) (fun j => (h3.trans ht i j).2)
          (fun j => (h3.trans ht i j).1) j
      · rw [if_neg ht]; exact ⟨_, rfl, hθ.trans i j⟩
    have he'' : ∀ i k, ∃ p, (doMstep (logEmission ρ ep) (logConfig ρ sp tp params nIter)
        (Categorical.paramsRX ρ θ.π θ.A θ.e) st).emission i k = XF.fin p ∧ GridProb ρ p := by
      intro i k
      show ∃ p, (if 'e' ∈ params then _ else _ : Categorical.Params (RX ρ) nc nf) i k = _ ∧ _
      by_cases he' : 'e' ∈ params
      · rw [if_pos he', memo_eq]
        exact h.emitRow_grid g (fun j => (hep i j).1) (fun j => (hep i j).2) (fun j => (h3.em he' i j).2)
          (fun j => (h3.em he' i j).1) k
      · rw [if_neg he']; exact ⟨_, rfl, hθ.emission i k⟩
    choose p1 hp1 using hπ'
    choose p2 hp2 using hA'
    choose p3 hp3 using he''
    refine ⟨⟨p1, p2, p3⟩, ⟨fun i => (hp1 i).2, fun i j => (hp2 i j).2, fun i k => (hp3 i k).2⟩, ?_⟩
    show Theta.mk _ _ _ = Theta.mk _ _ _
    rw [Theta.mk.injEq]
    exact ⟨funext fun i => (hp1 i).1, funext fun i => funext fun j => (hp2 i j).1,
      funext fun i => funext fun k => (hp3 i k).1⟩

/-- The log-probability of an E-step is the score. -/
theorem score_of_doEstep_log {Obs P S : Type} {E : Emission (RX ρ) nc Obs P S} {cfg : Config (RX ρ) nc}
    (hi : cfg.implementation = .log) {θ : Theta (RX ρ) nc P} {X : List Obs} {lengths : List Int}
    {st : Stats (RX ρ) nc S} {lp : RX ρ} (h : doEstep E cfg θ X lengths = .ok (st, lp)) :
    score (E.toHmm .log θ) X (some lengths) = .ok lp := by
  unfold doEstep at h
  unfold score scoreCore
  simp only [bind, Except.bind, hi] at h ⊢
  cases hs : splitXLengths X (some lengths) with
  | error e => rw [hs] at h; cases h
  | ok subs =>
    rw [hs] at h
    simp only at h ⊢
    have key : ∀ (subs : List (List Obs)) (st st' : Stats (RX ρ) nc S) (lp lp' : RX ρ),
        estepLoop E cfg.params .log θ subs st lp = .ok (st', lp') →
        seqLoop (scoreOneLog (E.toHmm .log θ) false) subs lp [] = .ok (lp', []) := by
      intro subs
      induction subs with
      | nil => intro st st' lp lp' h; cases h; rfl
      | cons s subs ih =>
        intro st st' lp lp' h
        simp only [estepLoop] at h
        split at h
        · cases h
        next st1 lpi h1 =>
        have h2 : scoreOneLog (E.toHmm .log θ) false s = .ok (lpi, []) := by
          unfold estepOne fitOne fitLog at h1
          simp only [Emission.toHmm, bind, Except.bind, pure, Except.pure] at h1
          unfold scoreOneLog
          simp only [Emission.toHmm, bind, Except.bind, pure, Except.pure]
          cases hl : E.loglik θ.emission s with
          | error e => simp [hl] at h1
          | ok rows =>
            simp only [hl] at h1 ⊢
            cases hf : forwardLog θ.startprob θ.transmat rows with
            | error e => simp [hf] at h1
            | ok v =>
              simp only [hf] at h1 ⊢
              cases hb : backwardLog θ.transmat rows with
              | error e => simp [hb] at h1
              | ok ws =>
                simp only [hb] at h1
                split at h1
                · cases h1
                · split at h1
                  · cases h1
                  · cases h1; rfl
        simp only [seqLoop, h2]
        exact ih _ _ _ _ h
    show Except.map _ (seqLoop (scoreOneLog (E.toHmm .log θ) false) subs 0 []) = _
    rw [key _ _ _ _ _ h]
    rfl

/-- Sizes and errors for which C82 holds along a whole training run: `C82_em_step` applies to every set of
probabilities that the format holds, and `B` bounds the partial sums of the score. -/
structure Spec.LogFitBudget (ρ : Rounding) (u η Ω V : ℝ) (N : ℕ) (ℓ : ℝ) (c : ℕ) (Q B : ℝ) (sp : Fin nc → ℝ)
    (tp : Fin nc → Fin nc → ℝ) (ep : Fin nc → Fin nf → ℝ) (ss : List (ObsSeq (Fin nf))) : Prop where
  budget : LogEMBudget ρ u η Ω V nc N ℓ (unitError u η V) (totalSamples ss) c Q
  small : 2 * (rowRel u (stepError u η V nc (unitError u η V)) N (totalSamples ss) c +
    rowAbs u η (totalSamples ss) c) ≤ 1
  grid : Grid ρ
  bound : ∀ p, GridProb ρ p → LogBound ℓ p
  states : nc ≤ c
  symbols : nf ≤ c
  ℓ_le : ℓ ≤ V
  sp : ∀ i, 1 ≤ sp i ∧ sp i - 1 ≤ Q
  tp : ∀ i j, 1 ≤ tp i j ∧ tp i j - 1 ≤ Q
  ep : ∀ i k, 1 ≤ ep i k ∧ ep i k - 1 ≤ Q
  samples : ∀ s ∈ ss, s.n ≤ N
  B_nonneg : 0 ≤ B
  B_le : B ≤ Ω
  sums : (ss.map fun s => (s.n + 2) * (stepSpan ℓ nc + stepError u η V nc (unitError u η V))).sum +
    ss.length * (u * B + η) ≤ B

/-- Error of the reported log-likelihood. -/
noncomputable def Spec.logScoreError (u η κ B : ℝ) (ss : List (ObsSeq (Fin nf))) : ℝ :=
  (ss.map fun s => (s.n + 2) * κ).sum + ss.length * (u * B + η)

/-- An iteration from parameters `θ` that reports `lp` and leaves `θ₁`. -/
structure Spec.IterationNear (ρ : Rounding) (u η δ a eL : ℝ) (params : List Char) (sp : Fin nc → ℝ)
    (tp : Fin nc → Fin nc → ℝ) (ep : Fin nc → Fin nf → ℝ) (ss : List (ObsSeq (Fin nf)))
    (θ θ₁ : CatParams nc nf) (lp : RX ρ) : Prop where
  possible : 0 < catL ss θ.π θ.A θ.e
  logprob : ∃ r, lp = XF.fin r ∧ |r - Real.log (catL ss θ.π θ.A θ.e)| ≤ eL
  step : StepNear u η δ a params sp tp ep ss θ (Categorical.paramsRX ρ θ₁.π θ₁.A θ₁.e)

variable {B : ℝ} {ss : List (ObsSeq (Fin nf))}

theorem log_catL (hpos : ∀ s ∈ ss, 0 < likelihood θ.π θ.A (s.weights (catB θ.e))) :
    0 < catL ss θ.π θ.A θ.e ∧
    Real.log (catL ss θ.π θ.A θ.e) = (ss.map fun s => Real.log (likelihood θ.π θ.A (s.weights (catB θ.e)))).sum := by
  unfold catL dataLikelihood
  induction ss with
  | nil => simp
  | cons s ss ih =>
    obtain ⟨h1, h2⟩ := ih fun t ht => hpos t (List.mem_cons_of_mem _ ht)
    have h3 := hpos s List.mem_cons_self
    simp only [List.map_cons, List.prod_cons, List.sum_cons]
    exact ⟨mul_pos h3 h1, by rw [Real.log_mul h3.ne' h1.ne', h2]⟩

/-- An iteration that reports anything but `-inf`. -/
theorem iteration_near (hne : ss ≠ []) (h : LogFitBudget ρ u η Ω V N ℓ c Q B sp tp ep ss) (hθ : GridParams ρ θ)
    {θ'' : Theta (RX ρ) nc (Categorical.Params (RX ρ) nc nf)} {lp : RX ρ}
    (ho : emStep (logEmission ρ ep) (logConfig ρ sp tp params nIter) (dataX Categorical.sym ss)
        (dataLengths ss) (Categorical.paramsRX ρ θ.π θ.A θ.e) = .ok (θ'', lp)) (hlp : lp ≠ XF.ninf) :
    ∃ θ₁ : CatParams nc nf, GridParams ρ θ₁ ∧ θ'' = Categorical.paramsRX ρ θ₁.π θ₁.A θ₁.e ∧
      IterationNear ρ u η (rowRel u (stepError u η V nc (unitError u η V)) N (totalSamples ss) c)
        (rowAbs u η (totalSamples ss) c) (logScoreError u η (stepError u η V nc (unitError u η V)) B ss)
        params sp tp ep ss θ θ₁ lp := by
  have hm := Categorical.logWithinModel h.budget.budget.range h.ℓ_le (fun i k => (XF.fin (ep i k) : RX ρ)) .log
    (fun i => h.bound _ (hθ.start i)) (fun i j => h.bound _ (hθ.trans i j)) (fun i k => h.bound _ (hθ.emission i k))
  obtain ⟨x, hx, hx1, hx2⟩ := C81_score h.budget.budget hm rfl ss hne h.samples
  have hsc : score ((logEmission ρ ep).toHmm .log (Categorical.paramsRX ρ θ.π θ.A θ.e)) (dataX Categorical.sym ss)
        (some (dataLengths ss)) = .ok lp := by
    unfold emStep at ho
    simp only [bind, Except.bind] at ho
    split at ho
    · cases ho
    next v hE =>
    cases ho
    exact score_of_doEstep_log rfl hE
  have hxl : x = lp := by
    have := hx.symm.trans hsc
    cases this; rfl
  subst hxl
  have hpos : ∀ s ∈ ss, 0 < likelihood θ.π θ.A (s.weights (catB θ.e)) := by
    intro s hs
    refine lt_of_le_of_ne (likelihood_nonneg (fun i => (hθ.start i).1) (fun i j => (hθ.trans i j).1)
      fun t i => (hθ.emission i _).1) fun h0 => hlp (hx1 ⟨s, hs, h0.symm⟩)
  obtain ⟨θ2, lp2, h1, h2, h3, h4⟩ := C82_em_step (params := params) (nIter := nIter) ss hne h.budget h.small h.states
    h.symbols h.ℓ_le h.sp h.tp h.ep
    (fun i => h.bound _ (hθ.start i)) (fun i j => h.bound _ (hθ.trans i j)) (fun i k => h.bound _ (hθ.emission i k))
    h.samples hpos
  have := h1.symm.trans ho
  cases this
  obtain ⟨θ₁, h5, h6⟩ := h4 h.grid hθ
  refine ⟨θ₁, h5, h6, (log_catL hpos).1, ?_, h6 ▸ h3⟩
  obtain ⟨r, hr1, hr2⟩ := hx2 hpos B h.B_le h.B_nonneg h.sums
  refine ⟨r, hr1, ?_⟩
  rw [(log_catL hpos).2]
  exact hr2

/-- **C82** Training a `CategoricalHMM` with `implementation="log"` in floating-point arithmetic, for any
number of iterations, as long as none reports `-inf`: every iteration starts from probabilities `θs k`
that the format holds, reports their log-likelihood up to `logScoreError`, and goes to the parameters of one
exact EM iteration from `θs k`, up to the errors of `StepNear`. -/
theorem C82_run (hne : ss ≠ []) (h : LogFitBudget ρ u η Ω V N ℓ c Q B sp tp ep ss) {θ0 : CatParams nc nf}
    (hθ : GridParams ρ θ0) {θ' : Theta (RX ρ) nc (Categorical.Params (RX ρ) nc nf)} {hist : List (RX ρ)}
    (hr : Runs (emStep (logEmission ρ ep) (logConfig ρ sp tp params nIter) (dataX Categorical.sym ss)
      (dataLengths ss)) hist (Categorical.paramsRX ρ θ0.π θ0.A θ0.e) θ') (hinf : ∀ lp ∈ hist, lp ≠ XF.ninf) :
    ∃ θs : ℕ → CatParams nc nf, θs 0 = θ0 ∧ (∀ k ≤ hist.length, GridParams ρ (θs k)) ∧
      θ' = Categorical.paramsRX ρ (θs hist.length).π (θs hist.length).A (θs hist.length).e ∧
      ∀ k (hk : k < hist.length),
        IterationNear ρ u η (rowRel u (stepError u η V nc (unitError u η V)) N (totalSamples ss) c)
          (rowAbs u η (totalSamples ss) c) (logScoreError u η (stepError u η V nc (unitError u η V)) B ss)
          params sp tp ep ss (θs k) (θs (k + 1)) hist[k] := by
  generalize hs0 : Categorical.paramsRX ρ θ0.π θ0.A θ0.e = s0 at hr
  induction hr with
  | nil => exact ⟨fun _ => θ0, rfl, fun _ _ => hθ, hs0.symm, fun k hk => absurd hk (by simp)⟩
  | @snoc h1 s s' s'' v hr1 hs ih =>
    obtain ⟨θs, i1, i2, i3, i4⟩ := ih (fun lp hlp => hinf lp (by simp [hlp])) hs0
    rw [i3] at hs
    obtain ⟨θ₁, j1, j2, j3⟩ := iteration_near hne h (i2 _ le_rfl) hs (hinf v (by simp))
    refine ⟨fun k => if k ≤ h1.length then θs k else θ₁, by simp [i1], fun k hk => ?_, ?_, fun k hk => ?_⟩
    · dsimp only
      split
      · next hk' => exact i2 k hk'
      · exact j1
    · rw [List.length_append, List.length_singleton]
      simp only [if_neg (show ¬ h1.length + 1 ≤ h1.length by omega)]
      exact j2
    · rw [List.length_append, List.length_singleton] at hk
      rcases Nat.lt_succ_iff_lt_or_eq.1 hk with hk' | rfl
      · rw [List.getElem_append_left hk']
        simp only [if_pos hk'.le, if_pos (show k + 1 ≤ h1.length from hk')]
        exact i4 k hk'
      · rw [List.getElem_concat_length rfl]
        simp only [le_refl, if_true, if_neg (show ¬ h1.length + 1 ≤ h1.length by omega)]
        exact j3

/-- **C82** The same for `fit` with given initial parameters; if it raises, the data are impossible under
the parameters it has reached. -/
theorem C82_fit (hne : ss ≠ []) (h : LogFitBudget ρ u η Ω V N ℓ c Q B sp tp ep ss) {θ0 : CatParams nc nf}
    (hθ : GridParams ρ θ0) (mon : Monitor (RX ρ)) :
    let out := fitFrom (logEmission ρ ep) (logConfig ρ sp tp params nIter) (dataX Categorical.sym ss)
      (some (dataLengths ss)) (Categorical.paramsRX ρ θ0.π θ0.A θ0.e) mon
    let hist := out.monitor.history
    (∀ lp ∈ hist, lp ≠ XF.ninf) →
    ∃ θs : ℕ → CatParams nc nf, θs 0 = θ0 ∧ (∀ k ≤ hist.length, GridParams ρ (θs k)) ∧
      out.state = Categorical.paramsRX ρ (θs hist.length).π (θs hist.length).A (θs hist.length).e ∧
      (out.raised ≠ none → catL ss (θs hist.length).π (θs hist.length).A (θs hist.length).e = 0) ∧
      ∀ k (hk : k < hist.length),
        IterationNear ρ u η (rowRel u (stepError u η V nc (unitError u η V)) N (totalSamples ss) c)
          (rowAbs u η (totalSamples ss) c) (logScoreError u η (stepError u η V nc (unitError u η V)) B ss)
          params sp tp ep ss (θs k) (θs (k + 1)) hist[k] := by
  intro out hist hinf
  set step := emStep (logEmission ρ ep) (logConfig ρ sp tp params nIter) (dataX Categorical.sym ss)
    (dataLengths ss) with hstep
  obtain ⟨h', r1, r2, r3, -, -, r6⟩ := fitLoop_spec (step := step) nIter
    (Categorical.paramsRX ρ θ0.π θ0.A θ0.e) mon.reset rfl
  have hh : hist = h' := by
    show (fitLoop step nIter _ mon.reset).monitor.history = h'
    rw [r3]; simp [Monitor.reset]
  rw [← hh] at r1 r2 r6
  obtain ⟨θs, q1, q2, q3, q4⟩ := C82_run hne h hθ r1 hinf
  refine ⟨θs, q1, q2, q3, fun hra => ?_, q4⟩
  cases hra' : out.raised with
  | none => exact absurd hra' hra
  | some e =>
    obtain ⟨-, e2, -⟩ := r6 e hra'
    by_contra hL
    have hθk := q2 _ le_rfl
    have hpos : ∀ s ∈ ss, 0 < likelihood (θs hist.length).π (θs hist.length).A
        (s.weights (catB (θs hist.length).e)) := by
      intro s hs
      refine lt_of_le_of_ne (likelihood_nonneg (fun i => (hθk.start i).1) (fun i j => (hθk.trans i j).1)
        fun t i => (hθk.emission i _).1) fun h0 => hL ?_
      exact List.prod_eq_zero (List.mem_map.2 ⟨s, hs, h0.symm⟩)
    obtain ⟨θ2, lp2, h1, -, -, -⟩ := C82_em_step (params := params) (nIter := nIter) ss hne h.budget h.small h.states
      h.symbols h.ℓ_le h.sp h.tp h.ep
      (fun i => h.bound _ (hθk.start i)) (fun i j => h.bound _ (hθk.trans i j))
      (fun i k => h.bound _ (hθk.emission i k)) h.samples hpos
    have e2' : step out.state = .error e := e2
    rw [show out.state = _ from q3] at e2'
    cases e2'.symm.trans h1

end Verif
