import Verif.Props.Roundoff
import Verif.Proofs.RoundoffTotalEM
import Verif.Props.CategoricalEM

/-!
# C76: rounding errors through Baum-Welch iterations of a `CategoricalHMM`
-/

set_option autoImplicit false

namespace Verif
open FloatLike Hmmc Spec

variable {τ : Trapped} {nc nf : ℕ} [NeZero nc]
  {sp : Fin nc → ℝ} {tp : Fin nc → Fin nc → ℝ} {ep : Fin nc → Fin nf → ℝ} {params : List Char} {nIter : ℕ}

/-- `CategoricalHMM(startprob_prior=sp, transmat_prior=tp, emissionprob_prior=ep)` with
`implementation='scaling'`. -/
noncomputable def catConfig (τ : Trapped) (sp : Fin nc → ℝ) (tp : Fin nc → Fin nc → ℝ)
    (params : List Char) (nIter : ℕ) : Config (TX τ) nc :=
  ⟨fun i => TX.fin τ (sp i), fun i j => TX.fin τ (tp i j), params, .scaling, nIter⟩

/-- Its emission family. -/
noncomputable def catEmission (τ : Trapped) (ep : Fin nc → Fin nf → ℝ) :
    Emission (TX τ) nc Int (Categorical.Params (TX τ) nc nf) (Categorical.Params (TX τ) nc nf) :=
  Categorical.emission fun i k => TX.fin τ (ep i k)

theorem Spec.NearModel.approximates {K : ℕ} {θ' : Theta (TX τ) nc (Categorical.Params (TX τ) nc nf)}
    {θ : CatParams nc nf} (h : NearModel K θ' θ) :
    Approximates ((catEmission τ ep).toHmm .scaling θ') Categorical.sym K K K θ.π θ.A (catB θ.e) where
  startprob i := (h.startprob i).near
  transmat i j := (h.transmat i j).near
  lik X := by
    refine ⟨_, Categorical.computeLikelihood_fin _ X, ?_⟩
    rw [List.forall₂_map_left_iff, List.forall₂_same]
    exact fun k _ i => h.emission i k

/-- The log-probability of an E-step is the score. -/
theorem score_of_doEstep {Obs P S : Type} {E : Emission (TX τ) nc Obs P S} {cfg : Config (TX τ) nc}
    (hi : cfg.implementation = .scaling) {θ : Theta (TX τ) nc P} {X : List Obs} {lengths : List Int}
    {st : Stats (TX τ) nc S} {lp : TX τ} (h : doEstep E cfg θ X lengths = .ok (st, lp)) :
    score (E.toHmm .scaling θ) X (some lengths) = .ok lp := by
  unfold doEstep at h
  unfold score scoreCore
  simp only [bind, Except.bind, hi] at h ⊢
  cases hs : splitXLengths X (some lengths) with
  | error e => rw [hs] at h; cases h
  | ok subs =>
    rw [hs] at h
    simp only at h ⊢
    have key : ∀ (subs : List (List Obs)) (st st' : Stats (TX τ) nc S) (lp lp' : TX τ),
        estepLoop E cfg.params .scaling θ subs st lp = .ok (st', lp') →
        seqLoop (scoreOneScaling (E.toHmm .scaling θ) false) subs lp [] = .ok (lp', []) := by
      intro subs
      induction subs with
      | nil => intro st st' lp lp' h; cases h; rfl
      | cons s subs ih =>
        intro st st' lp lp' h
        simp only [estepLoop] at h
        split at h
        · cases h
        next st1 lpi h1 =>
        have h2 : scoreOneScaling (E.toHmm .scaling θ) false s = .ok (lpi, []) := by
          unfold estepOne fitOne fitScaling at h1
          simp only [Emission.toHmm, bind, Except.bind, pure, Except.pure] at h1
          unfold scoreOneScaling
          simp only [Emission.toHmm, bind, Except.bind, pure, Except.pure]
          cases hl : E.lik θ.emission s with
          | error e => simp [hl] at h1
          | ok rows =>
            simp only [hl] at h1 ⊢
            cases hf : forwardScaling θ.startprob θ.transmat rows with
            | error e => simp [hf] at h1
            | ok v =>
              simp only [hf] at h1 ⊢
              cases hb : backwardScaling θ.transmat rows v.2.2 with
              | error e => simp [hb] at h1
              | ok ws =>
                simp only [hb] at h1
                split at h1
                · cases h1
                · split at h1
                  · cases h1
                  · cases h1; rfl
        simp only [seqLoop, h2]
        exact ih _ _ _ _ h
    show Except.map _ (seqLoop (scoreOneScaling (E.toHmm .scaling θ) false) subs 0 []) = _
    rw [key _ _ _ _ _ h]
    rfl

/-- **C76** One Baum-Welch iteration in floating-point arithmetic, from parameters with `K` relative
errors: the new parameters are those of an exact iteration up to `emSteps` relative errors, and the
reported value is the log-likelihood up to `dataError`. -/
theorem C76_em_step (hm : τ.HasMinSum) (hsp : ∀ i, 1 ≤ sp i) (htp : ∀ i j, 1 ≤ tp i j)
    (hep : ∀ i k, 1 ≤ ep i k) {K : ℕ} {θ' θ'' : Theta (TX τ) nc (Categorical.Params (TX τ) nc nf)}
    {θ : CatParams nc nf} (h : NearModel K θ' θ) (ss : List (ObsSeq (Fin nf))) (hne : ss ≠ [])
    {N : ℕ} (hN : ∀ s ∈ ss, s.n ≤ N) {lp : TX τ}
    (ho : emStep (catEmission τ ep) (catConfig τ sp tp params nIter) (dataX Categorical.sym ss)
      (dataLengths ss) θ' = .ok (θ'', lp)) (hn : lp ≠ TX.nan τ) :
    (0 < catL ss θ.π θ.A θ.e ∧ ∃ x, lp = TX.fin τ x ∧ |x - Real.log (catL ss θ.π θ.A θ.e)| ≤
      dataError τ.u K K K θ.π θ.A (catB θ.e) ss) ∧
    (NoNaN θ'' → NearModel (emSteps nc nf N (totalSamples ss) K) θ'' (catEM params sp tp ep ss θ)) := by
  unfold emStep at ho
  simp only [bind, Except.bind] at ho
  split at ho
  · cases ho
  next v hE =>
  obtain ⟨st, lp⟩ := v
  cases ho
  have hA := h.approximates (ep := ep)
  refine ⟨C75_score hm hA rfl ss hne (score_of_doEstep rfl hE) hn, fun hnn => ?_⟩
  unfold doEstep at hE
  simp only [splitXLengths_data Categorical.sym ss hne, bind, Except.bind] at hE
  have hS := estepLoop_near (params := params) (j := 0) (y := fun _ => 0) (Y := fun _ _ => 0) (Z := fun _ _ => 0) hm hA ss hN
    ⟨fun _ _ => (Near.fin (τ := τ) le_rfl).mono (Nat.zero_le _),
      fun _ _ _ => (Near.fin (τ := τ) le_rfl).mono (Nat.zero_le _),
      fun _ _ _ => (Near.fin (τ := τ) le_rfl).mono (Nat.zero_le _)⟩ hE hn
  simp only [zero_add] at hS
  have hc : 2 * steps nc N K K K + N + 2 + totalSamples ss = countSteps nc N (totalSamples ss) K := rfl
  have hK : K ≤ emSteps nc nf N (totalSamples ss) K := by unfold emSteps countSteps steps; omega
  refine ⟨fun i => (?_ : Near _ _ _).close (hnn.1 i), fun i j => (?_ : Near _ _ _).close (hnn.2 i j),
    fun i k => ?_⟩
  · show Near _ ((if 's' ∈ params then _ else _ : Row (TX τ) nc) i) ((if 's' ∈ params then _ else _ : Fin nc → ℝ) i)
    by_cases hs : 's' ∈ params
    · rw [if_pos hs, if_pos hs]
      exact (mstepStart_near hsp h.startprob (hS.start hs) i).mono (by unfold emSteps; omega)
    · rw [if_neg hs, if_neg hs]
      exact (h.startprob i).near.mono hK
  · show Near _ ((if 't' ∈ params then _ else _ : Mat (TX τ) nc) i j)
      ((if 't' ∈ params then _ else _ : Fin nc → Fin nc → ℝ) i j)
    by_cases ht : 't' ∈ params
    · rw [if_pos ht, if_pos ht, memo_eq]
      exact (mstepTransRow_near (htp i) (h.transmat i) (hS.trans ht i) j).mono (by unfold emSteps; omega)
    · rw [if_neg ht, if_neg ht]
      exact (h.transmat i j).near.mono hK
  · show Near _ ((if 'e' ∈ params then _ else _ : Categorical.Params (TX τ) nc nf) i k)
      ((if 'e' ∈ params then _ else _ : Fin nc → Fin nf → ℝ) i k)
    by_cases he : 'e' ∈ params
    · rw [if_pos he, if_pos he, memo_eq]
      exact (Categorical.mstepRow_near (hep i) (hS.em he i) k).mono (by unfold emSteps; omega)
    · rw [if_neg he, if_neg he]
      exact (h.emission i k).mono hK

/-- Roundings in the parameters after `k` EM iterations that start with `K` of them. -/
def fitSteps (nc nf N M K : ℕ) : ℕ → ℕ
  | 0 => K
  | k + 1 => emSteps nc nf N M (fitSteps nc nf N M K k)

/-- Error of the `k`-th entry of the history. -/
noncomputable def historyError (u : ℝ) (N K : ℕ) (params : List Char) (sp : Fin nc → ℝ)
    (tp : Fin nc → Fin nc → ℝ) (ep : Fin nc → Fin nf → ℝ) (ss : List (ObsSeq (Fin nf)))
    (θ : CatParams nc nf) (k : ℕ) : ℝ :=
  let K' := fitSteps nc nf N (totalSamples ss) K k
  let θk := (catEM params sp tp ep ss)^[k] θ
  dataError u K' K' K' θk.π θk.A (catB θk.e) ss

/-- **C76** Any number of Baum-Welch iterations in floating-point arithmetic. -/
theorem C76_run (hm : τ.HasMinSum) (hsp : ∀ i, 1 ≤ sp i) (htp : ∀ i j, 1 ≤ tp i j)
    (hep : ∀ i k, 1 ≤ ep i k) {K : ℕ} {θ0' θ' : Theta (TX τ) nc (Categorical.Params (TX τ) nc nf)}
    {θ0 : CatParams nc nf} (h0 : NearModel K θ0' θ0) (ss : List (ObsSeq (Fin nf))) (hne : ss ≠ [])
    {N : ℕ} (hN : ∀ s ∈ ss, s.n ≤ N) {h : List (TX τ)}
    (hr : Runs (emStep (catEmission τ ep) (catConfig τ sp tp params nIter) (dataX Categorical.sym ss)
      (dataLengths ss)) h θ0' θ')
    (hn : ∀ lp ∈ h, lp ≠ TX.nan τ)
    (hc : ∀ h₁ θ₁, h₁ <+: h → Runs (emStep (catEmission τ ep) (catConfig τ sp tp params nIter)
      (dataX Categorical.sym ss) (dataLengths ss)) h₁ θ0' θ₁ → NoNaN θ₁) :
    NearModel (fitSteps nc nf N (totalSamples ss) K h.length) θ' ((catEM params sp tp ep ss)^[h.length] θ0) ∧
    ∀ k (hk : k < h.length), ∃ x, h[k] = TX.fin τ x ∧
      0 < catL ss ((catEM params sp tp ep ss)^[k] θ0).π ((catEM params sp tp ep ss)^[k] θ0).A
        ((catEM params sp tp ep ss)^[k] θ0).e ∧
      |x - Real.log (catL ss ((catEM params sp tp ep ss)^[k] θ0).π
        ((catEM params sp tp ep ss)^[k] θ0).A ((catEM params sp tp ep ss)^[k] θ0).e)| ≤
        historyError τ.u N K params sp tp ep ss θ0 k := by
  induction hr with
  | nil => exact ⟨h0, fun k hk => absurd hk (by simp)⟩
  | @snoc h s s' s'' v hr1 hs ih =>
    obtain ⟨i1, i2⟩ := ih h0 (fun lp hlp => hn lp (by simp [hlp]))
      (fun h₁ θ₁ hp hr => hc h₁ θ₁ (hp.trans (List.prefix_append _ _)) hr)
    obtain ⟨⟨j1, x, j2, j3⟩, j4⟩ := C76_em_step hm hsp htp hep i1 ss hne hN hs (hn v (by simp))
    refine ⟨?_, fun k hk => ?_⟩
    · have := j4 (hc _ _ (List.prefix_refl _) (hr1.snoc hs))
      rw [List.length_append, List.length_singleton, Function.iterate_succ_apply']
      exact this
    · rw [List.length_append, List.length_singleton] at hk
      rcases Nat.lt_succ_iff_lt_or_eq.1 hk with hk | rfl
      · rw [List.getElem_append_left hk]
        exact i2 k hk
      · rw [List.getElem_concat_length rfl]
        exact ⟨x, j2, j1, j3⟩

/-- The exact iteration on a valid model is the one of the real-valued family. -/
theorem catEM_rstep (c : RConfig nc) (hc : c.sp = sp ∧ c.tp = tp) (ss : List (ObsSeq (Fin nf)))
    (r : RParams nc (Categorical.Rows nc nf)) :
    let r' := (Categorical.family ep params).rstep c ss r
    catEM params sp tp ep ss ⟨r.π, r.A, r.q.e⟩ = ⟨r'.π, r'.A, r'.q.e⟩ := by
  obtain ⟨rfl, rfl⟩ := hc
  intro r'
  have e1 : r'.q.e = if 'e' ∈ params then fun i => mapUpdate (ep i) (fun _ => 1)
      (emitCount r.π r.A r.q.e ss i) else r.q.e := by
    by_cases he : 'e' ∈ params
    · rw [if_pos he]
      simp only [r', Family.rstep, Categorical.family, he, if_true, Categorical.updRow]
      funext i
      congr 1
      funext k
      exact emitCount_eq ss i k
    · rw [if_neg he]
      simp [r', Family.rstep, Categorical.family, he]
  rw [e1]
  rfl

/-- With flat priors the exact iterates are valid models of the data whose likelihood never decreases. -/
theorem catEM_mono (params : List Char) (ss : List (ObsSeq (Fin nf))) {θ : CatParams nc nf}
    (h : CatModel θ.π θ.A θ.e) (hL : 0 < catL ss θ.π θ.A θ.e) :
    let θ' := catEM params (fun _ => 1) (fun _ _ => 1) (fun _ _ => 1) ss θ
    CatModel θ'.π θ'.A θ'.e ∧ catL ss θ.π θ.A θ.e ≤ catL ss θ'.π θ'.A θ'.e := by
  intro θ'
  let c : RConfig nc := ⟨fun _ => 1, fun _ _ => 1, .scaling, 0⟩
  let F := Categorical.family (nc := nc) (nf := nf) (fun _ _ => 1) params
  have hLs : ∀ s ∈ ss, 0 < likelihood θ.π θ.A (s.weights (catB θ.e)) := by
    intro s hs
    refine lt_of_le_of_ne (likelihood_nonneg h.π_nonneg h.A_nonneg fun t i => h.e_nonneg _ _)
      fun h0 => hL.ne' ?_
    exact List.prod_eq_zero (List.mem_map.2 ⟨s, hs, h0.symm⟩)
  have he : θ' = _ := catEM_rstep (ep := fun _ _ => 1) (params := params) c ⟨rfl, rfl⟩ ss h.rp
  have hg := F.rstep_gain c ss h.valid hLs (fun _ _ => le_rfl) (fun _ _ _ => le_rfl)
    (Categorical.gains ss h.valid (fun _ _ _ => le_rfl) fun _ _ _ _ => rfl)
  have hm := catModel_of_valid (F.rstep_valid c ss h.valid)
  rw [he]
  refine ⟨hm, ?_⟩
  have h3 := hg.2.2
  simp only [c, logDirichlet_one, Finset.sum_const_zero, add_zero, sub_zero] at h3
  exact (Real.log_le_log_iff hL (log_dataLikelihood ss hg.1).1).1 h3

/-- **C76** With flat priors the history of a floating-point run decreases at most by the roundoff. -/
theorem C76_history (hm : τ.HasMinSum) {K : ℕ}
    {θ0' θ' : Theta (TX τ) nc (Categorical.Params (TX τ) nc nf)}
    {θ0 : CatParams nc nf} (hθ : CatModel θ0.π θ0.A θ0.e) (h0 : NearModel K θ0' θ0)
    (ss : List (ObsSeq (Fin nf))) (hne : ss ≠ []) {N : ℕ} (hN : ∀ s ∈ ss, s.n ≤ N) {h : List (TX τ)}
    (hr : Runs (emStep (catEmission τ fun _ _ => 1) (catConfig τ (fun _ => 1) (fun _ _ => 1) params nIter)
      (dataX Categorical.sym ss) (dataLengths ss)) h θ0' θ')
    (hn : ∀ lp ∈ h, lp ≠ TX.nan τ)
    (hc : ∀ h₁ θ₁, h₁ <+: h → Runs (emStep (catEmission τ fun _ _ => 1)
      (catConfig τ (fun _ => 1) (fun _ _ => 1) params nIter)
      (dataX Categorical.sym ss) (dataLengths ss)) h₁ θ0' θ₁ → NoNaN θ₁)
    (j k : ℕ) (hjk : j ≤ k) (hk : k < h.length) :
    ∃ x y, h[j] = TX.fin τ x ∧ h[k] = TX.fin τ y ∧
      x ≤ y + historyError τ.u N K params (fun _ => 1) (fun _ _ => 1) (fun _ _ => 1) ss θ0 j +
        historyError τ.u N K params (fun _ => 1) (fun _ _ => 1) (fun _ _ => 1) ss θ0 k := by
  obtain ⟨-, hh⟩ := C76_run hm (fun _ => le_rfl) (fun _ _ => le_rfl) (fun _ _ => le_rfl) h0 ss hne hN
    hr hn hc
  obtain ⟨x, x1, x2, x3⟩ := hh j (by omega)
  obtain ⟨y, y1, y2, y3⟩ := hh k hk
  refine ⟨x, y, x1, y1, ?_⟩
  set f := catEM (nc := nc) (nf := nf) params (fun _ => 1) (fun _ _ => 1) (fun _ _ => 1) ss
  have hinv : ∀ i, CatModel (f^[i] θ0).π (f^[i] θ0).A (f^[i] θ0).e ∧
      0 < catL ss (f^[i] θ0).π (f^[i] θ0).A (f^[i] θ0).e := by
    intro i
    induction i with
    | zero =>
      obtain ⟨z, z1, z2, z3⟩ := hh 0 (by omega)
      exact ⟨hθ, z2⟩
    | succ i ih =>
      rw [Function.iterate_succ_apply']
      have := catEM_mono params ss ih.1 ih.2
      exact ⟨this.1, ih.2.trans_le this.2⟩
  have hle : ∀ k, j ≤ k → catL ss (f^[j] θ0).π (f^[j] θ0).A (f^[j] θ0).e ≤
      catL ss (f^[k] θ0).π (f^[k] θ0).A (f^[k] θ0).e := by
    intro k hjk
    induction k, hjk using Nat.le_induction with
    | base => exact le_rfl
    | succ k hjk ih =>
      rw [Function.iterate_succ_apply']
      exact ih.trans (catEM_mono params ss (hinv k).1 (hinv k).2).2
  have hlog := Real.log_le_log x2 (hle k hjk)
  have a1 := (abs_le.1 x3).2
  have a2 := (abs_le.1 y3).1
  linarith

/-- The exact predictive probabilities of the data exceed `1e-300` by the roundoff of a model with `K`
relative errors. -/
def Predictable (u : ℝ) (K : ℕ) (ss : List (ObsSeq (Fin nf))) (θ : CatParams nc nf) : Prop :=
  ∀ s ∈ ss, ∀ t, (1 / 10 ^ 300 : ℝ) ≤
    (1 - u) ^ (2 * steps nc s.n K K K + 1) * predictive θ.π θ.A (s.weights (catB θ.e)) t

/-- Where no result leaves the range, an iteration from finite parameters ends in finite parameters. -/
theorem emStep_isFin (hτ : τ.Total) (hsp : ∀ i, 1 ≤ sp i)
    {K : ℕ} {θ' : Theta (TX τ) nc (Categorical.Params (TX τ) nc nf)}
    {θ : CatParams nc nf} (h : NearModel K θ' θ) (hθ : AllFin θ') (ss : List (ObsSeq (Fin nf)))
    (hne : ss ≠ []) (hp : Predictable τ.u K ss θ) :
    ∃ θ'' lp, emStep (catEmission τ ep) (catConfig τ sp tp params nIter) (dataX Categorical.sym ss)
      (dataLengths ss) θ' = .ok (θ'', lp) ∧ AllFin θ'' ∧ lp.IsFin := by
  have hA := h.approximates (ep := ep)
  obtain ⟨st, lp, h1, h2, h3⟩ := estepLoop_isFin (params := params) hτ hA hθ ss
    (st := ⟨BaseStats.zero, fun _ _ => 0⟩) ⟨fun _ => ⟨0, rfl⟩, fun _ _ => ⟨0, rfl⟩, fun _ _ => ⟨0, rfl⟩⟩
    (lp := 0) ⟨0, rfl⟩ hp
  have hE : doEstep (catEmission τ ep) (catConfig τ sp tp params nIter) θ' (dataX Categorical.sym ss)
      (dataLengths ss) = .ok (st, lp) := by
    unfold doEstep
    simp only [splitXLengths_data Categorical.sym ss hne, bind, Except.bind]
    exact h1
  refine ⟨doMstep (catEmission τ ep) (catConfig τ sp tp params nIter) θ' st, lp, ?_, ?_, h3⟩
  · unfold emStep
    simp only [hE, bind, Except.bind, pure, Except.pure]
  obtain ⟨hL, -⟩ := C75_score hτ.hasMinSum hA rfl ss hne (score_of_doEstep rfl hE) h3.ne_nan
  refine ⟨fun i => ?_, fun i j => ?_, fun i k => ?_⟩
  · show TX.IsFin ((if 's' ∈ params then _ else _ : Row (TX τ) nc) i)
    by_cases hs : 's' ∈ params
    · rw [if_pos hs]
      have hS := estepLoop_near (params := params) (j := 0) (y := fun _ => 0) (Y := fun _ _ => 0)
        (Z := fun _ _ => 0) hτ.hasMinSum hA ss (N := (ss.map fun s => s.n).sum)
        (fun s hs => List.single_le_sum (fun _ _ => Nat.zero_le _) _ (List.mem_map.2 ⟨s, hs, rfl⟩))
        ⟨fun _ _ => (Near.fin (τ := τ) le_rfl).mono (Nat.zero_le _),
          fun _ _ _ => (Near.fin (τ := τ) le_rfl).mono (Nat.zero_le _),
          fun _ _ _ => (Near.fin (τ := τ) le_rfl).mono (Nat.zero_le _)⟩ h1 h3.ne_nan
      simp only [zero_add] at hS
      refine mstepStart_isFin hτ hsp h.startprob (hS.start hs) h2.start ?_ i
      have hπ : ∀ i, 0 ≤ θ.π i := fun i => by obtain ⟨r, -, h, -⟩ := h.startprob i; exact h
      have hA0 : ∀ i j, 0 ≤ θ.A i j := fun i j => by obtain ⟨r, -, h, -⟩ := h.transmat i j; exact h
      have he0 : ∀ i k, 0 ≤ θ.e i k := fun i k => by
        obtain ⟨r, -, h, -⟩ := (h.emission i k).ne_nan (hθ.emission i k).ne_nan; exact h
      have hLs : ∀ s ∈ ss, 0 < likelihood θ.π θ.A (s.weights (catB θ.e)) := by
        intro s hs
        refine lt_of_le_of_ne (likelihood_nonneg hπ hA0 fun t i => he0 _ _) fun h0 => hL.ne' ?_
        exact List.prod_eq_zero (List.mem_map.2 ⟨s, hs, h0.symm⟩)
      refine lt_of_le_of_ne (Finset.sum_nonneg fun i _ => mapCounts_nonneg _ _ _ i) fun h0 => ?_
      have hz : ∀ i, startStat θ.π θ.A (catB θ.e) ss i ≤ 0 := by
        intro i
        by_cases hi : θ.π i = 0
        · rw [startStat_zero_of_start hi]
        · have := mapCounts_all_zero h0.symm i
          unfold mapCounts at this
          rw [if_neg hi] at this
          have := max_eq_right_iff.1 this
          have := hsp i
          linarith
      have hsum := sum_startStat ss hLs
      have hle := Finset.sum_nonpos fun i (_ : i ∈ Finset.univ) => hz i
      rw [hsum] at hle
      have : ss.length = 0 := by exact_mod_cast le_antisymm hle (Nat.cast_nonneg _)
      exact hne (List.length_eq_zero_iff.1 this)
    · rw [if_neg hs]; exact hθ.startprob i
  · show TX.IsFin ((if 't' ∈ params then _ else _ : Mat (TX τ) nc) i j)
    by_cases ht : 't' ∈ params
    · rw [if_pos ht, memo_eq]
      exact mstepTransRow_isFin hτ (h2.trans i) j
    · rw [if_neg ht]; exact hθ.transmat i j
  · show TX.IsFin ((if 'e' ∈ params then _ else _ : Categorical.Params (TX τ) nc nf) i k)
    by_cases he : 'e' ∈ params
    · rw [if_pos he, memo_eq]
      exact Categorical.mstepRow_isFin hτ (h2.em i) k
    · rw [if_neg he]; exact hθ.emission i k

/-- **C76** Where no result leaves the range, `fit` of a `CategoricalHMM` from finite parameters on data
that the exact iterates predict with probabilities above `1e-300` never raises, and everything it
computes is finite and as C76 says. -/
theorem C76_fit_in_range (hτ : τ.Total) (hsp : ∀ i, 1 ≤ sp i) (htp : ∀ i j, 1 ≤ tp i j)
    (hep : ∀ i k, 1 ≤ ep i k) {K : ℕ} {θ0' : Theta (TX τ) nc (Categorical.Params (TX τ) nc nf)}
    {θ0 : CatParams nc nf} (h0 : NearModel K θ0' θ0) (hf : AllFin θ0') (ss : List (ObsSeq (Fin nf)))
    (hne : ss ≠ []) {N : ℕ} (hN : ∀ s ∈ ss, s.n ≤ N)
    (hp : ∀ k < nIter, Predictable τ.u (fitSteps nc nf N (totalSamples ss) K k) ss
      ((catEM params sp tp ep ss)^[k] θ0)) (mon : Monitor (TX τ)) :
    let out := fitFrom (catEmission τ ep) (catConfig τ sp tp params nIter) (dataX Categorical.sym ss)
      (some (dataLengths ss)) θ0' mon
    let h := out.monitor.history
    out.raised = none ∧ AllFin out.state ∧
    NearModel (fitSteps nc nf N (totalSamples ss) K h.length) out.state
      ((catEM params sp tp ep ss)^[h.length] θ0) ∧
    ∀ k (hk : k < h.length), ∃ x, h[k] = TX.fin τ x ∧
      |x - Real.log (catL ss ((catEM params sp tp ep ss)^[k] θ0).π
        ((catEM params sp tp ep ss)^[k] θ0).A ((catEM params sp tp ep ss)^[k] θ0).e)| ≤
        historyError τ.u N K params sp tp ep ss θ0 k := by
  intro out h
  set step := emStep (catEmission τ ep) (catConfig τ sp tp params nIter) (dataX Categorical.sym ss)
    (dataLengths ss) with hstep
  have key : ∀ {h : List (TX τ)} {θ' : Theta (TX τ) nc (Categorical.Params (TX τ) nc nf)},
      Runs step h θ0' θ' → h.length ≤ nIter → AllFin θ' ∧ (∀ lp ∈ h, lp ≠ TX.nan τ) ∧
      NearModel (fitSteps nc nf N (totalSamples ss) K h.length) θ' ((catEM params sp tp ep ss)^[h.length] θ0) := by
    intro h θ' hr
    induction hr with
    | nil => exact fun _ => ⟨hf, by simp, h0⟩
    | @snoc h1 s s' s'' v hr1 hs ih =>
      intro hl
      rw [List.length_append, List.length_singleton] at hl
      obtain ⟨i1, i2, i3⟩ := ih h0 hf (by omega)
      obtain ⟨θ'', lp, j1, j2, j3⟩ := emStep_isFin (sp := sp) (tp := tp) (ep := ep) (params := params)
        (nIter := nIter) hτ hsp i3 i1 ss hne (hp h1.length (by omega))
      have hs' := hs.symm.trans j1
      cases hs'
      refine ⟨j2, ?_, ?_⟩
      · intro lp' hlp
        rcases List.mem_append.1 hlp with hlp | hlp
        · exact i2 lp' hlp
        · rw [List.mem_singleton.1 hlp]; exact j3.ne_nan
      · rw [List.length_append, List.length_singleton, Function.iterate_succ_apply']
        exact (C76_em_step hτ.hasMinSum hsp htp hep i3 ss hne hN j1 j3.ne_nan).2 j2.noNaN
  obtain ⟨h', r1, r2, r3, -, -, r6⟩ := fitLoop_spec (step := step) nIter θ0' mon.reset rfl
  have hh : h = h' := by
    show (fitLoop step nIter θ0' mon.reset).monitor.history = h'
    rw [r3]; simp [Monitor.reset]
  rw [← hh] at r1 r2 r6
  obtain ⟨k1, k2, k3⟩ := key r1 r2
  refine ⟨?_, k1, k3, ?_⟩
  · cases hra : out.raised with
    | none => rfl
    | some e =>
      obtain ⟨q1, q2, -⟩ := r6 e hra
      obtain ⟨θ'', lp, j1, -, -⟩ := emStep_isFin (sp := sp) (tp := tp) (ep := ep) (params := params)
        (nIter := nIter) hτ hsp k3 k1 ss hne (hp h.length q1)
      cases q2.symm.trans j1
  · intro k hk
    obtain ⟨x, x1, -, x2⟩ := (C76_run hτ.hasMinSum hsp htp hep h0 ss hne hN r1 k2 (fun h₁ θ₁ hpre hr =>
      (key hr ((hpre.length_le).trans r2)).1.noNaN)).2 k hk
    exact ⟨x, x1, x2⟩

end Verif
