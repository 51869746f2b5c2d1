import Verif.Proofs.FitRuns
import Verif.Props.Demo

/-!
# Properties of training that hold for every emission family: C18, C19, C20, C23, C29 (update), C60
-/

namespace Verif
open FloatLike XF Hmmc Spec
open scoped Classical

variable {nc n : ℕ} {Obs D P S : Type}

/-! ## C18 -/

/-- **C18** The new `startprob_`: non-negative, sums to one, zero where the old one was zero, as
soon as one allowed entry of `prior - 1 + statistic` is positive; all NaN otherwise. -/
theorem C18_start (prior old stat : Fin n → ℝ) :
    ((∃ i, old i ≠ 0 ∧ 0 < prior i - 1 + stat i) →
      ∃ p : Fin n → ℝ, mstepStart (fun i => fin (prior i)) (fun i => fin (old i))
          (fun i => fin (stat i)) = (fun i => fin (p i)) ∧
        (∀ i, 0 ≤ p i) ∧ ∑ i, p i = 1 ∧ (∀ i, old i = 0 → p i = 0) ∧
        (∀ i, prior i - 1 + stat i ≤ 0 → p i = 0) ∧
        (∀ i j, old i ≠ 0 → old j ≠ 0 → 0 ≤ prior i - 1 + stat i → 0 ≤ prior j - 1 + stat j →
          p i * (prior j - 1 + stat j) = p j * (prior i - 1 + stat i))) ∧
    ((¬ ∃ i, old i ≠ 0 ∧ 0 < prior i - 1 + stat i) →
      mstepStart (fun i => fin (prior i)) (fun i => fin (old i)) (fun i => fin (stat i)) =
        fun _ => .nan) := by
  have key : (∑ j, mapCounts prior old stat j = 0) ↔
      ¬ ∃ i, old i ≠ 0 ∧ 0 < prior i - 1 + stat i := by
    constructor
    · rintro h ⟨i, h1, h2⟩
      have := mapCounts_all_zero h i
      simp only [mapCounts, h1, if_false] at this
      exact absurd (max_eq_right_iff.1 this) (not_le.2 h2)
    · intro h
      refine Finset.sum_eq_zero fun i _ => ?_
      unfold mapCounts
      split
      · rfl
      · next h0 =>
        push Not at h
        exact max_eq_right (h i h0)
  constructor
  · intro h
    have hS : ∑ j, mapCounts prior old stat j ≠ 0 := fun h0 => (key.1 h0) h
    refine ⟨mapUpdate prior old stat, ?_, mapUpdate_nonneg _ _ _, sum_mapUpdate hS, ?_, ?_, ?_⟩
    · rw [mstepStart_fin, if_neg hS]
    · intro i hi; simp [mapUpdate, mapCounts, hi]
    · intro i hi
      have : mapCounts prior old stat i = 0 := by
        unfold mapCounts; split
        · rfl
        · exact max_eq_right hi
      simp [mapUpdate, this]
    · intro i j hi hj h1 h2
      simp only [mapUpdate, mapCounts, hi, hj, if_false, max_eq_left h1, max_eq_left h2]
      ring
  · intro h
    rw [mstepStart_fin, if_pos (key.2 h)]

/-- **C18** A row of the new `transmat_`: non-negative, zero where the old one was; sums to one as
soon as one allowed entry of `prior - 1 + statistic` is positive, entirely zero otherwise. -/
theorem C18_trans (prior old stat : Fin n → ℝ) :
    ∃ p : Fin n → ℝ, mstepTransRow (fun i => fin (prior i)) (fun i => fin (old i))
        (fun i => fin (stat i)) = (fun i => fin (p i)) ∧
      (∀ i, 0 ≤ p i) ∧ (∀ i, old i = 0 → p i = 0) ∧ (∀ i, prior i - 1 + stat i ≤ 0 → p i = 0) ∧
      ((∃ i, old i ≠ 0 ∧ 0 < prior i - 1 + stat i) → ∑ i, p i = 1) ∧
      ((¬ ∃ i, old i ≠ 0 ∧ 0 < prior i - 1 + stat i) → ∀ i, p i = 0) ∧
      (∀ i j, old i ≠ 0 → old j ≠ 0 → 0 ≤ prior i - 1 + stat i → 0 ≤ prior j - 1 + stat j →
        p i * (prior j - 1 + stat j) = p j * (prior i - 1 + stat i)) := by
  refine ⟨mapUpdate prior old stat, mstepTransRow_fin _ _ _, mapUpdate_nonneg _ _ _,
    ?_, ?_, ?_, ?_, ?_⟩
  · intro i hi; simp [mapUpdate, mapCounts, hi]
  · intro i hi
    have : mapCounts prior old stat i = 0 := by
      unfold mapCounts; split
      · rfl
      · exact max_eq_right hi
    simp [mapUpdate, this]
  · rintro ⟨i, h1, h2⟩
    refine sum_mapUpdate fun h => ?_
    have := mapCounts_all_zero h i
    simp only [mapCounts, h1, if_false] at this
    exact absurd (max_eq_right_iff.1 this) (not_le.2 h2)
  · intro h i
    have : mapCounts prior old stat i = 0 := by
      unfold mapCounts; split
      · rfl
      · next h0 => push Not at h; exact max_eq_right (h i h0)
    simp [mapUpdate, this]
  · intro i j hi hj h1 h2
    simp only [mapUpdate, mapCounts, hi, hj, if_false, max_eq_left h1, max_eq_left h2]
    ring

example : ∃ p : Fin 3 → ℝ, mstepStart (fun _ => fin 1) (fun i => fin (![1/2, 1/2, 0] i))
    (fun i => fin (![3, 1, 0] i)) = (fun i => fin (p i)) ∧ (∀ i, 0 ≤ p i) ∧ ∑ i, p i = 1 := by
  obtain ⟨p, h1, h2, h3, _⟩ := (C18_start (fun _ => 1) ![1/2, 1/2, 0] ![3, 1, 0]).1
    ⟨0, by norm_num, by norm_num⟩
  exact ⟨p, h1, h2, h3⟩

/-- A start prior below one can make the whole `startprob_` NaN. -/
example : mstepStart (fun _ => fin (1/2)) (fun _ : Fin 3 => fin (1/3)) (fun i => fin (![1/3, 1/3, 1/3] i)) =
    fun _ => .nan :=
  (C18_start (fun _ => 1/2) (fun _ => 1/3) ![1/3, 1/3, 1/3]).2 (by
    rintro ⟨i, _, h⟩; fin_cases i <;> norm_num at h)

/-! ## C19 -/

theorem zero_div_xf (s : XF) : (fin 0 / s : XF) = fin 0 ∨ (fin 0 / s : XF) = nan := by
  cases s with
  | nan => exact Or.inr rfl
  | ninf => exact Or.inl rfl
  | pinf => exact Or.inl rfl
  | fin r =>
    rw [fin_div_eq]
    split
    · right; simp [infMul]
    · left; simp

/-- **C19** One M-step, for arbitrary (even NaN or infinite) priors and statistics: a zero entry
of `startprob_` stays zero, or the vector becomes NaN there. -/
theorem C19_start_step (prior old stat : Row XF n) (i : Fin n) (h : old i = fin 0) :
    mstepStart prior old stat i = fin 0 ∨ mstepStart prior old stat i = nan := by
  simp only [mstepStart, memo_eq, normalizeVec, h, zero_def, fin_eq, decide_true, if_true]
  exact zero_div_xf _

/-- **C19** The same for `transmat_`. -/
theorem C19_trans_step (prior old stat : Row XF n) (j : Fin n) (h : old j = fin 0) :
    mstepTransRow prior old stat j = fin 0 ∨ mstepTransRow prior old stat j = nan := by
  simp only [mstepTransRow, memo_eq, normalizeRow, h, zero_def, fin_eq, decide_true, if_true]
  exact zero_div_xf _

section Generic
variable {α : Type} [FloatLike α] [NeZero nc] {E : Emission α nc Obs P S} {cfg : Config α nc}
  {X : List Obs} {lengths : List Int}

theorem emStep_eq_doMstep {θ θ' : Theta α nc P} {v : α}
    (h : emStep E cfg X lengths θ = .ok (θ', v)) : ∃ st, θ' = doMstep E cfg θ st := by
  simp only [emStep, bind, Except.bind, pure, Except.pure] at h
  cases h1 : doEstep E cfg θ X lengths with
  | error e => simp [h1] at h
  | ok w =>
    simp only [h1, Except.ok.injEq, Prod.mk.injEq] at h
    exact ⟨w.1, h.1.symm⟩

theorem runs_of_fit (E : Emission α nc Obs P S) (cfg : Config α nc) (X : List Obs)
    (lengths : Option (List Int)) (θ : Theta α nc P) (mon : Monitor α) :
    Runs (emStep E cfg X (lengths.getD [(X.length : Int)]))
      (fitFrom E cfg X lengths θ mon).monitor.history θ (fitFrom E cfg X lengths θ mon).state := by
  obtain ⟨h, h1, _, h3, _⟩ := fitLoop_spec (step := emStep E cfg X (lengths.getD [(X.length : Int)]))
    cfg.nIter θ mon.reset rfl
  have : (fitFrom E cfg X lengths θ mon).monitor.history = h := by
    unfold fitFrom; rw [h3]; simp [Monitor.reset]
  rw [this]; exact h1

/-- A property kept by every M-step holds at the end of `fit`. -/
theorem runs_invariant {step : Theta α nc P → Except PyErr (Theta α nc P × α)} {I : Theta α nc P → Prop}
    (hI : ∀ θ θ' v, I θ → step θ = .ok (θ', v) → I θ') {h : List α} {θ θ' : Theta α nc P}
    (hr : Runs step h θ θ') (h0 : I θ) : I θ' := by
  induction hr with
  | nil => exact h0
  | snoc _ h2 ih => exact hI _ _ _ (ih h0) h2

end Generic

/-- **C19** A whole `fit`, any data, any emission family, any priors: an entry of `startprob_`
that starts at zero ends at zero, unless an iterate of EM had NaN at that entry. -/
theorem C19_start_fit [NeZero nc] (E : Emission XF nc Obs P S) (cfg : Config XF nc) (X : List Obs)
    (lengths : Option (List Int)) (θ : Theta XF nc P) (mon : Monitor XF) (i : Fin nc)
    (h0 : θ.startprob i = fin 0) :
    (fitFrom E cfg X lengths θ mon).state.startprob i = fin 0 ∨
      ∃ h θ₁, Runs (emStep E cfg X (lengths.getD [(X.length : Int)])) h θ θ₁ ∧ h.length ≤ cfg.nIter ∧
        θ₁.startprob i = nan := by
  obtain ⟨h, hr, hlen, hrest⟩ := fitLoop_spec
    (step := emStep E cfg X (lengths.getD [(X.length : Int)])) cfg.nIter θ mon.reset rfl
  clear hrest
  change Runs _ h θ (fitFrom E cfg X lengths θ mon).state at hr
  generalize (fitFrom E cfg X lengths θ mon).state = θ' at hr
  induction hr with
  | nil => exact Or.inl h0
  | @snoc h s s' s'' v h1 h2 ih =>
    have hl : h.length ≤ cfg.nIter := by simp at hlen; omega
    rcases ih h0 hl with ih | ih
    · obtain ⟨st, rfl⟩ := emStep_eq_doMstep h2
      by_cases hs : 's' ∈ cfg.params
      · have hc := C19_start_step cfg.startprobPrior s'.startprob st.base.start i ih
        simp only [doMstep, hs, if_true]
        rcases hc with hc | hc
        · exact Or.inl hc
        · exact Or.inr ⟨_, _, Runs.snoc h1 h2, hlen, by simp [doMstep, hs, hc]⟩
      · left; simp [doMstep, hs, ih]
    · exact Or.inr ih

/-- **C19** The same for an entry of `transmat_`. -/
theorem C19_trans_fit [NeZero nc] (E : Emission XF nc Obs P S) (cfg : Config XF nc) (X : List Obs)
    (lengths : Option (List Int)) (θ : Theta XF nc P) (mon : Monitor XF) (i j : Fin nc)
    (h0 : θ.transmat i j = fin 0) :
    (fitFrom E cfg X lengths θ mon).state.transmat i j = fin 0 ∨
      ∃ h θ₁, Runs (emStep E cfg X (lengths.getD [(X.length : Int)])) h θ θ₁ ∧ h.length ≤ cfg.nIter ∧
        θ₁.transmat i j = nan := by
  obtain ⟨h, hr, hlen, hrest⟩ := fitLoop_spec
    (step := emStep E cfg X (lengths.getD [(X.length : Int)])) cfg.nIter θ mon.reset rfl
  clear hrest
  change Runs _ h θ (fitFrom E cfg X lengths θ mon).state at hr
  generalize (fitFrom E cfg X lengths θ mon).state = θ' at hr
  induction hr with
  | nil => exact Or.inl h0
  | @snoc h s s' s'' v h1 h2 ih =>
    have hl : h.length ≤ cfg.nIter := by simp at hlen; omega
    rcases ih h0 hl with ih | ih
    · obtain ⟨st, rfl⟩ := emStep_eq_doMstep h2
      by_cases hs : 't' ∈ cfg.params
      · have hc := C19_trans_step (cfg.transmatPrior i) (s'.transmat i) (st.base.trans i) j ih
        simp only [doMstep, hs, if_true, memo_eq]
        rcases hc with hc | hc
        · exact Or.inl hc
        · exact Or.inr ⟨_, _, Runs.snoc h1 h2, hlen, by simp [doMstep, hs, hc]⟩
      · left; simp [doMstep, hs, ih]
    · exact Or.inr ih

/-! ## C20 -/

section Generic
variable {α : Type} [FloatLike α] [NeZero nc]

/-- **C20** Without `'s'` in `params`, `fit` leaves `startprob_` untouched: any data, any number of
iterations, any emission family, any floating-point arithmetic. -/
theorem C20_start (E : Emission α nc Obs P S) (cfg : Config α nc) (X : List Obs)
    (lengths : Option (List Int)) (θ : Theta α nc P) (mon : Monitor α) (hs : 's' ∉ cfg.params) :
    (fitFrom E cfg X lengths θ mon).state.startprob = θ.startprob :=
  runs_invariant (I := fun θ' => θ'.startprob = θ.startprob) (fun _ _ _ h1 h2 => by
    obtain ⟨st, rfl⟩ := emStep_eq_doMstep h2
    simpa [doMstep, hs] using h1) (runs_of_fit E cfg X lengths θ mon) rfl

/-- **C20** Without `'t'` in `params`, `fit` leaves `transmat_` untouched. -/
theorem C20_trans (E : Emission α nc Obs P S) (cfg : Config α nc) (X : List Obs)
    (lengths : Option (List Int)) (θ : Theta α nc P) (mon : Monitor α) (hs : 't' ∉ cfg.params) :
    (fitFrom E cfg X lengths θ mon).state.transmat = θ.transmat :=
  runs_invariant (I := fun θ' => θ'.transmat = θ.transmat) (fun _ _ _ h1 h2 => by
    obtain ⟨st, rfl⟩ := emStep_eq_doMstep h2
    simpa [doMstep, hs] using h1) (runs_of_fit E cfg X lengths θ mon) rfl

/-- A component `f` of the emission parameters that the M-step does not touch is not touched by
`fit`. -/
theorem fit_keeps {γ : Type} (f : P → γ) (E : Emission α nc Obs P S) (cfg : Config α nc) (X : List Obs)
    (lengths : Option (List Int)) (θ : Theta α nc P) (mon : Monitor α)
    (hf : ∀ p st, f (E.mstep cfg.params p st) = f p) :
    f (fitFrom E cfg X lengths θ mon).state.emission = f θ.emission :=
  runs_invariant (I := fun θ' => f θ'.emission = f θ.emission) (fun _ _ _ h1 h2 => by
    obtain ⟨st, rfl⟩ := emStep_eq_doMstep h2
    simp only [doMstep, hf, h1]) (runs_of_fit E cfg X lengths θ mon) rfl

/-- **C20** (CategoricalHMM) Without `'e'` in `params`, `fit` leaves `emissionprob_` untouched. -/
theorem C20_categorical {nf : ℕ} (prior : Categorical.Params α nc nf) (cfg : Config α nc)
    (X : List Int) (lengths : Option (List Int)) (θ : Theta α nc (Categorical.Params α nc nf))
    (mon : Monitor α) (hs : 'e' ∉ cfg.params) :
    (fitFrom (Categorical.emission prior) cfg X lengths θ mon).state.emission = θ.emission :=
  fit_keeps id _ cfg X lengths θ mon fun p st => by simp [Categorical.emission, hs]

/-! ## C23 -/

/-- **C23** Any data, tolerance, emission family and arithmetic: `fit` performs `k` updates with
`k ≤ n_iter` and (unless it is zero) `k` at most the monitor's `n_iter`; `monitor_.history` has
exactly `k` entries and `monitor_.iter = k`; entry `j` is the score on the training data of the
parameters after `j` updates; the stopping test fails at every `1 ≤ j < k`; and if `fit` did not
raise, the test holds at `k` or the cap is reached. -/
theorem C23_fit_history (E : Emission α nc Obs P S) (cfg : Config α nc) (X : List Obs)
    (lengths : Option (List Int)) (θ : Theta α nc P) (mon : Monitor α) :
    let out := fitFrom E cfg X lengths θ mon
    let step := emStep E cfg X (lengths.getD [(X.length : Int)])
    let h := out.monitor.history
    let stop (h : List α) := h.length = mon.nIter ∨
      ∃ l a b, h = l ++ [a, b] ∧ lt (b - a) mon.tol = true
    Runs step h θ out.state ∧ h.length ≤ cfg.nIter ∧ (mon.nIter ≠ 0 → h.length ≤ mon.nIter) ∧
      out.monitor.iter = h.length ∧ out.monitor.tol = mon.tol ∧ out.monitor.nIter = mon.nIter ∧
      (∀ (j : ℕ) (hj : j < h.length), ∃ θj, Runs step (h.take j) θ θj ∧
        score (E.toHmm cfg.implementation θj) X (some (lengths.getD [(X.length : Int)])) =
          .ok h[j]) ∧
      (∀ j, 0 < j → j < h.length → ¬ stop (h.take j)) ∧
      (out.raised = none → h.length = cfg.nIter ∨ stop h) := by
  intro out step h stop
  obtain ⟨h', h1, h2, h3, h4, h5, _⟩ := fitLoop_spec (step := step) cfg.nIter θ mon.reset rfl
  have hout : out.monitor = { mon.reset with
      history := mon.reset.history ++ h', iter := mon.reset.iter + h'.length } := h3
  have hh : h = h' := by
    show out.monitor.history = h'
    rw [hout]; simp [Monitor.reset]
  rw [← hh] at h1 h2 h4 h5
  have hstop : ∀ j, 0 < j → j < h.length → ¬ stop (h.take j) := by
    intro j hj0 hj hst
    have := h4 j hj0 hj
    rw [← Bool.not_eq_true] at this
    refine this ((converged_iff _ ?_).2 ?_)
    · simp [Monitor.reset, hj.le]
    · simpa only [Monitor.reset, List.nil_append] using hst
  refine ⟨h1, h2, ?_, ?_, ?_, ?_, ?_, hstop, ?_⟩
  · intro hn
    by_contra hlt
    rw [not_le] at hlt
    refine hstop mon.nIter (Nat.pos_of_ne_zero hn) hlt (Or.inl ?_)
    rw [List.length_take]; omega
  · rw [hout, hh]; simp [Monitor.reset]
  · rw [hout]; rfl
  · rw [hout]; rfl
  · intro j hj
    obtain ⟨s1, s2, a, b⟩ := h1.split j hj
    exact ⟨s1, a, emStep_score b⟩
  · intro hr
    rcases h5 hr with h5 | h5
    · exact Or.inl h5
    · right
      have := (converged_iff (fitLoop step cfg.nIter θ mon.reset).monitor (by
        rw [h3]; simp [Monitor.reset])).1 h5
      have e : (fitLoop step cfg.nIter θ mon.reset).monitor.history = h := rfl
      have e1 : (fitLoop step cfg.nIter θ mon.reset).monitor.nIter = mon.nIter := by rw [h3]; rfl
      have e2 : (fitLoop step cfg.nIter θ mon.reset).monitor.tol = mon.tol := by rw [h3]; rfl
      rw [e, e1, e2] at this
      exact this

/-! ## C60 -/

/-- **C60** When `fit` raises, the exception comes from the E-step of the iteration after the last
completed one: the estimator holds exactly the parameters after `k` updates, where `k` is the
length of the history, and the iteration cap was not reached. -/
theorem C60_raise_keeps_last (E : Emission α nc Obs P S) (cfg : Config α nc) (X : List Obs)
    (lengths : Option (List Int)) (θ : Theta α nc P) (mon : Monitor α) (e : PyErr)
    (he : (fitFrom E cfg X lengths θ mon).raised = some e) :
    let out := fitFrom E cfg X lengths θ mon
    Runs (emStep E cfg X (lengths.getD [(X.length : Int)])) out.monitor.history θ out.state ∧
      doEstep E cfg out.state X (lengths.getD [(X.length : Int)]) = .error e ∧
      out.monitor.history.length < cfg.nIter := by
  intro out
  refine ⟨runs_of_fit E cfg X lengths θ mon, ?_⟩
  obtain ⟨h, h1, h2, h3, _, _, h6⟩ := fitLoop_spec
    (step := emStep E cfg X (lengths.getD [(X.length : Int)])) cfg.nIter θ mon.reset rfl
  obtain ⟨a, b, _⟩ := h6 e he
  have hh : out.monitor.history = h := by
    show (fitFrom E cfg X lengths θ mon).monitor.history = h
    unfold fitFrom; rw [h3]; simp [Monitor.reset]
  refine ⟨?_, by rw [hh]; exact a⟩
  change emStep E cfg X _ out.state = .error e at b
  simp only [emStep, bind, Except.bind, pure, Except.pure] at b
  cases h7 : doEstep E cfg out.state X (lengths.getD [(X.length : Int)]) with
  | error e' => simpa [h7] using b
  | ok w => simp [h7] at b

end Generic

/-! ## C29, the update -/

/-- **C29** For priors at least one, the update maximises `Σ (prior - 1 + count) log p` over all
sub-distributions `p` that vanish where the old value did (and are positive where a count is; for
the others the objective is `-∞`). -/
theorem C29_update_optimal (prior old stat : Fin n → ℝ) (hp : ∀ i, 1 ≤ prior i) (hs : ∀ i, 0 ≤ stat i)
    (p' : Fin n → ℝ) (h0 : ∀ i, 0 ≤ p' i) (h1 : ∑ i, p' i ≤ 1)
    (hz : ∀ i, old i = 0 → p' i = 0)
    (hpos : ∀ i, old i ≠ 0 → 0 < prior i - 1 + stat i → 0 < p' i) :
    ∃ p : Fin n → ℝ, mstepTransRow (fun i => fin (prior i)) (fun i => fin (old i))
        (fun i => fin (stat i)) = (fun i => fin (p i)) ∧
      ∑ i, (prior i - 1 + stat i) * Real.log (p' i) ≤ ∑ i, (prior i - 1 + stat i) * Real.log (p i) := by
  refine ⟨mapUpdate prior old stat, mstepTransRow_fin _ _ _, ?_⟩
  have hg := gibbs_counts (c := mapCounts prior old stat) (p := p') (mapCounts_nonneg _ _ _) h0 (by
    intro i hi
    by_cases ho : old i = 0
    · simp [mapCounts, ho] at hi
    · refine hpos i ho ?_
      simp only [mapCounts, ho, if_false] at hi
      rcases lt_max_iff.1 hi with h | h
      · exact h
      · exact absurd h (lt_irrefl _)) h1
  rw [← sub_nonneg, ← Finset.sum_sub_distrib]
  refine hg.trans (le_of_eq (Finset.sum_congr rfl fun i _ => ?_))
  by_cases ho : old i = 0
  · have e1 : mapCounts prior old stat i = 0 := by simp [mapCounts, ho]
    have e2 : mapUpdate prior old stat i = 0 := by simp [mapUpdate, e1]
    simp [e1, e2, hz i ho]
  · have e : mapCounts prior old stat i = prior i - 1 + stat i := by
      simp only [mapCounts, ho, if_false]
      exact max_eq_left (by have := hp i; have := hs i; linarith)
    have em : mapUpdate prior old stat i =
      mapCounts prior old stat i / ∑ j, mapCounts prior old stat j := rfl
    rw [← em, e]
    by_cases hc : prior i - 1 + stat i = 0
    · simp [hc]
    · have hcp : 0 < prior i - 1 + stat i := lt_of_le_of_ne
        (by have := hp i; have := hs i; linarith) (Ne.symm hc)
      have hm : 0 < mapUpdate prior old stat i := by
        rw [em]
        have hci : 0 < mapCounts prior old stat i := by rw [e]; exact hcp
        exact div_pos hci (lt_of_lt_of_le hci (Finset.single_le_sum
          (f := mapCounts prior old stat) (fun j _ => mapCounts_nonneg _ _ _ _) (Finset.mem_univ i)))
      rw [Real.log_div hm.ne' (hpos i ho hcp).ne']; ring

example : ∃ p : Fin 2 → ℝ, mstepTransRow (fun _ => fin 2) (fun _ => fin (1/2))
      (fun i => fin (![3, 1] i)) = (fun i => fin (p i)) ∧
    ∑ i, (2 - 1 + ![3, 1] i) * Real.log (![1/4, 3/4] i) ≤
      ∑ i, (2 - 1 + ![3, 1] i) * Real.log (p i) :=
  C29_update_optimal (fun _ => 2) (fun _ => 1/2) ![3, 1] (by norm_num)
    (by intro i; fin_cases i <;> norm_num) ![1/4, 3/4] (by intro i; fin_cases i <;> norm_num)
    (by norm_num [Fin.sum_univ_two]) (by norm_num)
    (by intro i; fin_cases i <;> norm_num)

end Verif
