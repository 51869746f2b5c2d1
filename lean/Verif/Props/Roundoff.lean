import Verif.Proofs.RoundoffTotal
import Verif.Proofs.Categorical
import Verif.Num.Binary64
import Verif.Spec.Train
import Mathlib.Data.Fin.VecNotation

/-!
# C75: rounding errors of `score`, `score_samples` and `predict_proba` (`implementation='scaling'`)
-/

set_option autoImplicit false

namespace Verif
open FloatLike Hmmc Spec

variable {τ : Trapped} {nc : ℕ} [NeZero nc] {Obs D : Type} {m : Hmm (TX τ) nc Obs} {obs : D → Obs}
  {kp ka kb : ℕ} {π : Fin nc → ℝ} {A : Fin nc → Fin nc → ℝ} {b : D → Fin nc → ℝ}

/-! ## Several sequences -/

theorem seqLoop_nan {γ : Type} (one : List Obs → Except PyErr (TX τ × List γ)) (ss : List (List Obs))
    {out : List γ} {lp : TX τ} {g : List γ} (h : seqLoop one ss (TX.nan τ) out = .ok (lp, g)) :
    lp = TX.nan τ := by
  induction ss generalizing out with
  | nil => cases h; rfl
  | cons s ss ih =>
    simp only [seqLoop] at h
    split at h
    · cases h
    · rw [TX.nan_add] at h; exact ih h

/-- Adding up results that carry an error of their own. -/
theorem seqLoop_near {γ γ' ι : Type} {one : List Obs → Except PyErr (TX τ × List γ)}
    {rows : ι → List Obs} {l e : ι → ℝ} {good : ι → Prop} {R : γ → γ' → Prop} {ref : ι → List γ'}
    (ss : List ι)
    (h1 : ∀ s ∈ ss, ∀ lp g, one (rows s) = .ok (lp, g) → lp ≠ TX.nan τ →
      good s ∧ (∃ r, lp = TX.fin τ r ∧ |r - l s| ≤ e s) ∧ List.Forall₂ R g (ref s))
    {a S W E : ℝ} {k : ℕ} (hS : |S| ≤ W) (hE : 0 ≤ E)
    (ha : |a - S| ≤ ((1 + τ.u) ^ k - 1) * W + (1 + τ.u) ^ k * E) {out : List γ} {ref0 : List γ'}
    (hout : List.Forall₂ R out ref0) {lp : TX τ} {g : List γ}
    (h : seqLoop one (ss.map rows) (TX.fin τ a) out = .ok (lp, g)) (hn : lp ≠ TX.nan τ) :
    (∀ s ∈ ss, good s) ∧ (∃ x, lp = TX.fin τ x ∧ |x - (S + (ss.map l).sum)| ≤
      ((1 + τ.u) ^ (k + ss.length) - 1) * (W + (ss.map fun s => |l s|).sum) +
        (1 + τ.u) ^ (k + ss.length) * (E + (ss.map e).sum)) ∧
      List.Forall₂ R g (ref0 ++ (ss.map ref).flatten) := by
  induction ss generalizing a S W E k out ref0 with
  | nil =>
    cases h
    exact ⟨by simp, ⟨a, rfl, by simpa using ha⟩, by simpa using hout⟩
  | cons s ss ih =>
    simp only [List.map_cons, seqLoop] at h
    split at h
    · cases h
    next lpi gi hi =>
    have hne : lpi ≠ TX.nan τ := by
      rintro rfl
      rw [TX.add_nan] at h
      exact hn (seqLoop_nan _ _ h)
    obtain ⟨hg, ⟨r, rfl, hr⟩, hR⟩ := h1 s List.mem_cons_self _ _ hi hne
    rw [TX.add_fin] at h
    rcases TX.elim_cases (τ := τ) (a + r) with h' | ⟨c, hc, h'⟩
    · rw [h'] at h; exact absurd (seqLoop_nan _ _ h) hn
    rw [h'] at h
    have hc := τ.rel _ _ hc
    have hu := τ.u_nonneg
    have he : 0 ≤ e s := (abs_nonneg _).trans hr
    have hW : 0 ≤ W := (abs_nonneg _).trans hS
    have hp : 1 ≤ (1 + τ.u) ^ k := one_le_pow₀ (by linarith)
    have hS' : |S + l s| ≤ W + |l s| := (abs_add_le _ _).trans (by linarith)
    have h2 : |a + r - (S + l s)| ≤ ((1 + τ.u) ^ k - 1) * W + (1 + τ.u) ^ k * E + e s := by
      rw [show a + r - (S + l s) = (a - S) + (r - l s) by ring]
      exact (abs_add_le _ _).trans (add_le_add ha hr)
    have h3 : |a + r| ≤ ((1 + τ.u) ^ k - 1) * W + (1 + τ.u) ^ k * E + e s + (W + |l s|) := by
      have := abs_add_le (a + r - (S + l s)) (S + l s)
      rw [sub_add_cancel] at this
      linarith
    have h4 : |c - (S + l s)| ≤ ((1 + τ.u) ^ (k + 1) - 1) * (W + |l s|) +
        (1 + τ.u) ^ (k + 1) * (E + e s) := by
      have := abs_add_le (c - (a + r)) (a + r - (S + l s))
      rw [sub_add_sub_cancel] at this
      have h5 := hc.trans (mul_le_mul_of_nonneg_left h3 hu)
      have hl := abs_nonneg (l s)
      have e1 : τ.u * |l s| ≤ ((1 + τ.u) ^ (k + 1) - 1) * |l s| := by
        refine mul_le_mul_of_nonneg_right ?_ hl
        rw [pow_succ]; nlinarith
      have e2 : (1 + τ.u) * e s ≤ (1 + τ.u) ^ (k + 1) * e s := by
        refine mul_le_mul_of_nonneg_right ?_ he
        rw [pow_succ]; nlinarith
      rw [pow_succ] at e1 e2 ⊢
      nlinarith
    obtain ⟨i1, ⟨x, hx, i2⟩, i3⟩ := ih (fun s hs => h1 s (List.mem_cons_of_mem _ hs)) hS'
      (add_nonneg hE he) h4 (List.rel_append hout hR) h
    refine ⟨fun t ht => ?_, ⟨x, hx, ?_⟩, ?_⟩
    · rcases List.mem_cons.1 ht with rfl | ht
      · exact hg
      · exact i1 t ht
    · simp only [List.map_cons, List.sum_cons, List.length_cons]
      rw [show k + (ss.length + 1) = k + 1 + ss.length by omega, ← add_assoc S, ← add_assoc W,
        ← add_assoc E]
      exact i2
    · simpa [List.append_assoc] using i3

theorem scoreCore_near (hm : τ.HasMinSum) (h : Approximates m obs kp ka kb π A b)
    (hi : m.implementation = .scaling) (ss : List (ObsSeq D)) (hne : ss ≠ []) {cp : Bool} {lp : TX τ}
    {g : List (Row (TX τ) nc)}
    (ho : scoreCore m (dataX obs ss) (some (dataLengths ss)) cp = .ok (lp, g)) (hn : lp ≠ TX.nan τ)
    {N : ℕ} (hN : ∀ s ∈ ss, s.n ≤ N) :
    (∀ s ∈ ss, 0 < likelihood π A (s.weights b) ∧
      ∀ t, τ.q ^ (2 * steps nc s.n kp ka kb + 2) * eps ≤ predictive π A (s.weights b) t) ∧
    (∃ x, lp = TX.fin τ x ∧ |x - Real.log (dataLikelihood π A b ss)| ≤ dataError τ.u kp ka kb π A b ss) ∧
    (cp = true → List.Forall₂ (fun (g : Row (TX τ) nc) (p : Fin nc → ℝ) => ∀ i,
        Near (2 * steps nc N kp ka kb + 2) (g i) (p i)) g
      (ss.map fun s => List.ofFn fun t i => posterior π A (s.weights b) t i).flatten) := by
  unfold scoreCore at ho
  simp only [splitXLengths_data obs ss hne, bind, Except.bind, hi] at ho
  have key : ∀ s ∈ ss, ∀ lp g, scoreOneScaling m cp (s.rows obs) = .ok (lp, g) → lp ≠ TX.nan τ →
      (0 < likelihood π A (s.weights b) ∧
        ∀ t, τ.q ^ (2 * steps nc s.n kp ka kb + 2) * eps ≤ predictive π A (s.weights b) t) ∧
      (∃ r, lp = TX.fin τ r ∧ |r - Real.log (likelihood π A (s.weights b))| ≤
        scoreError τ.u (s.n + 1) (steps nc s.n kp ka kb) (surprise π A (s.weights b))) ∧
      List.Forall₂ (fun (g : Row (TX τ) nc) (p : Fin nc → ℝ) => cp = true → ∀ i,
          Near (2 * steps nc N kp ka kb + 2) (g i) (p i)) g
        (if cp then List.ofFn fun t i => posterior π A (s.weights b) t i else []) := by
    intro s hs lp g hsc hne
    obtain ⟨h1, h2, h3, h4⟩ := scoreOneScaling_near hm h s.x hsc hne
    refine ⟨⟨h1, h3⟩, h2, ?_⟩
    cases cp with
    | false =>
      have : g = [] := by
        unfold scoreOneScaling at hsc
        simp only [bind, Except.bind] at hsc
        split at hsc
        · cases hsc
        · split at hsc
          · cases hsc
          · cases hsc; rfl
      subst this
      exact List.Forall₂.nil
    | true =>
      refine (h4 rfl).imp fun g p hgp _ i => (hgp i).mono ?_
      have := Nat.mul_le_mul_right (ka + kb + nc + 3) (hN s hs)
      unfold steps; omega
  obtain ⟨h1, ⟨x, hx, h2⟩, h3⟩ := seqLoop_near ss key (a := 0) (S := 0) (W := 0) (E := 0) (k := 0)
    (by simp) le_rfl (by simp) List.Forall₂.nil ho hn
  refine ⟨h1, ⟨x, hx, ?_⟩, ?_⟩
  · have e : Real.log (dataLikelihood π A b ss) =
        (ss.map fun s => Real.log (likelihood π A (s.weights b))).sum := by
      unfold dataLikelihood
      rw [Real.log_list_prod, List.map_map]
      · rfl
      · intro y hy
        obtain ⟨s, hs, rfl⟩ := List.mem_map.1 hy
        exact (h1 s hs).1.ne'
    rw [e]
    simpa [dataError] using h2
  · rintro rfl
    simpa using h3

theorem forall₂_left {β γ : Type} {R : β → γ → Prop} {l : List β} {l' : List γ}
    (h : List.Forall₂ R l l') : ∀ x ∈ l, ∃ y, R x y := by
  induction h with
  | nil => simp
  | @cons x y _ _ hxy _ ih =>
    intro z hz
    rcases List.mem_cons.1 hz with rfl | hz
    · exact ⟨y, hxy⟩
    · exact ih z hz

/-! ## C75 -/

/-- **C75** In floating-point arithmetic with relative error `u`, a score that is not NaN is finite, the
likelihood is positive, and the score is within `dataError` of the log-likelihood. -/
theorem C75_score (hm : τ.HasMinSum) (h : Approximates m obs kp ka kb π A b)
    (hi : m.implementation = .scaling) (ss : List (ObsSeq D)) (hne : ss ≠ []) {lp : TX τ}
    (ho : score m (dataX obs ss) (some (dataLengths ss)) = .ok lp) (hn : lp ≠ TX.nan τ) :
    0 < dataLikelihood π A b ss ∧ ∃ x, lp = TX.fin τ x ∧
      |x - Real.log (dataLikelihood π A b ss)| ≤ dataError τ.u kp ka kb π A b ss := by
  unfold score at ho
  cases hc : scoreCore m (dataX obs ss) (some (dataLengths ss)) false with
  | error e => rw [hc] at ho; cases ho
  | ok v =>
    rw [hc] at ho; cases ho
    obtain ⟨h1, h2, -⟩ := scoreCore_near hm h hi ss hne hc hn
      (N := (ss.map (·.n)).sum) fun s hs => List.le_sum_of_mem (List.mem_map.2 ⟨s, hs, rfl⟩)
    refine ⟨List.prod_pos ?_, h2⟩
    intro y hy
    obtain ⟨s, hs, rfl⟩ := List.mem_map.1 hy
    exact (h1 s hs).1

/-- **C75** In the same arithmetic every posterior probability of `score_samples` and `predict_proba`
is the posterior probability of the state up to `2 * steps + 2` relative errors (or NaN, where a
result has left the range). -/
theorem C75_posteriors (hm : τ.HasMinSum) (h : Approximates m obs kp ka kb π A b)
    (hi : m.implementation = .scaling) (ss : List (ObsSeq D)) (hne : ss ≠ []) {lp : TX τ}
    {g : List (Row (TX τ) nc)}
    (ho : scoreSamples m (dataX obs ss) (some (dataLengths ss)) = .ok (lp, g)) (hn : lp ≠ TX.nan τ)
    {N : ℕ} (hN : ∀ s ∈ ss, s.n ≤ N) :
    predictProba m (dataX obs ss) (some (dataLengths ss)) = .ok g ∧
    List.Forall₂ (fun (g : Row (TX τ) nc) (p : Fin nc → ℝ) => ∀ i,
        Near (2 * steps nc N kp ka kb + 2) (g i) (p i)) g
      (ss.map fun s => List.ofFn fun t i => posterior π A (s.weights b) t i).flatten := by
  refine ⟨?_, (scoreCore_near hm h hi ss hne ho hn hN).2.2 rfl⟩
  unfold predictProba
  rw [ho]; rfl

/-- **C75** The underflow check of the scaling kernel in floating-point arithmetic: a score that is not
NaN means that every predictive probability is at least `1e-300` up to roundoff, … -/
theorem C75_checked (hm : τ.HasMinSum) (h : Approximates m obs kp ka kb π A b)
    (hi : m.implementation = .scaling) (ss : List (ObsSeq D)) (hne : ss ≠ []) {lp : TX τ}
    (ho : score m (dataX obs ss) (some (dataLengths ss)) = .ok lp) (hn : lp ≠ TX.nan τ) :
    ∀ s ∈ ss, ∀ t, (1 - τ.u) ^ (2 * steps nc s.n kp ka kb + 2) * (1 / 10 ^ 300) ≤
      predictive π A (s.weights b) t := by
  unfold score at ho
  cases hc : scoreCore m (dataX obs ss) (some (dataLengths ss)) false with
  | error e => rw [hc] at ho; cases ho
  | ok v =>
    rw [hc] at ho; cases ho
    obtain ⟨h1, -, -⟩ := scoreCore_near hm h hi ss hne hc hn
      (N := (ss.map (·.n)).sum) fun s hs => List.le_sum_of_mem (List.mem_map.2 ⟨s, hs, rfl⟩)
    intro s hs t
    rw [← eps_eq]
    exact (h1 s hs).2 t

/-- **C75** … and data whose predictive probabilities exceed `1e-300` by the roundoff are never
rejected. -/
theorem C75_accepted (hm : τ.HasMinSum) (h : Approximates m obs kp ka kb π A b)
    (hi : m.implementation = .scaling) (ss : List (ObsSeq D)) (hne : ss ≠ [])
    (hp : ∀ s ∈ ss, ∀ t, (1 / 10 ^ 300 : ℝ) ≤
      (1 - τ.u) ^ (2 * steps nc s.n kp ka kb + 1) * predictive π A (s.weights b) t) :
    ∃ lp, score m (dataX obs ss) (some (dataLengths ss)) = .ok lp := by
  unfold score scoreCore
  simp only [splitXLengths_data obs ss hne, bind, Except.bind, hi]
  have hone : ∀ s ∈ ss, ∃ v, scoreOneScaling m false (s.rows obs) = .ok v := by
    intro s hs
    obtain ⟨rows, hr, hb⟩ := h.frame s.x
    obtain ⟨v, hv⟩ := forwardScaling_ok hm h.startprob h.transmat hb fun t => by
      rw [eps_eq]; exact hp s hs t
    unfold scoreOneScaling
    rw [show s.rows obs = List.ofFn fun t => obs (s.x t) from rfl]
    simp only [hr, hv, bind, Except.bind]
    exact ⟨_, rfl⟩
  suffices ∀ (ss : List (ObsSeq D)) (a : TX τ) (out : List (Row (TX τ) nc)),
      (∀ s ∈ ss, ∃ v, scoreOneScaling m false (s.rows obs) = .ok v) →
      ∃ v, seqLoop (scoreOneScaling m false) (ss.map (ObsSeq.rows obs)) a out = .ok v by
    obtain ⟨v, hv⟩ := this ss 0 [] hone
    exact ⟨v.1, by rw [hv]; rfl⟩
  intro ss
  induction ss with
  | nil => intro a out _; exact ⟨_, rfl⟩
  | cons s ss ih =>
    intro a out hs
    obtain ⟨v, hv⟩ := hs s List.mem_cons_self
    simp only [List.map_cons, seqLoop, hv]
    exact ih _ _ fun t ht => hs t (List.mem_cons_of_mem _ ht)

/-- **C75** For probabilities (`b ≤ 1`: the discrete emission families) the bound is in terms of the
log-likelihood itself, since the surprise is `-log L`. -/
theorem C75_score_probabilities (hm : τ.HasMinSum) (h : Approximates m obs kp ka kb π A b)
    (hi : m.implementation = .scaling) (hs : Stochastic π A) (hπ : ∀ i, 0 ≤ π i) (hA : ∀ i j, 0 ≤ A i j)
    (hb : ∀ o i, 0 ≤ b o i ∧ b o i ≤ 1) (s : ObsSeq D) {lp : TX τ}
    (ho : score m (dataX obs [s]) (some (dataLengths [s])) = .ok lp) (hn : lp ≠ TX.nan τ) :
    ∃ x, lp = TX.fin τ x ∧ |x - Real.log (likelihood π A (s.weights b))| ≤
      τ.u * |Real.log (likelihood π A (s.weights b))| +
        (1 + τ.u) * scoreError τ.u (s.n + 1) (steps nc s.n kp ka kb)
          (-Real.log (likelihood π A (s.weights b))) := by
  obtain ⟨-, x, hx, he⟩ := C75_score hm h hi [s] (by simp) ho hn
  have hc := C75_checked hm h hi [s] (by simp) ho hn s List.mem_cons_self
  refine ⟨x, hx, ?_⟩
  rw [← surprise_eq (B := s.weights b) hs hπ hA (fun t i => hb _ i) fun t => lt_of_lt_of_le
    (mul_pos (τ.qpow_pos _) (by positivity)) (hc t)]
  simpa [dataError, dataLikelihood] using he

/-- **C75** Where no result leaves the range, `score` returns a number within `dataError` of the
log-likelihood for all data whose predictive probabilities exceed `1e-300` by the roundoff. -/
theorem C75_score_in_range (hτ : τ.Total) (h : Approximates m obs kp ka kb π A b)
    (hπ : ∀ i, m.startprob i ≠ TX.nan τ) (hA : ∀ i j, m.transmat i j ≠ TX.nan τ)
    (hlik : ∀ (X : List D) rows, m.computeLikelihood (X.map obs) = .ok rows →
      ∀ row ∈ rows, ∀ i, row i ≠ TX.nan τ)
    (hi : m.implementation = .scaling) (ss : List (ObsSeq D)) (hne : ss ≠ [])
    (hp : ∀ s ∈ ss, ∀ t, (1 / 10 ^ 300 : ℝ) ≤
      (1 - τ.u) ^ (2 * steps nc s.n kp ka kb + 1) * predictive π A (s.weights b) t) :
    ∃ x, score m (dataX obs ss) (some (dataLengths ss)) = .ok (TX.fin τ x) ∧
      |x - Real.log (dataLikelihood π A b ss)| ≤ dataError τ.u kp ka kb π A b ss := by
  obtain ⟨lp, ho⟩ := C75_accepted hτ.hasMinSum h hi ss hne hp
  suffices hn : lp ≠ TX.nan τ by
    obtain ⟨-, x, rfl, hx⟩ := C75_score hτ.hasMinSum h hi ss hne ho hn
    exact ⟨x, ho, hx⟩
  have fin_of : ∀ {k : ℕ} {x : TX τ} {y : ℝ}, Near k x y → x ≠ TX.nan τ → x.IsFin := fun hx hn => by
    obtain ⟨r, hr, -⟩ := hx.ne_nan hn
    exact ⟨r, hr⟩
  have hone : ∀ s ∈ ss, ∀ lp g, scoreOneScaling m false (s.rows obs) = .ok (lp, g) → lp.IsFin := by
    intro s _ lp g hsc
    obtain ⟨rows, hr, hf⟩ := h.lik (List.ofFn s.x)
    have hrow := hlik _ _ hr
    rw [List.map_ofFn] at hr
    unfold scoreOneScaling at hsc
    rw [show s.rows obs = List.ofFn (obs ∘ s.x) from rfl] at hsc
    simp only [hr, bind, Except.bind] at hsc
    split at hsc
    · cases hsc
    next v hfw =>
    cases hsc
    refine (forwardScaling_isFin hτ (fun i => fin_of (h.startprob i) (hπ i))
      (fun i j => fin_of (h.transmat i j) (hA i j)) (fun row hm i => ?_) hfw).1
    obtain ⟨o, hro⟩ := forall₂_left hf row hm
    exact fin_of (hro i) (hrow row hm i)
  unfold score scoreCore at ho
  simp only [splitXLengths_data obs ss hne, bind, Except.bind, hi] at ho
  suffices ∀ (ss : List (ObsSeq D)) (a lp : TX τ) (out g : List (Row (TX τ) nc)), a.IsFin →
      (∀ s ∈ ss, ∀ lp g, scoreOneScaling m false (s.rows obs) = .ok (lp, g) → lp.IsFin) →
      seqLoop (scoreOneScaling m false) (ss.map (ObsSeq.rows obs)) a out = .ok (lp, g) → lp.IsFin by
    cases hv : seqLoop (scoreOneScaling m false) (ss.map (ObsSeq.rows obs)) 0 [] with
    | error e => rw [hv] at ho; cases ho
    | ok v =>
      rw [hv] at ho
      cases ho
      exact (this ss 0 v.1 [] v.2 ⟨0, rfl⟩ hone hv).ne_nan
  intro ss
  induction ss with
  | nil => rintro a lp out g ha - h; cases h; exact ha
  | cons s ss ih =>
    intro a lp out g ha hs h
    simp only [List.map_cons, seqLoop] at h
    split at h
    · cases h
    next lpi gi hi' =>
    exact ih _ _ _ _ (ha.add hτ (hs s List.mem_cons_self _ _ hi'))
      (fun t ht => hs t (List.mem_cons_of_mem _ ht)) h

/-! ## A class, and two arithmetics -/

namespace Categorical

/-- Parameters of a `CategoricalHMM` that are numbers of the rounded arithmetic. -/
noncomputable def paramsTX {nf : ℕ} (τ : Trapped) (π : Fin nc → ℝ) (A : Fin nc → Fin nc → ℝ)
    (e : Fin nc → Fin nf → ℝ) : Theta (TX τ) nc (Params (TX τ) nc nf) :=
  ⟨fun i => TX.fin τ (π i), fun i j => TX.fin τ (A i j), fun i k => TX.fin τ (e i k)⟩

/-- A `CategoricalHMM` looks its likelihoods up: no error in the inputs of the kernels. -/
theorem approximates {nf : ℕ} (prior : Params (TX τ) nc nf) (impl : Impl) {e : Fin nc → Fin nf → ℝ}
    (hπ : ∀ i, 0 ≤ π i) (hA : ∀ i j, 0 ≤ A i j) (he : ∀ i k, 0 ≤ e i k) :
    Approximates ((emission prior).toHmm impl (paramsTX τ π A e)) sym 0 0 0 π A (fun k i => e i k) where
  startprob i := Near.fin (hπ i)
  transmat i j := Near.fin (hA i j)
  lik X := by
    refine ⟨_, computeLikelihood_fin _ X, ?_⟩
    rw [List.forall₂_map_left_iff, List.forall₂_same]
    exact fun k _ i => Near.fin (he i k)

end Categorical

/-- **C75** `CategoricalHMM` in double precision: a score that is not NaN. -/
theorem C75_categorical_binary64 {nf : ℕ} (prior : Categorical.Params (TX binary64) nc nf)
    {e : Fin nc → Fin nf → ℝ} (hs : Stochastic π A) (hπ : ∀ i, 0 ≤ π i) (hA : ∀ i j, 0 ≤ A i j)
    (he : ∀ i k, 0 ≤ e i k ∧ e i k ≤ 1) (s : ObsSeq (Fin nf)) {lp : TX binary64}
    (ho : score ((Categorical.emission prior).toHmm .scaling (Categorical.paramsTX binary64 π A e))
      (dataX Categorical.sym [s]) (some (dataLengths [s])) = .ok lp) (hn : lp ≠ TX.nan binary64) :
    ∃ x, lp = TX.fin binary64 x ∧
      |x - Real.log (likelihood π A (s.weights fun k i => e i k))| ≤
      2⁻¹ ^ 53 * |Real.log (likelihood π A (s.weights fun k i => e i k))| +
        (1 + 2⁻¹ ^ 53) * scoreError (2⁻¹ ^ 53) (s.n + 1) (steps nc s.n 0 0 0)
          (-Real.log (likelihood π A (s.weights fun k i => e i k))) := by
  refine C75_score_probabilities (τ := binary64) ?_ (Categorical.approximates prior .scaling hπ hA
    fun i k => (he i k).1) rfl hs hπ hA (fun o i => he i o) s ho hn
  refine ⟨_, binary64_rnd ?_ ?_⟩
  · rw [abs_of_pos eps_pos, eps_eq, inv_pow, ← one_div]
    refine one_div_le_one_div_of_le (by positivity) ?_
    calc (10 : ℝ) ^ 300 = (10 ^ 3) ^ 100 := by rw [← pow_mul]
      _ ≤ (2 ^ 10) ^ 100 := pow_le_pow_left₀ (by norm_num) (by norm_num) _
      _ = 2 ^ 1000 := by rw [← pow_mul]
      _ ≤ 2 ^ 1022 := pow_le_pow_right₀ one_le_two (by norm_num)
  · rw [abs_of_pos eps_pos, eps_eq]
    refine le_trans (b := 1) ?_ (one_le_pow₀ one_le_two)
    rw [one_div]
    exact inv_le_one_of_one_le₀ (one_le_pow₀ (by norm_num))

end Verif
