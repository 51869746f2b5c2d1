import Verif.Proofs.Family

/-!
# Whole runs of EM
-/

namespace Verif
open FloatLike XF Hmmc Spec
open scoped Classical

variable {nc : ℕ} {Obs D P S Q : Type} [NeZero nc]

/-! ## The value reported by an iteration is the score -/

section Score
variable {α : Type} [FloatLike α] {E : Emission α nc Obs P S}

theorem fitOne_score {m : Hmm α nc Obs} {X : List Obs} {r : FitOne α nc} (h : fitOne m X = .ok r) :
    (match m.implementation with
      | .log => scoreOneLog m false
      | .scaling => scoreOneScaling m false) X = .ok (r.logProb, []) := by
  unfold fitOne at h
  cases hi : m.implementation with
  | log =>
    rw [hi] at h
    simp only [fitLog, bind, Except.bind, pure, Except.pure] at h
    simp only [scoreOneLog, bind, Except.bind, pure, Except.pure, Bool.false_eq_true, if_false]
    cases h1 : m.computeLogLikelihood X with
    | error e => simp [h1] at h
    | ok lb =>
      simp only [h1] at h
      simp only
      cases h2 : forwardLog m.startprob m.transmat lb with
      | error e => simp [h2] at h
      | ok v =>
        simp only [h2] at h
        simp only
        cases h3 : backwardLog m.transmat lb with
        | error e => simp [h3] at h
        | ok w =>
          simp only [h3, Except.ok.injEq] at h
          subst h; rfl
  | scaling =>
    rw [hi] at h
    simp only [fitScaling, bind, Except.bind, pure, Except.pure] at h
    simp only [scoreOneScaling, bind, Except.bind, pure, Except.pure, Bool.false_eq_true, if_false]
    cases h1 : m.computeLikelihood X with
    | error e => simp [h1] at h
    | ok lb =>
      simp only [h1] at h
      simp only
      cases h2 : forwardScaling m.startprob m.transmat lb with
      | error e => simp [h2] at h
      | ok v =>
        simp only [h2] at h
        simp only
        cases h3 : backwardScaling m.transmat lb v.2.2 with
        | error e => simp [h3] at h
        | ok w =>
          simp only [h3, Except.ok.injEq] at h
          subst h; rfl

theorem estepLoop_score {params : List Char} {impl : Impl} {θ : Theta α nc P} {subs : List (List Obs)}
    {st st' : Stats α nc S} {lp lp' : α}
    (h : estepLoop E params impl θ subs st lp = .ok (st', lp')) :
    seqLoop (match (E.toHmm impl θ).implementation with
      | .log => scoreOneLog (E.toHmm impl θ) false
      | .scaling => scoreOneScaling (E.toHmm impl θ) false) subs lp [] = .ok (lp', []) := by
  induction subs generalizing st lp with
  | nil =>
    simp only [estepLoop, Except.ok.injEq, Prod.mk.injEq] at h
    simp only [seqLoop, h.2]
  | cons X subs ih =>
    simp only [estepLoop] at h
    cases h1 : estepOne E params impl θ st X with
    | error e => simp [h1] at h
    | ok v =>
      simp only [h1] at h
      simp only [estepOne, bind, Except.bind, pure, Except.pure] at h1
      cases h2 : fitOne (E.toHmm impl θ) X with
      | error e => simp [h2] at h1
      | ok r =>
        simp only [h2] at h1
        have hv : v.2 = r.logProb := by
          cases h3 : accumulateBase params impl θ.transmat st.base r with
          | error e => simp [h3] at h1
          | ok b =>
            simp only [h3] at h1
            cases h4 : E.acc params θ.emission st.em X r.posteriors with
            | error e => simp [h4] at h1
            | ok em => simp only [h4, Except.ok.injEq] at h1; rw [← h1]
        simp only [seqLoop, fitOne_score h2, List.nil_append]
        rw [← hv]
        exact ih h

/-- What one EM iteration reports is the score of the parameters it started from. -/
theorem emStep_score {cfg : Config α nc} {X : List Obs} {lengths : List Int} {θ θ' : Theta α nc P}
    {v : α} (h : emStep E cfg X lengths θ = .ok (θ', v)) :
    score (E.toHmm cfg.implementation θ) X (some lengths) = .ok v := by
  simp only [emStep, doEstep, bind, Except.bind, pure, Except.pure] at h
  simp only [score, scoreCore, bind, Except.bind]
  cases h1 : splitXLengths X (some lengths) with
  | error e => simp [h1] at h
  | ok subs =>
    simp only [h1] at h
    simp only
    cases h2 : estepLoop E cfg.params cfg.implementation θ subs
        ⟨BaseStats.zero, E.zero cfg.params θ.emission⟩ 0 with
    | error e => simp [h2] at h
    | ok w =>
      simp only [h2, Except.ok.injEq, Prod.mk.injEq] at h
      have h3 := estepLoop_score (st' := w.1) (lp' := w.2) h2
      rw [← h.2]
      exact congrArg (Except.map (·.1)) h3

end Score

/-! ## Runs -/

section Loop
variable {α σ : Type} [FloatLike α] {step step' : σ → Except PyErr (σ × α)}

/-- Two steps that agree whenever the first succeeds, on an invariant. -/
theorem fitLoop_agree (I : σ → Prop)
    (h : ∀ s s' v, I s → step s = .ok (s', v) → step' s = .ok (s', v) ∧ I s') (n : ℕ) (s : σ)
    (mon : Monitor α) (hI : I s) (hr : (fitLoop step n s mon).raised = none) :
    fitLoop step' n s mon = fitLoop step n s mon := by
  induction n generalizing s mon with
  | zero => rfl
  | succ n ih =>
    cases hs : step s with
    | error e => simp [fitLoop, hs] at hr
    | ok v =>
      obtain ⟨s', v⟩ := v
      obtain ⟨h1, h2⟩ := h s s' v hI hs
      simp only [fitLoop, hs, h1] at hr ⊢
      split
      · rfl
      · next hc =>
        simp only [hc] at hr
        exact ih s' _ h2 hr

/-- Two steps that agree on an invariant. -/
theorem fitLoop_congr (I : σ → Prop)
    (h : ∀ s, I s → step s = step' s ∧ ∀ s' v, step s = .ok (s', v) → I s') (n : ℕ) (s : σ)
    (mon : Monitor α) (hI : I s) :
    fitLoop step' n s mon = fitLoop step n s mon := by
  induction n generalizing s mon with
  | zero => rfl
  | succ n ih =>
    obtain ⟨h1, h2⟩ := h s hI
    simp only [fitLoop, ← h1]
    cases hs : step s with
    | error e => rfl
    | ok v =>
      simp only
      split
      · rfl
      · exact ih v.1 _ (h2 _ _ hs)

end Loop

namespace Family
variable {E : Emission XF nc Obs P S} {obs : D → Obs} {params : List Char}
  (F : Family E obs params Q)

/-- A set of real parameters on which EM stays. -/
structure Closed (c : RConfig nc) (ss : List (ObsSeq D)) (I : RParams nc Q → Prop) : Prop where
  valid : ∀ r, I r → r.Valid
  ok : c.impl = .log → ∀ r, I r → F.Ok .log ss r
  good : ∀ r, I r → F.Ok c.impl ss r → F.Good r.q (obsStat r.π r.A (F.b r.q) ss)
  next : ∀ r, I r → F.Ok c.impl ss r → I (F.rstep c ss r)

theorem emStep_inv {c : RConfig nc} {ss : List (ObsSeq D)} {I : RParams nc Q → Prop}
    (hI : F.Closed c ss I) (hne : ss ≠ []) (hp : 's' ∈ params → ∀ i, 1 ≤ c.sp i)
    {r : RParams nc Q} (hr : I r) {θ' : Theta XF nc P} {v : XF}
    (h : emStep E (c.toConfig params) (dataX obs ss) (dataLengths ss) (F.theta r) = .ok (θ', v)) :
    F.Ok c.impl ss r ∧ θ' = F.theta (F.rstep c ss r) ∧ v = lg (F.L ss r) ∧ I (F.rstep c ss r) := by
  have hok : F.Ok c.impl ss r := by
    cases hi : c.impl with
    | log => exact hI.ok hi r hr
    | scaling =>
      by_contra hno
      rw [F.emStep_underflow c hi ss (hI.valid r hr) hno] at h
      simp at h
  rw [F.emStep_real c ss hne (hI.valid r hr) hok (hI.good r hr hok) hp] at h
  simp only [Except.ok.injEq, Prod.mk.injEq] at h
  exact ⟨hok, h.1.symm, h.2.symm, hI.next r hr hok⟩

/-- Every run of EM is an iteration of the real update, and the history holds the log-likelihoods
of the successive parameters. -/
theorem runs_real {c : RConfig nc} {ss : List (ObsSeq D)} {I : RParams nc Q → Prop}
    (hI : F.Closed c ss I) (hne : ss ≠ []) (hp : 's' ∈ params → ∀ i, 1 ≤ c.sp i)
    {r : RParams nc Q} (hr : I r) {h : List XF} {θ' : Theta XF nc P}
    (hrun : Runs (emStep E (c.toConfig params) (dataX obs ss) (dataLengths ss)) h (F.theta r) θ') :
    θ' = F.theta ((F.rstep c ss)^[h.length] r) ∧
      h = (List.range h.length).map (fun k => lg (F.L ss ((F.rstep c ss)^[k] r))) ∧
      (∀ k < h.length, F.Ok c.impl ss ((F.rstep c ss)^[k] r)) ∧
      ∀ k ≤ h.length, I ((F.rstep c ss)^[k] r) := by
  generalize hs : F.theta r = s at hrun
  induction hrun with
  | nil s => subst hs; exact ⟨rfl, rfl, by simp, by intro k hk; simp at hk; subst hk; exact hr⟩
  | @snoc h s s' s'' v h1 h2 ih =>
    obtain ⟨e1, e2, e3, e4⟩ := ih hs
    subst e1
    obtain ⟨o1, o2, o3, o4⟩ := F.emStep_inv hI hne hp (e4 _ le_rfl) h2
    have hl : (h ++ [v]).length = h.length + 1 := by simp
    refine ⟨?_, ?_, ?_, ?_⟩
    · rw [hl, Function.iterate_succ_apply', o2]
    · rw [hl, List.range_succ, List.map_append, ← e2]; simp [o3]
    · intro k hk
      rw [hl] at hk
      rcases (Nat.lt_succ_iff_lt_or_eq.1 hk) with hk | rfl
      · exact e3 k hk
      · exact o1
    · intro k hk
      rw [hl] at hk
      rcases Nat.le_succ_iff.1 hk with hk | rfl
      · exact e4 k hk
      · rw [Nat.succ_eq_add_one, Function.iterate_succ_apply']; exact o4

/-! ## Order of the sequences -/

omit [NeZero nc] in
theorem stats_perm {ss ss' : List (ObsSeq D)} (hp : ss.Perm ss') (π : Fin nc → ℝ)
    (A : Fin nc → Fin nc → ℝ) (b : D → Fin nc → ℝ) :
    startStat π A b ss = startStat π A b ss' ∧ transStat π A b ss = transStat π A b ss' ∧
      obsStat π A b ss = obsStat π A b ss' ∧ dataLikelihood π A b ss = dataLikelihood π A b ss' := by
  refine ⟨?_, ?_, ?_, ?_⟩
  · funext i; exact (hp.map _).sum_eq
  · funext i j; exact (hp.map _).sum_eq
  · funext i f; exact (hp.map _).sum_eq
  · exact (hp.map _).prod_eq

omit [NeZero nc] in
theorem ok_perm {ss ss' : List (ObsSeq D)} (hp : ss.Perm ss') (impl : Impl) (r : RParams nc Q) :
    F.Ok impl ss r ↔ F.Ok impl ss' r :=
  ⟨fun h s hs => h s (hp.mem_iff.2 hs), fun h s hs => h s (hp.mem_iff.1 hs)⟩

/-- The whole E-step is independent of the order of the sequences. -/
theorem doEstep_perm (c : RConfig nc) {ss ss' : List (ObsSeq D)} (hperm : ss.Perm ss') (hne : ss ≠ [])
    {r : RParams nc Q} (h : r.Valid) (hok : F.Ok c.impl ss r) :
    doEstep E (c.toConfig params) (F.theta r) (dataX obs ss) (dataLengths ss) =
      doEstep E (c.toConfig params) (F.theta r) (dataX obs ss') (dataLengths ss') := by
  have hne' : ss' ≠ [] := by rintro rfl; exact hne hperm.eq_nil
  rw [F.doEstep_real c ss hne h hok, F.doEstep_real c ss' hne' h ((F.ok_perm hperm _ _).1 hok)]
  obtain ⟨e1, e2, e3, e4⟩ := stats_perm hperm r.π r.A (F.b r.q)
  simp only [L, e1, e2, e3, e4, hperm.length_eq]

theorem emStep_perm (c : RConfig nc) {ss ss' : List (ObsSeq D)} (hperm : ss.Perm ss') (hne : ss ≠ [])
    {r : RParams nc Q} (h : r.Valid) (hok : c.impl = .log → F.Ok c.impl ss r) :
    emStep E (c.toConfig params) (dataX obs ss) (dataLengths ss) (F.theta r) =
      emStep E (c.toConfig params) (dataX obs ss') (dataLengths ss') (F.theta r) := by
  by_cases ho : F.Ok c.impl ss r
  · unfold emStep
    rw [F.doEstep_perm c hperm hne h ho]
  · cases hi : c.impl with
    | log => exact absurd (hok hi) ho
    | scaling =>
      rw [hi] at ho
      rw [F.emStep_underflow c hi ss h ho,
        F.emStep_underflow c hi ss' h (fun h' => ho ((F.ok_perm hperm _ _).2 h'))]

end Family
end Verif

namespace Verif
open FloatLike XF Hmmc Spec

variable {nc : ℕ} {Obs D P S Q : Type} [NeZero nc]

namespace Family
variable {E : Emission XF nc Obs P S} {obs : D → Obs} {params : List Char}
  (F : Family E obs params Q)

/-- The emission update keeps positive weight wherever the posterior is positive. -/
def Ac (ss : List (ObsSeq D)) (r : RParams nc Q) : Prop :=
  ∀ s ∈ ss, ∀ t i, 0 < posterior r.π r.A (s.weights (F.b r.q)) t i →
    0 < F.b (F.next r.q (obsStat r.π r.A (F.b r.q) ss)) (s.x t) i

omit [NeZero nc] in
/-- Priors at least one and `Ac`: a possible data set stays possible. -/
theorem closed_of_ac (c : RConfig nc) (ss : List (ObsSeq D))
    (hp : 's' ∈ params → ∀ i, 1 ≤ c.sp i) (ht : 't' ∈ params → ∀ i j, 1 ≤ c.tp i j)
    (hgood : ∀ q T, F.Good q T) (hac : ∀ r : RParams nc Q, r.Valid → F.Ac ss r) :
    F.Closed c ss fun r => r.Valid ∧ (c.impl = .log → F.Ok .log ss r) where
  valid r h := h.1
  ok hi r h := h.2 hi
  good r h _ := hgood _ _
  next r h hok := by
    refine ⟨F.rstep_valid c ss h.1, fun hi => ?_⟩
    rw [hi] at hok
    exact (F.rstep_gain c ss h.1 hok hp ht ⟨hac r h.1, le_rfl⟩).1

omit [NeZero nc] in
/-- For `scaling` there is nothing to require. -/
theorem closed_scaling (c : RConfig nc) (ss : List (ObsSeq D)) (hi : c.impl = .scaling)
    (hgood : ∀ q T, F.Good q T) :
    F.Closed c ss RParams.Valid where
  valid r h := h
  ok hl r h := by simp [hi] at hl
  good r h _ := hgood _ _
  next r h hok := F.rstep_valid c ss h

end Family

section Loop
variable {α σ : Type} [FloatLike α] {step : σ → Except PyErr (σ × α)}

/-- Any prefix of a run is a run. -/
theorem Spec.Runs.split {h : List α} {s s' : σ} (hr : Runs step h s s') (k : ℕ) (hk : k < h.length) :
    ∃ s1 s2, Runs step (h.take k) s s1 ∧ step s1 = .ok (s2, h[k]) := by
  induction hr with
  | nil => simp at hk
  | @snoc h s s' s'' v h1 h2 ih =>
    rw [List.length_append, List.length_singleton] at hk
    rcases Nat.lt_succ_iff_lt_or_eq.1 hk with hlt | rfl
    · obtain ⟨s1, s2, a, b⟩ := ih hlt
      refine ⟨s1, s2, ?_, ?_⟩
      · rwa [List.take_append_of_le_length hlt.le]
      · rwa [List.getElem_append_left hlt]
    · refine ⟨s', s'', ?_, ?_⟩
      · simpa using h1
      · simpa using h2

theorem converged_iff (mon : Monitor α) (h : mon.iter = mon.history.length) :
    mon.converged = true ↔ mon.history.length = mon.nIter ∨
      ∃ l a b, mon.history = l ++ [a, b] ∧ FloatLike.lt (b - a) mon.tol = true := by
  unfold Monitor.converged
  rw [Bool.or_eq_true, beq_iff_eq, h]
  refine or_congr Iff.rfl ?_
  cases hr : mon.history.reverse with
  | nil =>
    have : mon.history = [] := by simpa using hr
    simp [this]
  | cons b t =>
    cases t with
    | nil =>
      have : mon.history = [b] := by
        have := congrArg List.reverse hr; simpa using this
      simp only [this, Bool.false_eq_true, false_iff, not_exists, not_and]
      intro l a b' he
      have := congrArg List.length he
      simp at this
    | cons a t =>
      have e : mon.history = t.reverse ++ [a, b] := by
        have := congrArg List.reverse hr; simpa using this
      simp only
      constructor
      · intro hl; exact ⟨_, _, _, e, hl⟩
      · rintro ⟨l, a', b', e', hl⟩
        rw [e] at e'
        have := List.append_inj_right' e' (by simp)
        simp only [List.cons.injEq, and_true] at this
        rw [this.1, this.2]; exact hl

end Loop
end Verif
