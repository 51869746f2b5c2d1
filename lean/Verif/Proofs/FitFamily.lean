import Verif.Proofs.FitRuns

/-!
# Whole runs of `fit` for any emission family with a real-valued counterpart
-/

namespace Verif
open FloatLike XF Hmmc Spec
open scoped Classical

variable {nc : ℕ} {Obs D P S Q : Type} [NeZero nc]

theorem runs_of_fitFrom {α : Type} [FloatLike α] (E : Emission α nc Obs P S) (cfg : Config α nc)
    (X : List Obs) (lengths : Option (List Int)) (θ : Theta α nc P) (mon : Monitor α) :
    Runs (emStep E cfg X (lengths.getD [(X.length : Int)]))
      (fitFrom E cfg X lengths θ mon).monitor.history θ (fitFrom E cfg X lengths θ mon).state := by
  obtain ⟨h, h1, _, h3, _⟩ := fitLoop_spec (step := emStep E cfg X (lengths.getD [(X.length : Int)]))
    cfg.nIter θ mon.reset rfl
  have : (fitFrom E cfg X lengths θ mon).monitor.history = h := by
    unfold fitFrom; rw [h3]; simp [Monitor.reset]
  rw [this]; exact h1

/-- Accumulating one sequence at a time adds up to the statistics of the data set. -/
theorem emFold_of_acc {E : Emission XF nc Obs P S} {ps : List Char} {p : P} {obs : D → Obs}
    {π : Fin nc → ℝ} {A : Fin nc → Fin nc → ℝ} {b : D → Fin nc → ℝ}
    (stat : (Fin nc → (D → ℝ) → ℝ) → S) (h0 : E.zero ps p = stat fun _ _ => 0)
    (hacc : ∀ T (s : ObsSeq D), E.acc ps p (stat T) (s.rows obs) (postRows π A (s.weights b)) =
      .ok (stat fun i f => T i f + ∑ t, posterior π A (s.weights b) t i * f (s.x t)))
    (ss : List (ObsSeq D)) :
    emFold E ps p obs π A b ss (E.zero ps p) = .ok (stat (obsStat π A b ss)) := by
  have key : ∀ (ss : List (ObsSeq D)) T, emFold E ps p obs π A b ss (stat T) =
      .ok (stat fun i f => T i f + obsStat π A b ss i f) := by
    intro ss
    induction ss with
    | nil => intro T; simp [emFold, obsStat, pure, Except.pure]
    | cons s ss ih =>
      intro T
      have := ih fun i f => T i f + ∑ t, posterior π A (s.weights b) t i * f (s.x t)
      simp only [emFold] at this
      simp only [emFold, List.foldlM_cons, bind, Except.bind]
      rw [hacc]
      simp only
      rw [this]
      congr 2; funext i f
      simp [obsStat, add_assoc]
  rw [h0, key]
  congr 2; funext i f; simp

namespace Family
variable {E : Emission XF nc Obs P S} {obs : D → Obs} {params : List Char}
  (F : Family E obs params Q)

/-- `fit` on the data set `ss`, from real parameters. -/
noncomputable def fit (c : RConfig nc) (ss : List (ObsSeq D)) (r : RParams nc Q) (mon : Monitor XF) :
    FitOutcome XF (Theta XF nc P) :=
  fitFrom E (c.toConfig params) (dataX obs ss) (some (dataLengths ss)) (F.theta r) mon

omit [NeZero nc] in
theorem iter_inv {c : RConfig nc} {ss : List (ObsSeq D)} {I : RParams nc Q → Prop} {r : RParams nc Q}
    (hr : I r) (h : ∀ r, I r → I (F.rstep c ss r)) (k : ℕ) : I ((F.rstep c ss)^[k] r) := by
  induction k with
  | zero => exact hr
  | succ k ih => rw [Function.iterate_succ_apply']; exact h _ ih

/-- Every `fit` iterates the real update; the history holds the log-likelihoods. -/
theorem fit_real {c : RConfig nc} {ss : List (ObsSeq D)} {I : RParams nc Q → Prop}
    (hI : F.Closed c ss I) (hne : ss ≠ []) (hp : 's' ∈ params → ∀ i, 1 ≤ c.sp i)
    {r : RParams nc Q} (hr : I r) (mon : Monitor XF) :
    let out := F.fit c ss r mon
    let n := out.monitor.history.length
    out.state = F.theta ((F.rstep c ss)^[n] r) ∧
      out.monitor.history = (List.range n).map
        (fun k => fin (Real.log (F.L ss ((F.rstep c ss)^[k] r)))) ∧
      (∀ k < n, F.Ok c.impl ss ((F.rstep c ss)^[k] r)) ∧ ∀ k ≤ n, I ((F.rstep c ss)^[k] r) := by
  intro out n
  have hrun := runs_of_fitFrom E (c.toConfig params) (dataX obs ss) (some (dataLengths ss))
    (F.theta r) mon
  obtain ⟨h1, h2, h3, h4⟩ := F.runs_real hI hne hp hr hrun
  refine ⟨h1, h2.trans (List.map_congr_left fun k hk => ?_), h3, h4⟩
  refine lg_pos (log_dataLikelihood ss fun s hs => ?_).1
  exact EstepOk.likelihood_pos (h3 k (List.mem_range.1 hk) s hs)

/-- If a `fit` with `scaling` does not raise, `log` gives the same outcome. -/
theorem fit_impl {sp : Fin nc → ℝ} {tp : Fin nc → Fin nc → ℝ} {nIter : ℕ} {ss : List (ObsSeq D)}
    {I : RParams nc Q → Prop} (hI : F.Closed ⟨sp, tp, .scaling, nIter⟩ ss I) (hne : ss ≠ [])
    (hp : 's' ∈ params → ∀ i, 1 ≤ sp i) {r : RParams nc Q} (hr : I r) (mon : Monitor XF)
    (h : (F.fit ⟨sp, tp, .scaling, nIter⟩ ss r mon).raised = none) :
    F.fit ⟨sp, tp, .log, nIter⟩ ss r mon = F.fit ⟨sp, tp, .scaling, nIter⟩ ss r mon := by
  refine fitLoop_agree (fun θ => ∃ r, I r ∧ θ = F.theta r) ?_ nIter _ _ ⟨r, hr, rfl⟩ h
  rintro _ θ' v ⟨r, hv, rfl⟩ hst
  obtain ⟨h1, h2, h3, h4⟩ := F.emStep_inv hI hne hp hv hst
  refine ⟨?_, _, h4, h2⟩
  rw [h2, h3]
  exact F.emStep_real ⟨sp, tp, .log, nIter⟩ ss hne (hI.valid _ hv)
    (fun s hs => NoUnderflow.likelihood_pos (h1 s hs)) (hI.good _ hv h1) hp

/-- Permuting the sequences does not change the outcome of `fit`. -/
theorem fit_perm {c : RConfig nc} {ss ss' : List (ObsSeq D)} {I : RParams nc Q → Prop}
    (hI : F.Closed c ss I) (hperm : ss.Perm ss') (hne : ss ≠ [])
    (hp : 's' ∈ params → ∀ i, 1 ≤ c.sp i) {r : RParams nc Q} (hr : I r) (mon : Monitor XF) :
    F.fit c ss' r mon = F.fit c ss r mon := by
  refine fitLoop_congr (fun θ => ∃ r, I r ∧ θ = F.theta r) ?_ c.nIter _ _ ⟨r, hr, rfl⟩
  rintro _ ⟨r, hv, rfl⟩
  refine ⟨F.emStep_perm c hperm hne (hI.valid _ hv) fun hi => ?_, fun θ' v hst => ?_⟩
  · rw [hi]; exact hI.ok hi _ hv
  · obtain ⟨_, h2, _, h4⟩ := F.emStep_inv hI hne hp hv hst
    exact ⟨_, h4, h2⟩

/-- Log-likelihood plus log prior densities, with the emission penalty `pen`. -/
noncomputable def objective (c : RConfig nc) (pen : Q → ℝ) (ss : List (ObsSeq D))
    (r : RParams nc Q) : ℝ :=
  Real.log (F.L ss r) + logDirichlet c.sp r.π + ∑ i, logDirichlet (c.tp i) (r.A i) + pen r.q

omit [NeZero nc] in
/-- One update does not decrease the objective. -/
theorem rstep_objective (c : RConfig nc) (pen : Q → ℝ) (ss : List (ObsSeq D)) {r : RParams nc Q}
    (h : r.Valid) (hL : ∀ s ∈ ss, 0 < likelihood r.π r.A (s.weights (F.b r.q)))
    (hp : 's' ∈ params → ∀ i, 1 ≤ c.sp i) (ht : 't' ∈ params → ∀ i j, 1 ≤ c.tp i j)
    (hg : F.Gains ss r (pen r.q - pen (F.rstep c ss r).q)) :
    F.objective c pen ss r ≤ F.objective c pen ss (F.rstep c ss r) := by
  have := (F.rstep_gain c ss h hL hp ht hg).2.2
  unfold objective
  linarith

theorem Ok.log {F : Family E obs params Q} {impl : Impl} {ss : List (ObsSeq D)} {r : RParams nc Q}
    (h : F.Ok impl ss r) : F.Ok .log ss r := fun s hs => EstepOk.likelihood_pos (h s hs)

/-- A whole `fit`: the parameters after `k` updates, the history, and the objective that never
decreases. -/
theorem fit_objective {c : RConfig nc} {ss : List (ObsSeq D)} {I : RParams nc Q → Prop} (pen : Q → ℝ)
    (hI : F.Closed c ss I) (hne : ss ≠ []) (hp : 's' ∈ params → ∀ i, 1 ≤ c.sp i)
    (ht : 't' ∈ params → ∀ i j, 1 ≤ c.tp i j) {r : RParams nc Q} (hr : I r)
    (hg : ∀ r, I r → F.Ok c.impl ss r → F.Gains ss r (pen r.q - pen (F.rstep c ss r).q))
    (mon : Monitor XF) :
    let out := F.fit c ss r mon
    let n := out.monitor.history.length
    out.state = F.theta ((F.rstep c ss)^[n] r) ∧
      out.monitor.history = (List.range n).map
        (fun k => fin (Real.log (F.L ss ((F.rstep c ss)^[k] r)))) ∧
      (∀ k ≤ n, I ((F.rstep c ss)^[k] r)) ∧
      ∀ k < n, F.objective c pen ss ((F.rstep c ss)^[k] r) ≤
        F.objective c pen ss ((F.rstep c ss)^[k + 1] r) := by
  intro out n
  obtain ⟨h1, h2, h3, h4⟩ := F.fit_real hI hne hp hr mon
  refine ⟨h1, h2, h4, fun k hk => ?_⟩
  rw [Function.iterate_succ_apply']
  exact F.rstep_objective c pen ss (hI.valid _ (h4 k hk.le)) (Ok.log (h3 k hk)) hp ht
    (hg _ (h4 k hk.le) (h3 k hk))

/-- With flat priors the history is non-decreasing and the final parameters are at least as
likely as every value in it. -/
theorem fit_monotone {impl : Impl} {nIter : ℕ} {ss : List (ObsSeq D)} {I : RParams nc Q → Prop}
    (hI : F.Closed ⟨fun _ => 1, fun _ _ => 1, impl, nIter⟩ ss I) (hne : ss ≠ []) {r : RParams nc Q}
    (hr : I r) (hg : ∀ r, I r → F.Ok impl ss r → F.Gains ss r 0) (mon : Monitor XF) :
    let out := F.fit ⟨fun _ => 1, fun _ _ => 1, impl, nIter⟩ ss r mon
    ∃ (l : List ℝ) (r' : RParams nc Q), out.monitor.history = l.map fin ∧ l.Pairwise (· ≤ ·) ∧
      out.state = F.theta r' ∧ I r' ∧ (∀ v ∈ l, v ≤ Real.log (F.L ss r')) ∧
      (∀ v ∈ l, Real.log (F.L ss r) ≤ v) ∧ Real.log (F.L ss r) ≤ Real.log (F.L ss r') := by
  intro out
  set c : RConfig nc := ⟨fun _ => 1, fun _ _ => 1, impl, nIter⟩ with hc
  obtain ⟨h1, h2, h3, h4⟩ := F.fit_objective (c := c) (fun _ => 0) hI hne (by simp [hc])
    (by simp [hc]) hr (by simpa using hg) mon
  set n := out.monitor.history.length with hn
  have hstep : ∀ k < n, Real.log (F.L ss ((F.rstep c ss)^[k] r)) ≤
      Real.log (F.L ss ((F.rstep c ss)^[k + 1] r)) := by
    intro k hk
    have := h4 k hk
    simpa [objective, logDirichlet, hc] using this
  have hle : ∀ j k, j ≤ k → k ≤ n → Real.log (F.L ss ((F.rstep c ss)^[j] r)) ≤
      Real.log (F.L ss ((F.rstep c ss)^[k] r)) := by
    intro j k hjk hk
    induction k, hjk using Nat.le_induction with
    | base => exact le_rfl
    | succ k hjk ih => exact (ih (by omega)).trans (hstep k (by omega))
  refine ⟨(List.range n).map fun k => Real.log (F.L ss ((F.rstep c ss)^[k] r)),
    (F.rstep c ss)^[n] r, ?_, ?_, h1, h3 n le_rfl, ?_, ?_, hle 0 n (Nat.zero_le _) le_rfl⟩
  · rw [List.map_map]; exact h2
  · rw [List.pairwise_map]
    refine List.pairwise_lt_range.imp_of_mem fun {a b} ha hb hab => ?_
    exact hle a b hab.le (List.mem_range.1 hb).le
  · intro v hv
    obtain ⟨k, hk, rfl⟩ := List.mem_map.1 hv
    exact hle k n (List.mem_range.1 hk).le le_rfl
  · intro v hv
    obtain ⟨k, hk, rfl⟩ := List.mem_map.1 hv
    exact hle 0 k (Nat.zero_le _) (List.mem_range.1 hk).le

/-- Every state lies on a path of positive probability for some sequence of the data set. -/
def Occupied (ss : List (ObsSeq D)) (r : RParams nc Q) : Prop :=
  ∀ i, ∃ s ∈ ss, ∃ (z : Fin (s.n + 1) → Fin nc) (t : Fin (s.n + 1)),
    0 < joint r.π r.A (s.weights (F.b r.q)) z ∧ z t = i

omit [NeZero nc] in
/-- The expected number of visits to an occupied state is positive. -/
theorem Occupied.pos {F : Family E obs params Q} {ss : List (ObsSeq D)} {r : RParams nc Q}
    (ho : F.Occupied ss r) (h : r.Valid) (hL : F.Ok .log ss r) (i : Fin nc) :
    0 < obsStat r.π r.A (F.b r.q) ss i fun _ => 1 := by
  obtain ⟨s, hs, z, t, hz, hzt⟩ := ho i
  have hB : ∀ (s : ObsSeq D) t i, 0 ≤ s.weights (F.b r.q) t i := fun s t i => F.b_nonneg _ _ _
  have pn : ∀ s ∈ ss, ∀ t i, 0 ≤ posterior r.π r.A (s.weights (F.b r.q)) t i := fun s hs t i =>
    div_nonneg (stateMass_nonneg h.π_nonneg h.A_nonneg (hB s) t i)
      (likelihood_nonneg h.π_nonneg h.A_nonneg (hB s))
  unfold obsStat
  refine lt_of_lt_of_le ?_ (le_list_sum ss
    (f := fun s => ∑ t, posterior r.π r.A (s.weights (F.b r.q)) t i * 1)
    (fun s hs => Finset.sum_nonneg fun t _ => mul_nonneg (pn s hs t i) zero_le_one) hs)
  refine lt_of_lt_of_le ?_ (Finset.single_le_sum
    (f := fun t => posterior r.π r.A (s.weights (F.b r.q)) t i * 1)
    (fun t _ => mul_nonneg (pn s hs t i) zero_le_one) (Finset.mem_univ t))
  rw [mul_one]
  subst hzt
  exact div_pos (hz.trans_le (joint_le_stateMass h.π_nonneg h.A_nonneg (hB s) z t)) (hL s hs)

omit [NeZero nc] in
theorem occupied_next (c : RConfig nc) (ss : List (ObsSeq D))
    (hp : 's' ∈ params → ∀ i, 1 ≤ c.sp i) (ht : 't' ∈ params → ∀ i j, 1 ≤ c.tp i j)
    {r : RParams nc Q} (h : r.Valid) (hL : F.Ok .log ss r) (hac : F.Ac ss r) (ho : F.Occupied ss r) :
    F.Occupied ss (F.rstep c ss r) := by
  have := (F.rstep_gain c ss h hL hp ht ⟨hac, le_rfl⟩).2.1
  intro i
  obtain ⟨s, hs, z, t, hz, hzt⟩ := ho i
  exact ⟨s, hs, z, t, this s hs z hz, hzt⟩

omit [NeZero nc] in
/-- Valid parameters under which the data set is possible and every state is occupied form a set
on which EM stays. -/
theorem closed_occupied (c : RConfig nc) (ss : List (ObsSeq D))
    (hp : 's' ∈ params → ∀ i, 1 ≤ c.sp i) (ht : 't' ∈ params → ∀ i j, 1 ≤ c.tp i j)
    (hgood : ∀ r : RParams nc Q, r.Valid → F.Ok .log ss r → F.Occupied ss r →
      F.Good r.q (obsStat r.π r.A (F.b r.q) ss))
    (hac : ∀ r : RParams nc Q, r.Valid → F.Ok .log ss r → F.Occupied ss r → F.Ac ss r) :
    F.Closed c ss fun r => r.Valid ∧ F.Ok .log ss r ∧ F.Occupied ss r where
  valid r h := h.1
  ok hi r h := h.2.1
  good r h _ := hgood r h.1 h.2.1 h.2.2
  next r h _ := ⟨F.rstep_valid c ss h.1,
    (F.rstep_gain c ss h.1 h.2.1 hp ht ⟨hac r h.1 h.2.1 h.2.2, le_rfl⟩).1,
    F.occupied_next c ss hp ht h.1 h.2.1 (hac r h.1 h.2.1 h.2.2) h.2.2⟩

end Family
end Verif
