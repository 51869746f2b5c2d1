import Verif.Proofs.CategoricalFamily
import Verif.Props.Training
import Verif.Spec.Categorical

/-!
# EM for `CategoricalHMM`: C19, C21, C26, C27, C29, C48
-/

namespace Verif
open FloatLike XF Hmmc Spec
open scoped Classical

variable {nc nf : ℕ} [NeZero nc]

/-- A training configuration with Dirichlet priors `sp`, `tp`. -/
noncomputable def mapConfig (sp : Fin nc → ℝ) (tp : Fin nc → Fin nc → ℝ) (params : List Char)
    (impl : Impl) (nIter : ℕ) : Config XF nc :=
  ⟨fun i => fin (sp i), fun i j => fin (tp i j), params, impl, nIter⟩

/-- `fit` of a `CategoricalHMM` with Dirichlet priors `sp`, `tp`, `ep`. -/
noncomputable def catFit (sp : Fin nc → ℝ) (tp : Fin nc → Fin nc → ℝ) (ep : Fin nc → Fin nf → ℝ)
    (params : List Char) (impl : Impl) (nIter : ℕ) (ss : List (ObsSeq (Fin nf)))
    (θ : Theta XF nc (Categorical.Params XF nc nf)) (mon : Monitor XF) :
    FitOutcome XF (Theta XF nc (Categorical.Params XF nc nf)) :=
  fitFrom (Categorical.emission fun i k => fin (ep i k)) (mapConfig sp tp params impl nIter)
    (dataX Categorical.sym ss) (some (dataLengths ss)) θ mon

section
variable {π : Fin nc → ℝ} {A : Fin nc → Fin nc → ℝ} {e : Fin nc → Fin nf → ℝ}

omit [NeZero nc] in
theorem Spec.CatModel.valid (h : CatModel π A e) :
    (⟨π, A, ⟨e, h.e_nonneg, h.e_sum⟩⟩ : RParams nc (Categorical.Rows nc nf)).Valid :=
  ⟨h.π_nonneg, h.A_nonneg, h.π_sum, h.A_sum⟩

/-- The real parameters of a model. -/
def Spec.CatModel.rp (h : CatModel π A e) : RParams nc (Categorical.Rows nc nf) :=
  ⟨π, A, ⟨e, h.e_nonneg, h.e_sum⟩⟩

theorem catModel_of_valid {r : RParams nc (Categorical.Rows nc nf)} (h : r.Valid) :
    CatModel r.π r.A r.q.e :=
  ⟨h.π_nonneg, h.A_nonneg, r.q.nonneg, h.π_sum, h.A_sum, r.q.sum_le⟩

theorem Categorical.ac (ep : Fin nc → Fin nf → ℝ) (params : List Char)
    (hp : 'e' ∈ params → ∀ i k, 1 ≤ ep i k) (ss : List (ObsSeq (Fin nf)))
    (r : RParams nc (Categorical.Rows nc nf)) (h : r.Valid) :
    (Categorical.family ep params).Ac ss r := by
  have hb : ∀ o i, 0 ≤ (family ep params).b r.q o i := (family ep params).b_nonneg r.q
  intro s hs t i hpos
  by_cases he : 'e' ∈ params
  · have hst : 0 < obsStat r.π r.A ((family ep params).b r.q) ss i (ind (s.x t)) :=
      obsStat_pos_of_posterior h.π_nonneg h.A_nonneg hb hs hpos
    have hnext : ((family ep params).next r.q (obsStat r.π r.A ((family ep params).b r.q) ss)).e i =
        updRow (ep i) fun k => obsStat r.π r.A ((family ep params).b r.q) ss i (ind k) := by
      simp [family, he]
    show 0 < ((family ep params).next r.q (obsStat r.π r.A ((family ep params).b r.q) ss)).e i (s.x t)
    rw [hnext]
    have hc : 0 < mapCounts (ep i) (fun _ => 1)
        (fun k => obsStat r.π r.A ((family ep params).b r.q) ss i (ind k)) (s.x t) := by
      simp only [mapCounts, one_ne_zero, if_false]
      refine lt_max_of_lt_left ?_
      have := hp he i (s.x t); linarith
    exact div_pos hc (lt_of_lt_of_le hc (Finset.single_le_sum
      (f := mapCounts (ep i) (fun _ => 1)
        fun k => obsStat r.π r.A ((family ep params).b r.q) ss i (ind k))
      (fun j _ => mapCounts_nonneg _ _ _ _) (Finset.mem_univ (s.x t))))
  · have hn : (family ep params).next r.q (obsStat r.π r.A ((family ep params).b r.q) ss) = r.q := by
      simp [family, he]
    rw [hn]
    exact lt_of_le_of_ne (hb _ _) fun h0 => hpos.ne' (posterior_zero_of_weight h0.symm)

/-- **C29** (and, with flat priors, C21)  A whole `fit` of a `CategoricalHMM` with all priors at
least one, any `params`, either implementation, any data set with positive likelihood.  The
parameters after `k` updates form a sequence `p k` of valid models; the history holds their
log-likelihoods; the penalised log-likelihood never decreases along the sequence, from the first
parameters to those `fit` leaves in the estimator.  (For `scaling`, `fit` may stop early by raising;
the statement covers the iterations done.)  The hypothesis on zero emission probabilities only says
that the prior density at the starting point is not zero. -/
theorem C29_em_penalised (sp : Fin nc → ℝ) (tp : Fin nc → Fin nc → ℝ) (ep : Fin nc → Fin nf → ℝ)
    (hsp : ∀ i, 1 ≤ sp i) (htp : ∀ i j, 1 ≤ tp i j) (hep : ∀ i k, 1 ≤ ep i k) (params : List Char)
    (impl : Impl) (nIter : ℕ) (ss : List (ObsSeq (Fin nf))) (hne : ss ≠ []) (h : CatModel π A e)
    (hL : 0 < catL ss π A e) (hz : ∀ i k, e i k = 0 → ep i k = 1) (mon : Monitor XF) :
    let out := catFit sp tp ep params impl nIter ss (Categorical.params π A e) mon
    let n := out.monitor.history.length
    ∃ (p : ℕ → Fin nc → ℝ) (a : ℕ → Fin nc → Fin nc → ℝ) (q : ℕ → Fin nc → Fin nf → ℝ),
      p 0 = π ∧ a 0 = A ∧ q 0 = e ∧ (∀ k, CatModel (p k) (a k) (q k)) ∧
      out.state = Categorical.params (p n) (a n) (q n) ∧
      (∀ k ≤ n, 0 < catL ss (p k) (a k) (q k)) ∧
      out.monitor.history = (List.range n).map
        (fun k => fin (Real.log (catL ss (p k) (a k) (q k)))) ∧
      ∀ k < n, catObjective sp tp ep ss (p k) (a k) (q k) ≤
        catObjective sp tp ep ss (p (k + 1)) (a (k + 1)) (q (k + 1)) := by
  intro out n
  let c : RConfig nc := ⟨sp, tp, impl, nIter⟩
  let F := Categorical.family ep params
  have hLs : ∀ s ∈ ss, 0 < likelihood π A (s.weights (catB e)) := by
    intro s hs
    refine lt_of_le_of_ne (likelihood_nonneg h.π_nonneg h.A_nonneg fun t i => h.e_nonneg _ _)
      fun h0 => hL.ne' ?_
    exact List.prod_eq_zero (List.mem_map.2 ⟨s, hs, h0.symm⟩)
  -- the invariant
  let I : RParams nc (Categorical.Rows nc nf) → Prop := fun r =>
    r.Valid ∧ F.Ok .log ss r ∧ ∀ i k, r.q.e i k = 0 → ep i k = 1
  have hgain : ∀ r, I r → _ := fun r hr => F.rstep_gain c ss hr.1 hr.2.1 (fun _ => hsp) (fun _ => htp)
    (Categorical.gains ss hr.1 (fun _ => hep) fun _ => hr.2.2)
  have hnextI : ∀ r, I r → I (F.rstep c ss r) := by
    intro r hr
    refine ⟨F.rstep_valid c ss hr.1, (hgain r hr).1, ?_⟩
    intro i k h0
    by_cases he : 'e' ∈ params
    · have hq : (F.rstep c ss r).q.e i k = mapUpdate (ep i) (fun _ => 1)
          (fun k => obsStat r.π r.A (F.b r.q) ss i (Categorical.ind k)) k := by
        simp [Family.rstep, F, Categorical.family, he, Categorical.updRow]
      rw [hq] at h0
      have hst : 0 ≤ obsStat r.π r.A (F.b r.q) ss i (Categorical.ind k) :=
        obsStat_nonneg hr.1.π_nonneg hr.1.A_nonneg (F.b_nonneg _) ss i
          fun o => by unfold Categorical.ind; split <;> norm_num
      have hc : mapCounts (ep i) (fun _ => 1)
          (fun k => obsStat r.π r.A (F.b r.q) ss i (Categorical.ind k)) k = 0 := by
        by_cases hS : ∑ j, mapCounts (ep i) (fun _ => 1)
            (fun k => obsStat r.π r.A (F.b r.q) ss i (Categorical.ind k)) j = 0
        · exact mapCounts_all_zero hS k
        · exact (div_eq_zero_iff.1 h0).resolve_right hS
      simp only [mapCounts, one_ne_zero, if_false] at hc
      have := max_eq_right_iff.1 hc
      have := hep i k
      linarith
    · have hq : (F.rstep c ss r).q = r.q := by simp [Family.rstep, F, Categorical.family, he]
      rw [hq] at h0
      exact hr.2.2 i k h0
  have hI : F.Closed c ss I :=
    ⟨fun r hr => hr.1, fun _ r hr => hr.2.1, fun _ _ _ => trivial, fun r hr _ => hnextI r hr⟩
  let r0 : RParams nc (Categorical.Rows nc nf) := ⟨π, A, ⟨e, h.e_nonneg, h.e_sum⟩⟩
  have hr0 : I r0 := ⟨h.valid, fun s hs => hLs s hs, hz⟩
  have hrun := runs_of_fit (Categorical.emission fun i k => fin (ep i k))
    (mapConfig sp tp params impl nIter) (dataX Categorical.sym ss) (some (dataLengths ss))
    (Categorical.params π A e) mon
  obtain ⟨e1, e2, e3, e4⟩ := F.runs_real hI hne (fun _ => hsp) hr0 hrun
  have hall : ∀ k, I ((F.rstep c ss)^[k] r0) := by
    intro k
    induction k with
    | zero => exact hr0
    | succ k ih => rw [Function.iterate_succ_apply']; exact hnextI _ ih
  refine ⟨fun k => ((F.rstep c ss)^[k] r0).π, fun k => ((F.rstep c ss)^[k] r0).A,
    fun k => ((F.rstep c ss)^[k] r0).q.e, rfl, rfl, rfl, fun k => catModel_of_valid (hall k).1,
    e1, ?_, ?_, ?_⟩
  · exact fun k _ => (log_dataLikelihood ss (hall k).2.1).1
  · refine e2.trans (List.map_congr_left fun k _ => ?_)
    exact lg_pos (log_dataLikelihood ss (hall k).2.1).1
  · intro k _
    have := (hgain _ (hall k)).2.2
    simp only [Function.iterate_succ_apply']
    unfold catObjective
    have e5 : ∀ r, F.L ss r = catL ss r.π r.A r.q.e := fun r => rfl
    rw [e5, e5] at this
    have e6 : F.next ((F.rstep c ss)^[k] r0).q (obsStat ((F.rstep c ss)^[k] r0).π
      ((F.rstep c ss)^[k] r0).A (F.b ((F.rstep c ss)^[k] r0).q) ss) =
      (F.rstep c ss ((F.rstep c ss)^[k] r0)).q := rfl
    have this' := this
    change _ + _ + _ + (_ - ∑ i, logDirichlet (ep i) ((F.next ((F.rstep c ss)^[k] r0).q (obsStat
      ((F.rstep c ss)^[k] r0).π ((F.rstep c ss)^[k] r0).A
      (F.b ((F.rstep c ss)^[k] r0).q) ss)).e i)) ≤ _ at this'
    rw [e6] at this'
    change _ + logDirichlet sp _ + ∑ i, logDirichlet (tp i) _ + (_ - _) ≤
      _ + logDirichlet sp _ + ∑ i, logDirichlet (tp i) _ at this'
    linarith

omit [NeZero nc] in
theorem logDirichlet_one {ι : Type*} [Fintype ι] (p : ι → ℝ) : logDirichlet (fun _ => 1) p = 0 := by
  simp [logDirichlet]

/-- **C21** `CategoricalHMM` with the default flat priors: any `params`, either implementation, any
data set of positive likelihood, any number of iterations.  The log-likelihood of the training data
never decreases from one set of parameters to the next, `monitor_.history` is non-decreasing, and
the parameters left in the estimator are at least as likely as every value in the history. -/
theorem C21_em_monotone (params : List Char) (impl : Impl) (nIter : ℕ) (ss : List (ObsSeq (Fin nf)))
    (hne : ss ≠ []) (h : CatModel π A e) (hL : 0 < catL ss π A e) (mon : Monitor XF) :
    let out := catFit (fun _ => 1) (fun _ _ => 1) (fun _ _ => 1) params impl nIter ss
      (Categorical.params π A e) mon
    ∃ (l : List ℝ) (π' : Fin nc → ℝ) (A' : Fin nc → Fin nc → ℝ) (e' : Fin nc → Fin nf → ℝ),
      out.monitor.history = l.map fin ∧ l.Pairwise (· ≤ ·) ∧
      out.state = Categorical.params π' A' e' ∧ CatModel π' A' e' ∧ catL ss π A e ≤ catL ss π' A' e' ∧
      (∀ v ∈ l, v ≤ Real.log (catL ss π' A' e')) ∧ (∀ v ∈ l, Real.log (catL ss π A e) ≤ v) := by
  intro out
  obtain ⟨p, a, q, hp0, ha0, hq0, hmod, hst, hpos, hhist, hmono⟩ := C29_em_penalised
    (fun _ => 1) (fun _ _ => 1) (fun _ _ => 1) (by simp) (by simp) (by simp) params impl nIter ss hne
    h hL (fun _ _ _ => rfl) mon
  set n := out.monitor.history.length with hn
  have hstep : ∀ k < n, Real.log (catL ss (p k) (a k) (q k)) ≤
      Real.log (catL ss (p (k + 1)) (a (k + 1)) (q (k + 1))) := by
    intro k hk
    have := hmono k hk
    simpa [catObjective, logDirichlet_one] using this
  have hle : ∀ j k, j ≤ k → k ≤ n → Real.log (catL ss (p j) (a j) (q j)) ≤
      Real.log (catL ss (p k) (a k) (q k)) := by
    intro j k hjk hk
    induction k, hjk using Nat.le_induction with
    | base => exact le_rfl
    | succ k hjk ih => exact (ih (by omega)).trans (hstep k (by omega))
  refine ⟨(List.range n).map fun k => Real.log (catL ss (p k) (a k) (q k)), p n, a n, q n,
    ?_, ?_, hst, hmod n, ?_, ?_, ?_⟩
  · rw [List.map_map]; exact hhist
  · rw [List.pairwise_map]
    refine (List.pairwise_lt_range (n := n)).imp_of_mem ?_
    intro j k _ hk hjk
    exact hle j k hjk.le (List.mem_range.1 hk).le
  · have := hle 0 n (Nat.zero_le _) le_rfl
    rw [hp0, ha0, hq0] at this
    exact (Real.log_le_log_iff hL (hpos n le_rfl)).1 this
  · intro v hv
    obtain ⟨k, hk, rfl⟩ := List.mem_map.1 hv
    exact hle k n (List.mem_range.1 hk).le le_rfl
  · intro v hv
    obtain ⟨k, hk, rfl⟩ := List.mem_map.1 hv
    have := hle 0 k (Nat.zero_le _) (List.mem_range.1 hk).le
    rwa [hp0, ha0, hq0] at this

/-- **C19** `CategoricalHMM` with priors at least one and a data set of positive likelihood: zeros
of `startprob_` and `transmat_` are exactly preserved by `fit`. -/
theorem C19_categorical_fit (sp : Fin nc → ℝ) (tp : Fin nc → Fin nc → ℝ) (ep : Fin nc → Fin nf → ℝ)
    (hsp : ∀ i, 1 ≤ sp i) (htp : ∀ i j, 1 ≤ tp i j) (hep : ∀ i k, 1 ≤ ep i k) (params : List Char)
    (impl : Impl) (nIter : ℕ) (ss : List (ObsSeq (Fin nf))) (hne : ss ≠ []) (h : CatModel π A e)
    (hL : 0 < catL ss π A e) (mon : Monitor XF) :
    let out := catFit sp tp ep params impl nIter ss (Categorical.params π A e) mon
    (∀ i, π i = 0 → out.state.startprob i = fin 0) ∧
      (∀ i j, A i j = 0 → out.state.transmat i j = fin 0) := by
  intro out
  let c : RConfig nc := ⟨sp, tp, impl, nIter⟩
  let F := Categorical.family ep params
  have hLs : ∀ s ∈ ss, 0 < likelihood π A (s.weights (catB e)) := by
    intro s hs
    refine lt_of_le_of_ne (likelihood_nonneg h.π_nonneg h.A_nonneg fun t i => h.e_nonneg _ _)
      fun h0 => hL.ne' ?_
    exact List.prod_eq_zero (List.mem_map.2 ⟨s, hs, h0.symm⟩)
  have hI := F.closed_of_ac c ss (fun _ => hsp) (fun _ => htp)
    (fun _ _ => trivial) (Categorical.ac ep params (fun _ => hep) ss)
  let r0 : RParams nc (Categorical.Rows nc nf) := ⟨π, A, ⟨e, h.e_nonneg, h.e_sum⟩⟩
  have hrun := runs_of_fit (Categorical.emission fun i k => fin (ep i k))
    (mapConfig sp tp params impl nIter) (dataX Categorical.sym ss) (some (dataLengths ss))
    (Categorical.params π A e) mon
  obtain ⟨e1, _⟩ := F.runs_real hI hne (fun _ => hsp) (r := r0) ⟨h.valid, fun _ => hLs⟩ hrun
  have e1' : out.state = F.theta ((F.rstep c ss)^[out.monitor.history.length] r0) := e1
  rw [e1']
  have key : ∀ k, (∀ i, π i = 0 → ((F.rstep c ss)^[k] r0).π i = 0) ∧
      ∀ i j, A i j = 0 → ((F.rstep c ss)^[k] r0).A i j = 0 := by
    intro k
    induction k with
    | zero => exact ⟨fun i h => h, fun i j h => h⟩
    | succ k ih =>
      rw [Function.iterate_succ_apply']
      refine ⟨fun i hi => ?_, fun i j hij => ?_⟩
      · have := ih.1 i hi
        simp only [Family.rstep]
        split <;> simp [mapUpdate, mapCounts, this]
      · have := ih.2 i j hij
        simp only [Family.rstep]
        split <;> simp [mapUpdate, mapCounts, this]
  exact ⟨fun i hi => congrArg fin ((key _).1 i hi), fun i j hij => congrArg fin ((key _).2 i j hij)⟩

/-- **C26** `CategoricalHMM`, start prior at least one (other priors arbitrary): if a `fit` with
`implementation="scaling"` does not raise, `implementation="log"` gives the same outcome: same
parameters, same history, same iteration count. -/
theorem C26_implementation_irrelevant (sp : Fin nc → ℝ) (tp : Fin nc → Fin nc → ℝ)
    (ep : Fin nc → Fin nf → ℝ) (params : List Char) (hsp : 's' ∈ params → ∀ i, 1 ≤ sp i) (nIter : ℕ)
    (ss : List (ObsSeq (Fin nf))) (hne : ss ≠ []) (h : CatModel π A e) (mon : Monitor XF)
    (hr : (catFit sp tp ep params .scaling nIter ss (Categorical.params π A e) mon).raised = none) :
    catFit sp tp ep params .log nIter ss (Categorical.params π A e) mon =
      catFit sp tp ep params .scaling nIter ss (Categorical.params π A e) mon := by
  let c : RConfig nc := ⟨sp, tp, .scaling, nIter⟩
  let c' : RConfig nc := ⟨sp, tp, .log, nIter⟩
  let F := Categorical.family ep params
  let r0 : RParams nc (Categorical.Rows nc nf) := ⟨π, A, ⟨e, h.e_nonneg, h.e_sum⟩⟩
  refine fitLoop_agree (fun θ => ∃ r : RParams nc (Categorical.Rows nc nf), r.Valid ∧ θ = F.theta r)
    ?_ nIter _ _ ⟨r0, h.valid, rfl⟩ hr
  rintro _ θ' v ⟨r, hv, rfl⟩ hst
  obtain ⟨h1, h2, h3, h4⟩ := F.emStep_inv (F.closed_scaling c ss rfl fun _ _ => trivial) hne hsp hv hst
  refine ⟨?_, _, h4, h2⟩
  rw [h2, h3]
  exact F.emStep_real c' ss hne hv (fun s hs => NoUnderflow.likelihood_pos (h1 s hs)) trivial hsp

/-- **C27** `CategoricalHMM`, one E-step: permuting the training sequences changes neither the
statistics nor the log-likelihood. -/
theorem C27_estep_order (sp : Fin nc → ℝ) (tp : Fin nc → Fin nc → ℝ) (ep : Fin nc → Fin nf → ℝ)
    (params : List Char) (impl : Impl) (nIter : ℕ) {ss ss' : List (ObsSeq (Fin nf))}
    (hperm : ss.Perm ss') (hne : ss ≠ []) (h : CatModel π A e)
    (hok : ∀ s ∈ ss, EstepOk impl π A (s.weights (catB e))) :
    doEstep (Categorical.emission fun i k => fin (ep i k)) (mapConfig sp tp params impl nIter)
        (Categorical.params π A e) (dataX Categorical.sym ss) (dataLengths ss) =
      doEstep (Categorical.emission fun i k => fin (ep i k)) (mapConfig sp tp params impl nIter)
        (Categorical.params π A e) (dataX Categorical.sym ss') (dataLengths ss') :=
  (Categorical.family ep params).doEstep_perm ⟨sp, tp, impl, nIter⟩ hperm hne
    (r := ⟨π, A, ⟨e, h.e_nonneg, h.e_sum⟩⟩) h.valid hok

/-- **C27** `CategoricalHMM`, whole `fit` with priors at least one: permuting the training sequences
does not change the outcome (parameters, history, iterations, exception if any). -/
theorem C27_fit_order (sp : Fin nc → ℝ) (tp : Fin nc → Fin nc → ℝ) (ep : Fin nc → Fin nf → ℝ)
    (hsp : ∀ i, 1 ≤ sp i) (htp : ∀ i j, 1 ≤ tp i j) (hep : ∀ i k, 1 ≤ ep i k) (params : List Char)
    (impl : Impl) (nIter : ℕ) {ss ss' : List (ObsSeq (Fin nf))} (hperm : ss.Perm ss') (hne : ss ≠ [])
    (h : CatModel π A e) (hL : impl = .log → 0 < catL ss π A e) (mon : Monitor XF) :
    catFit sp tp ep params impl nIter ss' (Categorical.params π A e) mon =
      catFit sp tp ep params impl nIter ss (Categorical.params π A e) mon := by
  let c : RConfig nc := ⟨sp, tp, impl, nIter⟩
  let F := Categorical.family ep params
  let r0 : RParams nc (Categorical.Rows nc nf) := ⟨π, A, ⟨e, h.e_nonneg, h.e_sum⟩⟩
  have hI := F.closed_of_ac c ss (fun _ => hsp) (fun _ => htp)
    (fun _ _ => trivial) (Categorical.ac ep params (fun _ => hep) ss)
  refine fitLoop_congr (fun θ => ∃ r : RParams nc (Categorical.Rows nc nf),
    (r.Valid ∧ (impl = .log → F.Ok .log ss r)) ∧ θ = F.theta r)
    ?_ nIter _ _ ⟨r0, ⟨h.valid, fun hi s hs => ?_⟩, rfl⟩
  · rintro _ ⟨r, hv, rfl⟩
    refine ⟨F.emStep_perm c hperm hne hv.1 fun hi => ?_, fun θ' v hst => ?_⟩
    · rw [hi]; exact hv.2 hi
    · obtain ⟨_, h2, _, h4⟩ := F.emStep_inv hI hne (fun _ => hsp) hv hst
      exact ⟨_, h4, h2⟩
  · refine lt_of_le_of_ne (likelihood_nonneg h.π_nonneg h.A_nonneg fun t i => h.e_nonneg _ _)
      fun h0 => (hL hi).ne' ?_
    exact List.prod_eq_zero (List.mem_map.2 ⟨s, hs, h0.symm⟩)

theorem emitCount_eq (ss : List (ObsSeq (Fin nf))) (i : Fin nc) (k : Fin nf) :
    obsStat π A (catB e) ss i (Categorical.ind k) = emitCount π A e ss i k := by
  unfold obsStat emitCount Categorical.ind
  congr 2; funext s
  exact Finset.sum_congr rfl fun t _ => by split <;> simp

theorem sum_emitCount (ss : List (ObsSeq (Fin nf))) (i : Fin nc) :
    ∑ k, emitCount π A e ss i k = visitCount π A e ss i := by
  unfold emitCount visitCount
  rw [← list_sum_fintype_comm]
  congr 2; funext s
  rw [Finset.sum_comm]
  exact Finset.sum_congr rfl fun t _ => by simp

/-- **C48** One EM iteration of a `CategoricalHMM` with emission priors `ep` (any reals): each new
emission row is non-negative and sums to one, or is entirely zero (exactly when no entry of
`prior - 1 + count` is positive); entries are proportional to `max(prior - 1 + count, 0)` where the
count of `(i, k)` is the expected number of emissions of `k` from `i` over all positions of all
sequences. -/
theorem C48_update (sp : Fin nc → ℝ) (tp : Fin nc → Fin nc → ℝ) (ep : Fin nc → Fin nf → ℝ)
    (params : List Char) (he : 'e' ∈ params) (impl : Impl) (nIter : ℕ) (ss : List (ObsSeq (Fin nf)))
    (hne : ss ≠ []) (h : CatModel π A e) (hok : ∀ s ∈ ss, EstepOk impl π A (s.weights (catB e))) :
    ∃ (θ' : Theta XF nc (Categorical.Params XF nc nf)) (v : XF) (e' : Fin nc → Fin nf → ℝ),
      emStep (Categorical.emission fun i k => fin (ep i k)) (mapConfig sp tp params impl nIter)
        (dataX Categorical.sym ss) (dataLengths ss) (Categorical.params π A e) = .ok (θ', v) ∧
      θ'.emission = (fun i k => fin (e' i k)) ∧ (∀ i k, 0 ≤ e' i k) ∧
      (∀ i, (∃ k, 0 < ep i k - 1 + emitCount π A e ss i k) → ∑ k, e' i k = 1) ∧
      (∀ i, (¬ ∃ k, 0 < ep i k - 1 + emitCount π A e ss i k) → ∀ k, e' i k = 0) ∧
      ∀ i k, e' i k * ∑ l, max (ep i l - 1 + emitCount π A e ss i l) 0 =
        max (ep i k - 1 + emitCount π A e ss i k) 0 := by
  let F := Categorical.family ep params
  let c : RConfig nc := ⟨sp, tp, impl, nIter⟩
  let r0 : RParams nc (Categorical.Rows nc nf) := ⟨π, A, ⟨e, h.e_nonneg, h.e_sum⟩⟩
  have hstep := F.emStep_ok c ss hne (r := r0) h.valid hok trivial
  have hcount : ∀ i k, mapCounts (ep i) (fun _ => 1)
      (fun k => obsStat π A (catB e) ss i (Categorical.ind k)) k =
      max (ep i k - 1 + emitCount π A e ss i k) 0 := by
    intro i k
    simp only [mapCounts, one_ne_zero, if_false, emitCount_eq]
  refine ⟨_, _, fun i => mapUpdate (ep i) (fun _ => 1)
    (fun k => obsStat π A (catB e) ss i (Categorical.ind k)), hstep, ?_,
    fun i k => mapUpdate_nonneg _ _ _ _, ?_, ?_, ?_⟩
  · funext i k
    show fin ((F.rstep c ss r0).q.e i k) = _
    simp only [Family.rstep, F, Categorical.family, he, if_true, Categorical.updRow]
    rfl
  · rintro i ⟨k, hk⟩
    refine sum_mapUpdate fun h0 => ?_
    have := mapCounts_all_zero h0 k
    rw [hcount] at this
    exact absurd (max_eq_right_iff.1 this) (not_le.2 hk)
  · intro i hno k
    push Not at hno
    show mapCounts _ _ _ k / _ = 0
    rw [hcount, max_eq_right (hno k), zero_div]
  · intro i k
    simp only [← hcount]
    by_cases hS : ∑ l, mapCounts (ep i) (fun _ => 1)
        (fun k => obsStat π A (catB e) ss i (Categorical.ind k)) l = 0
    · rw [hS, mul_zero, mapCounts_all_zero hS]
    · exact div_mul_cancel₀ _ hS

/-- **C48** With flat priors the new entry is the expected number of emissions of `k` from `i`
divided by the expected number of visits to `i` (zero when `i` is never visited). -/
theorem C48_flat (params : List Char) (he : 'e' ∈ params) (impl : Impl) (nIter : ℕ)
    (ss : List (ObsSeq (Fin nf))) (hne : ss ≠ []) (h : CatModel π A e)
    (hok : ∀ s ∈ ss, EstepOk impl π A (s.weights (catB e))) :
    ∃ (θ' : Theta XF nc (Categorical.Params XF nc nf)) (v : XF),
      emStep (Categorical.emission fun _ _ => fin 1) (mapConfig (fun _ => 1) (fun _ _ => 1) params
        impl nIter) (dataX Categorical.sym ss) (dataLengths ss) (Categorical.params π A e) =
        .ok (θ', v) ∧
      θ'.emission = fun i k => fin (emitCount π A e ss i k / visitCount π A e ss i) := by
  obtain ⟨θ', v, e', h1, h2, h3, h4, h5, h6⟩ := C48_update (fun _ => 1) (fun _ _ => 1)
    (fun _ _ => 1) params he impl nIter ss hne h hok
  refine ⟨θ', v, h1, ?_⟩
  rw [h2]
  funext i k
  have hnn : ∀ l, 0 ≤ emitCount π A e ss i l := by
    intro l
    rw [← emitCount_eq]
    exact obsStat_nonneg h.π_nonneg h.A_nonneg (fun o i => h.e_nonneg i o) ss i
      fun o => by unfold Categorical.ind; split <;> norm_num
  have e1 : ∀ l, max ((1 : ℝ) - 1 + emitCount π A e ss i l) 0 = emitCount π A e ss i l := by
    intro l; rw [sub_self, zero_add, max_eq_left (hnn l)]
  have := h6 i k
  simp only [e1] at this
  rw [sum_emitCount] at this
  congr 1
  by_cases hv : visitCount π A e ss i = 0
  · rw [hv, div_zero]
    refine h5 i (fun ⟨l, hl⟩ => ?_) k
    rw [sub_self, zero_add] at hl
    have hs := sum_emitCount (π := π) (A := A) (e := e) ss i
    rw [hv] at hs
    exact hl.ne' ((Finset.sum_eq_zero_iff_of_nonneg fun l _ => hnn l).1 hs l (Finset.mem_univ l))
  · rw [eq_div_iff hv, this]

end

/-! ## The hypotheses can be met -/

theorem Demo.catModel : CatModel Demo.π Demo.A Demo.e where
  π_nonneg := Demo.π_nonneg
  A_nonneg := Demo.A_nonneg
  e_nonneg := Demo.e_nonneg
  π_sum := Demo.stochastic.π_sum.le
  A_sum i := (Demo.stochastic.A_sum i).le
  e_sum i := by fin_cases i <;> simp [Demo.e, Fin.sum_univ_three] <;> norm_num

theorem Demo.catL_pos : 0 < catL [Demo.seq, Demo.seq] Demo.π Demo.A Demo.e := by
  have := Demo.data_likelihood
  unfold catL
  show 0 < dataLikelihood Demo.π Demo.A Demo.b [Demo.seq, Demo.seq]
  rw [this]; norm_num

theorem DemoLR.catModel : CatModel DemoLR.π DemoLR.A DemoLR.e where
  π_nonneg := (DemoLR.represents .log).π_nonneg
  A_nonneg := (DemoLR.represents .log).A_nonneg
  e_nonneg i k := (DemoLR.represents .log).b_nonneg k i
  π_sum := DemoLR.stochastic.π_sum.le
  A_sum i := (DemoLR.stochastic.A_sum i).le
  e_sum i := by fin_cases i <;> norm_num [DemoLR.e, Fin.sum_univ_two]

theorem DemoLR.catL_pos : 0 < catL [⟨1, DemoLR.good⟩] DemoLR.π DemoLR.A DemoLR.e := by
  have := DemoLR.good_likelihood
  unfold catL dataLikelihood
  simp only [List.map_cons, List.map_nil, List.prod_cons, List.prod_nil, mul_one]
  show 0 < likelihood DemoLR.π DemoLR.A (fun t => DemoLR.b (DemoLR.good t))
  rw [this]; norm_num

/-- The left-right structure survives any number of iterations. -/
example (impl : Impl) (n : ℕ) (mon : Monitor XF) :
    (catFit (fun _ => 1) (fun _ _ => 1) (fun _ _ => 1) ['s', 't', 'e'] impl n
      [⟨1, DemoLR.good⟩] (Categorical.params DemoLR.π DemoLR.A DemoLR.e) mon).state.transmat 1 0 =
      fin 0 :=
  (C19_categorical_fit _ _ _ (by simp) (by simp) (by simp) _ impl n _ (by simp) DemoLR.catModel
    DemoLR.catL_pos mon).2 1 0 (by norm_num [DemoLR.A])

/-- A `scaling` fit that does not raise. -/
theorem Demo.scaling_fit (mon : Monitor XF) :
    (catFit (fun _ => 1) (fun _ _ => 1) (fun _ _ => 1) ['s', 't', 'e'] .scaling 1
      [Demo.seq, Demo.seq] (Categorical.params Demo.π Demo.A Demo.e) mon).raised = none := by
  have := (Categorical.family (nc := 2) (fun _ (_ : Fin 3) => 1) ['s', 't', 'e']).emStep_real
    ⟨fun _ => 1, fun _ _ => 1, .scaling, 1⟩ [Demo.seq, Demo.seq] (by simp)
    (r := ⟨Demo.π, Demo.A, ⟨Demo.e, Demo.catModel.e_nonneg, Demo.catModel.e_sum⟩⟩)
    Demo.catModel.valid (Demo.estepOk .scaling) trivial (by simp)
  change emStep (Categorical.emission fun _ _ => fin 1) (mapConfig (fun _ => 1) (fun _ _ => 1)
    ['s', 't', 'e'] .scaling 1) (dataX Categorical.sym [Demo.seq, Demo.seq])
    (dataLengths [Demo.seq, Demo.seq]) (Categorical.params Demo.π Demo.A Demo.e) = _ at this
  simp only [catFit, fitFrom, Option.getD_some]
  show (fitLoop _ 1 _ _).raised = none
  simp only [fitLoop, this]
  split <;> rfl

example (mon : Monitor XF) :
    catFit (fun _ => 1) (fun _ _ => 1) (fun _ _ => 1) ['s', 't', 'e'] .log 1
      [Demo.seq, Demo.seq] (Categorical.params Demo.π Demo.A Demo.e) mon =
    catFit (fun _ => 1) (fun _ _ => 1) (fun _ _ => 1) ['s', 't', 'e'] .scaling 1
      [Demo.seq, Demo.seq] (Categorical.params Demo.π Demo.A Demo.e) mon :=
  C26_implementation_irrelevant _ _ _ _ (by simp) 1 _ (by simp) Demo.catModel mon
    (Demo.scaling_fit mon)

/-- A `fit` that raises in its first E-step. -/
example (mon : Monitor XF) :
    (catFit (fun _ => 1) (fun _ _ => 1) (fun _ _ => 1) ['s', 't', 'e'] .scaling 5
      [⟨1, DemoLR.bad⟩] (Categorical.params DemoLR.π DemoLR.A DemoLR.e) mon).raised =
      some .underflow := by
  have := (Categorical.family (nc := 2) (fun _ (_ : Fin 2) => 1) ['s', 't', 'e']).emStep_underflow
    ⟨fun _ => 1, fun _ _ => 1, .scaling, 5⟩ rfl [⟨1, DemoLR.bad⟩]
    (r := ⟨DemoLR.π, DemoLR.A, ⟨DemoLR.e, DemoLR.catModel.e_nonneg, DemoLR.catModel.e_sum⟩⟩)
    DemoLR.catModel.valid (by
      intro h
      have := NoUnderflow.likelihood_pos (h ⟨1, DemoLR.bad⟩ (by simp))
      exact this.ne' DemoLR.bad_likelihood)
  change emStep (Categorical.emission fun _ _ => fin 1) (mapConfig (fun _ => 1) (fun _ _ => 1)
    ['s', 't', 'e'] .scaling 5) (dataX Categorical.sym [⟨1, DemoLR.bad⟩])
    (dataLengths [⟨1, DemoLR.bad⟩]) (Categorical.params DemoLR.π DemoLR.A DemoLR.e) = _ at this
  simp only [catFit, fitFrom, Option.getD_some]
  show (fitLoop _ 5 _ _).raised = _
  simp only [fitLoop, this]

/-- Ten iterations on two sequences, both implementations. -/
example (impl : Impl) (mon : Monitor XF) :
    ∃ l : List ℝ, (catFit (fun _ => 1) (fun _ _ => 1) (fun _ _ => 1) ['s', 't', 'e'] impl 10
      [Demo.seq, Demo.seq] (Categorical.params Demo.π Demo.A Demo.e) mon).monitor.history = l.map fin ∧
      l.Pairwise (· ≤ ·) := by
  obtain ⟨l, _, _, _, h1, h2, _⟩ := C21_em_monotone ['s', 't', 'e'] impl 10 [Demo.seq, Demo.seq]
    (by simp) Demo.catModel Demo.catL_pos mon
  exact ⟨l, h1, h2⟩

end Verif
