import Verif.Proofs.SmallStep
import Verif.Props.Stops
import Verif.Props.RoundoffEM
import Verif.Proofs.ObjectFit

/-!
# C91: a small gain means a small step
-/
set_option autoImplicit false

namespace Verif
open FloatLike XF Hmmc Spec
open scoped Classical

variable {nc nf : ℕ} [NeZero nc]

section
variable (sp : Fin nc → ℝ) (tp : Fin nc → Fin nc → ℝ) (ep : Fin nc → Fin nf → ℝ) (params : List Char)
  (ss : List (ObsSeq (Fin nf)))

/-- The exact iterates of training from `θ0`. -/
noncomputable def catIter (θ0 : CatParams nc nf) (k : ℕ) : CatParams nc nf :=
  (catEM params sp tp ep ss)^[k] θ0

/-- What is preserved by an iteration. -/
structure CatInv (θ : CatParams nc nf) : Prop where
  model : CatModel θ.π θ.A θ.e
  pos : 0 < catL ss θ.π θ.A θ.e
  zero : ∀ i k, θ.e i k = 0 → ep i k = 1

/-- The penalised log-likelihood of `θ`. -/
noncomputable def objective (θ : CatParams nc nf) : ℝ := catObjective sp tp ep ss θ.π θ.A θ.e

variable {sp tp ep ss}

omit [NeZero nc] in
theorem CatInv.pos_each {θ : CatParams nc nf} (h : CatInv ep ss θ) :
    ∀ s ∈ ss, 0 < likelihood θ.π θ.A (s.weights (catB θ.e)) := by
  intro s hs
  refine lt_of_le_of_ne (likelihood_nonneg h.model.π_nonneg h.model.A_nonneg fun t i => h.model.e_nonneg _ _)
    fun h0 => h.pos.ne' ?_
  exact List.prod_eq_zero (List.mem_map.2 ⟨s, hs, h0.symm⟩)

/-- One iteration. -/
theorem CatInv.next (hsp : ∀ i, 1 ≤ sp i) (htp : ∀ i j, 1 ≤ tp i j) (hep : ∀ i k, 1 ≤ ep i k)
    {θ : CatParams nc nf} (h : CatInv ep ss θ) :
    CatInv ep ss (catEM params sp tp ep ss θ) ∧
    objective sp tp ep ss θ + stepSize sp tp ep ss θ (catEM params sp tp ep ss θ) ≤
      objective sp tp ep ss (catEM params sp tp ep ss θ) := by
  let c : RConfig nc := ⟨sp, tp, .log, 0⟩
  let F := Categorical.family (nc := nc) (nf := nf) ep params
  let r := h.model.rp
  have hr : r.Valid := h.model.valid
  have he : catEM params sp tp ep ss θ = _ := catEM_rstep (ep := ep) (params := params) c ⟨rfl, rfl⟩ ss r
  have hg := F.rstep_gain c ss hr h.pos_each (fun _ => hsp) (fun _ => htp)
    (Categorical.gains ss hr (fun _ => hep) fun _ => h.zero)
  have hs := F.rstep_gain_step c ss hr h.pos_each (fun _ => hsp) (fun _ => htp)
    (Categorical.gains_step ss hr (fun _ => hep) fun _ => h.zero)
  have hL' : 0 < catL ss (F.rstep c ss r).π (F.rstep c ss r).A (F.rstep c ss r).q.e :=
    (log_dataLikelihood ss hg.1).1
  refine ⟨⟨?_, ?_, ?_⟩, ?_⟩
  · rw [he]; exact catModel_of_valid (F.rstep_valid c ss hr)
  · rw [he]; exact hL'
  · intro i k h0
    by_cases hpe : 'e' ∈ params
    · simp only [catEM, hpe, if_true] at h0
      have hst : 0 ≤ emitCount θ.π θ.A θ.e ss i k := by
        rw [← emitCount_eq]
        exact obsStat_nonneg h.model.π_nonneg h.model.A_nonneg (fun o i => h.model.e_nonneg _ _) ss i
          fun o => by unfold Categorical.ind; split <;> norm_num
      have hc : mapCounts (ep i) (fun _ => 1) (emitCount θ.π θ.A θ.e ss i) k = 0 := by
        by_cases hS : ∑ j, mapCounts (ep i) (fun _ => 1) (emitCount θ.π θ.A θ.e ss i) j = 0
        · exact mapCounts_all_zero hS k
        · exact (div_eq_zero_iff.1 h0).resolve_right hS
      simp only [mapCounts, one_ne_zero, if_false] at hc
      have := max_eq_right_iff.1 hc
      have := hep i k
      linarith
    · simp only [catEM, hpe, if_false] at h0
      exact h.zero i k h0
  · rw [he]
    have e6 : F.next r.q (obsStat r.π r.A (F.b r.q) ss) = (F.rstep c ss r).q := rfl
    unfold Family.chainStep at hs
    change Real.log (catL ss θ.π θ.A θ.e) + logDirichlet sp θ.π + ∑ i, logDirichlet (tp i) (θ.A i) +
      (∑ i, logDirichlet (ep i) (θ.e i) - ∑ i, logDirichlet (ep i) ((F.rstep c ss r).q.e i) +
        ∑ i, evidenceOf (ep i) (θ.e i) (emitCount θ.π θ.A θ.e ss i) *
          hellinger ((F.rstep c ss r).q.e i) (θ.e i)) +
      (evidenceOf sp θ.π (startStat θ.π θ.A (catB θ.e) ss) * hellinger (F.rstep c ss r).π θ.π +
        ∑ i, evidenceOf (tp i) (θ.A i) (transStat θ.π θ.A (catB θ.e) ss i) *
          hellinger ((F.rstep c ss r).A i) (θ.A i)) ≤
      Real.log (catL ss (F.rstep c ss r).π (F.rstep c ss r).A (F.rstep c ss r).q.e) +
        logDirichlet sp (F.rstep c ss r).π + ∑ i, logDirichlet (tp i) ((F.rstep c ss r).A i) at hs
    unfold objective catObjective stepSize
    simp only
    linarith

/-- All iterates. -/
theorem CatInv.iter (hsp : ∀ i, 1 ≤ sp i) (htp : ∀ i j, 1 ≤ tp i j) (hep : ∀ i k, 1 ≤ ep i k)
    {θ : CatParams nc nf} (h : CatInv ep ss θ) (k : ℕ) : CatInv ep ss (catIter sp tp ep params ss θ k) := by
  induction k with
  | zero => exact h
  | succ k ih => rw [catIter, Function.iterate_succ_apply']; exact (ih.next params hsp htp hep).1

/-- What `fit` of a `CategoricalHMM` computes: the iterates and the log-likelihoods of all but the last. -/
theorem catFit_iter (hsp : ∀ i, 1 ≤ sp i) (htp : ∀ i j, 1 ≤ tp i j) (hep : ∀ i k, 1 ≤ ep i k)
    (impl : Impl) (nIter : ℕ) (hne : ss ≠ []) {θ0 : CatParams nc nf} (h : CatInv ep ss θ0) (mon : Monitor XF) :
    let out := catFit sp tp ep params impl nIter ss (Categorical.params θ0.π θ0.A θ0.e) mon
    let θ := catIter sp tp ep params ss θ0
    let n := out.monitor.history.length
    out.state = Categorical.params (θ n).π (θ n).A (θ n).e ∧
    out.monitor.history = (List.range n).map (fun k => fin (Real.log (catL ss (θ k).π (θ k).A (θ k).e))) ∧
    (impl = .log → out.raised = none) := by
  intro out θ n
  let c : RConfig nc := ⟨sp, tp, impl, nIter⟩
  let F := Categorical.family ep params
  let of : RParams nc (Categorical.Rows nc nf) → CatParams nc nf := fun r => ⟨r.π, r.A, r.q.e⟩
  have hof : ∀ r, of (F.rstep c ss r) = catEM params sp tp ep ss (of r) := fun r =>
    (catEM_rstep (ep := ep) (params := params) c ⟨rfl, rfl⟩ ss r).symm
  let I : RParams nc (Categorical.Rows nc nf) → Prop := fun r => r.Valid ∧ CatInv ep ss (of r)
  have hI : F.Closed c ss I := by
    refine ⟨fun r hr => hr.1, fun _ r hr => hr.2.pos_each, fun _ _ _ => trivial, fun r hr _ => ?_⟩
    exact ⟨F.rstep_valid c ss hr.1, by rw [hof]; exact (hr.2.next params hsp htp hep).1⟩
  let r0 : RParams nc (Categorical.Rows nc nf) := h.model.rp
  have hr0 : I r0 := ⟨h.model.valid, h⟩
  have hrun := runs_of_fit (Categorical.emission fun i k => fin (ep i k))
    (mapConfig sp tp params impl nIter) (dataX Categorical.sym ss) (some (dataLengths ss))
    (Categorical.params θ0.π θ0.A θ0.e) mon
  obtain ⟨e1, e2, e3, e4⟩ := F.runs_real hI hne (fun _ => hsp) hr0 hrun
  have hit : ∀ k, of ((F.rstep c ss)^[k] r0) = θ k := by
    intro k
    induction k with
    | zero => rfl
    | succ k ih =>
      rw [Function.iterate_succ_apply', hof, ih]
      exact (Function.iterate_succ_apply' _ _ _).symm
  refine ⟨?_, ?_, ?_⟩
  · rw [← hit]; exact e1
  · refine e2.trans (List.map_congr_left fun k _ => ?_)
    rw [← hit]
    have := (h.iter params hsp htp hep k).pos
    change 0 < catL ss (θ k).π (θ k).A (θ k).e at this
    rw [← hit] at this
    exact lg_pos this
  · rintro rfl
    exact (F.fit_raised hI hne (fun _ => hsp) hr0 mon).resolve_right fun h => by simpa [c] using h.1

/-- **C91** Every iteration gains at least the length of its step: the penalised log-likelihood grows by at least
the sum over the rows of the parameters of the number of (pseudo-)observations behind the row times the squared
Hellinger distance between the old and the new row. -/
theorem C91_step (hsp : ∀ i, 1 ≤ sp i) (htp : ∀ i j, 1 ≤ tp i j) (hep : ∀ i k, 1 ≤ ep i k)
    (impl : Impl) (nIter : ℕ) (hne : ss ≠ []) {θ0 : CatParams nc nf} (hm : CatModel θ0.π θ0.A θ0.e)
    (hL : 0 < catL ss θ0.π θ0.A θ0.e) (hz : ∀ i k, θ0.e i k = 0 → ep i k = 1) (mon : Monitor XF) :
    let out := catFit sp tp ep params impl nIter ss (Categorical.params θ0.π θ0.A θ0.e) mon
    let n := out.monitor.history.length
    ∃ θ : ℕ → CatParams nc nf, θ 0 = θ0 ∧ out.state = Categorical.params (θ n).π (θ n).A (θ n).e ∧
      out.monitor.history = (List.range n).map (fun k => fin (Real.log (catL ss (θ k).π (θ k).A (θ k).e))) ∧
      ∀ k, catObjective sp tp ep ss (θ k).π (θ k).A (θ k).e + stepSize sp tp ep ss (θ k) (θ (k + 1)) ≤
        catObjective sp tp ep ss (θ (k + 1)).π (θ (k + 1)).A (θ (k + 1)).e := by
  intro out n
  have h : CatInv ep ss θ0 := ⟨hm, hL, hz⟩
  obtain ⟨h1, h2, -⟩ := catFit_iter params hsp htp hep impl nIter hne h mon
  refine ⟨catIter sp tp ep params ss θ0, rfl, h1, h2, fun k => ?_⟩
  have := ((h.iter params hsp htp hep k).next params hsp htp hep).2
  rw [show catIter sp tp ep params ss θ0 (k + 1) = catEM params sp tp ep ss (catIter sp tp ep params ss θ0 k)
    from Function.iterate_succ_apply' _ _ _]
  exact this

end

/-! ## Flat priors -/

theorem mapCounts_flat {ι : Type*} {old stat : ι → ℝ} (hs : ∀ i, 0 ≤ stat i) (hz : ∀ i, old i = 0 → stat i = 0) :
    mapCounts (fun _ => 1) old stat = stat := by
  funext i
  unfold mapCounts
  by_cases h : old i = 0
  · rw [if_pos h, hz i h]
  · rw [if_neg h, sub_self, zero_add, max_eq_left (hs i)]

section
variable (params : List Char) {ss : List (ObsSeq (Fin nf))}

/-- Training with flat priors. -/
noncomputable abbrev flatIter (ss : List (ObsSeq (Fin nf))) (θ0 : CatParams nc nf) (k : ℕ) : CatParams nc nf :=
  (catEM params (fun _ => 1) (fun _ _ => 1) (fun _ _ => 1) ss)^[k] θ0

/-- Log-likelihood of the data. -/
noncomputable abbrev logL (ss : List (ObsSeq (Fin nf))) (θ : CatParams nc nf) : ℝ :=
  Real.log (catL ss θ.π θ.A θ.e)

/-- Length of a step with flat priors: the distances of the rows weighted with the number of sequences (start),
with the expected number of transitions from the state and with the expected number of visits to the state. -/
noncomputable def flatStep (ss : List (ObsSeq (Fin nf))) (θ θ' : CatParams nc nf) : ℝ :=
  ss.length * hellinger θ'.π θ.π +
  ∑ i, (∑ j, transStat θ.π θ.A (catB θ.e) ss i j) * hellinger (θ'.A i) (θ.A i) +
  ∑ i, visitCount θ.π θ.A θ.e ss i * hellinger (θ'.e i) (θ.e i)

omit [NeZero nc] in
theorem Spec.CatModel.startStat_nonneg {θ : CatParams nc nf} (h : CatModel θ.π θ.A θ.e) (i : Fin nc) :
    0 ≤ startStat θ.π θ.A (catB θ.e) ss i :=
  Verif.startStat_nonneg h.π_nonneg h.A_nonneg (fun _ _ => h.e_nonneg _ _) ss i

omit [NeZero nc] in
theorem Spec.CatModel.transStat_nonneg {θ : CatParams nc nf} (h : CatModel θ.π θ.A θ.e) (i j : Fin nc) :
    0 ≤ transStat θ.π θ.A (catB θ.e) ss i j :=
  Verif.transStat_nonneg h.π_nonneg h.A_nonneg (fun _ _ => h.e_nonneg _ _) ss i j

theorem Spec.CatModel.emitCount_nonneg {θ : CatParams nc nf} (h : CatModel θ.π θ.A θ.e) (i : Fin nc) (k : Fin nf) :
    0 ≤ emitCount θ.π θ.A θ.e ss i k := by
  rw [← emitCount_eq]
  exact obsStat_nonneg h.π_nonneg h.A_nonneg (fun o i => h.e_nonneg _ _) ss i
    fun o => by unfold Categorical.ind; split <;> norm_num

omit [NeZero nc] in
theorem Spec.CatModel.mapCounts_start {θ : CatParams nc nf} (h : CatModel θ.π θ.A θ.e) :
    mapCounts (fun _ => 1) θ.π (startStat θ.π θ.A (catB θ.e) ss) = startStat θ.π θ.A (catB θ.e) ss :=
  mapCounts_flat h.startStat_nonneg fun _ hi => startStat_zero_of_start hi ss

omit [NeZero nc] in
theorem Spec.CatModel.mapCounts_trans {θ : CatParams nc nf} (h : CatModel θ.π θ.A θ.e) (i : Fin nc) :
    mapCounts (fun _ => 1) (θ.A i) (transStat θ.π θ.A (catB θ.e) ss i) = transStat θ.π θ.A (catB θ.e) ss i :=
  mapCounts_flat (h.transStat_nonneg i) fun _ hi => transStat_zero_of_trans hi ss

theorem Spec.CatModel.mapCounts_emit {θ : CatParams nc nf} (h : CatModel θ.π θ.A θ.e) (i : Fin nc) :
    mapCounts (fun _ => 1) (θ.e i) (emitCount θ.π θ.A θ.e ss i) = emitCount θ.π θ.A θ.e ss i :=
  mapCounts_flat (h.emitCount_nonneg i) fun k hk => by
    rw [← emitCount_eq]
    exact Categorical.obsStat_zero_of_weight (b := catB θ.e) hk ss

theorem stepSize_flat {θ θ' : CatParams nc nf} (h : CatInv (fun _ _ => 1) ss θ) :
    stepSize (fun _ => 1) (fun _ _ => 1) (fun _ _ => 1) ss θ θ' = flatStep ss θ θ' := by
  unfold stepSize flatStep evidenceOf
  rw [h.model.mapCounts_start, sum_startStat ss h.pos_each]
  simp only [h.model.mapCounts_trans, h.model.mapCounts_emit]
  simp only [sum_emitCount]

omit [NeZero nc] in
theorem objective_flat (θ : CatParams nc nf) :
    objective (fun _ => 1) (fun _ _ => 1) (fun _ _ => 1) ss θ = logL ss θ := by
  simp [objective, catObjective, logDirichlet]

theorem flatStep_nonneg {θ θ' : CatParams nc nf} (h : CatModel θ.π θ.A θ.e) : 0 ≤ flatStep ss θ θ' := by
  refine add_nonneg (add_nonneg (mul_nonneg (Nat.cast_nonneg _) (hellinger_nonneg _ _))
    (Finset.sum_nonneg fun i _ => mul_nonneg (Finset.sum_nonneg fun j _ => h.transStat_nonneg i j)
      (hellinger_nonneg _ _))) (Finset.sum_nonneg fun i _ => mul_nonneg ?_ (hellinger_nonneg _ _))
  rw [← sum_emitCount]
  exact Finset.sum_nonneg fun k _ => h.emitCount_nonneg i k

theorem flatInv {θ0 : CatParams nc nf} (hm : CatModel θ0.π θ0.A θ0.e) (hL : 0 < catL ss θ0.π θ0.A θ0.e)
    (k : ℕ) : CatInv (fun _ _ => 1) ss (flatIter params ss θ0 k) :=
  CatInv.iter params (fun _ => le_rfl) (fun _ _ => le_rfl) (fun _ _ => le_rfl)
    (⟨hm, hL, fun _ _ _ => rfl⟩ : CatInv (fun _ _ => 1) ss θ0) k

theorem flat_gain {θ0 : CatParams nc nf} (hm : CatModel θ0.π θ0.A θ0.e) (hL : 0 < catL ss θ0.π θ0.A θ0.e)
    (k : ℕ) : logL ss (flatIter params ss θ0 k) +
      flatStep ss (flatIter params ss θ0 k) (flatIter params ss θ0 (k + 1)) ≤
        logL ss (flatIter params ss θ0 (k + 1)) := by
  have hk := flatInv params hm hL k
  have := (hk.next params (fun _ => le_rfl) (fun _ _ => le_rfl) (fun _ _ => le_rfl)).2
  rw [objective_flat, objective_flat, stepSize_flat hk] at this
  rw [flatIter, flatIter, Function.iterate_succ_apply']
  exact this

omit [NeZero nc] in
theorem logL_nonpos {θ : CatParams nc nf} (hm : CatModel θ.π θ.A θ.e) : logL ss θ ≤ 0 :=
  log_dataLikelihood_nonpos hm.π_nonneg hm.π_sum hm.A_nonneg hm.A_sum
    (fun o i => ⟨hm.e_nonneg _ _,
      (Finset.single_le_sum (fun k _ => hm.e_nonneg i k) (Finset.mem_univ o)).trans (hm.e_sum i)⟩) ss

/-- **C91** With flat priors the steps of a whole training run, however long, have a total length of at most
`-log L`, `L` the likelihood of the data under the parameters training starts from. -/
theorem C91_total {θ0 : CatParams nc nf} (hm : CatModel θ0.π θ0.A θ0.e) (hL : 0 < catL ss θ0.π θ0.A θ0.e)
    (n : ℕ) : ∑ k ∈ Finset.range n, flatStep ss (flatIter params ss θ0 k) (flatIter params ss θ0 (k + 1)) ≤
      -logL ss θ0 := by
  have key : logL ss θ0 + ∑ k ∈ Finset.range n,
      flatStep ss (flatIter params ss θ0 k) (flatIter params ss θ0 (k + 1)) ≤ logL ss (flatIter params ss θ0 n) := by
    induction n with
    | zero => simp [flatIter]
    | succ n ih =>
      rw [Finset.sum_range_succ]
      have := flat_gain params hm hL n
      linarith
  have := logL_nonpos (ss := ss) (flatInv params hm hL n).model
  linarith

/-- **C91** The lengths of the steps of an unlimited training run tend to zero. -/
theorem C91_tendsto {θ0 : CatParams nc nf} (hm : CatModel θ0.π θ0.A θ0.e) (hL : 0 < catL ss θ0.π θ0.A θ0.e) :
    Filter.Tendsto (fun k => flatStep ss (flatIter params ss θ0 k) (flatIter params ss θ0 (k + 1)))
      Filter.atTop (nhds 0) :=
  (summable_of_sum_range_le (fun k => flatStep_nonneg (flatInv params hm hL k).model)
    (C91_total params hm hL)).tendsto_atTop_zero

/-- **C91** `fit` with flat priors, a positive tolerance and enough iterations: it returns the iterate after the
last one reported, and the last reported iterate was reached with a step shorter than the tolerance. -/
theorem C91_stop (impl : Impl) (nIter : ℕ) (hne : ss ≠ []) {θ0 : CatParams nc nf}
    (hm : CatModel θ0.π θ0.A θ0.e) (hL : 0 < catL ss θ0.π θ0.A θ0.e) (mon : Monitor XF) {τ : ℝ} (hτ : 0 < τ)
    (htol : mon.tol = fin τ) (hmon : mon.nIter = nIter) (hbig : 2 + (0 - logL ss θ0) / τ < nIter) :
    let out := catFit (fun _ => 1) (fun _ _ => 1) (fun _ _ => 1) params impl nIter ss
      (Categorical.params θ0.π θ0.A θ0.e) mon
    (impl = .log → out.raised = none) ∧
    (out.raised = none → ∃ n, out.state = Categorical.params (flatIter params ss θ0 (n + 2)).π
        (flatIter params ss θ0 (n + 2)).A (flatIter params ss θ0 (n + 2)).e ∧
      flatStep ss (flatIter params ss θ0 n) (flatIter params ss θ0 (n + 1)) < τ) := by
  intro out
  have h : CatInv (fun _ _ => 1) ss θ0 := ⟨hm, hL, fun _ _ _ => rfl⟩
  obtain ⟨h1, h2, h3⟩ := catFit_iter (sp := fun _ => 1) (tp := fun _ _ => 1) params (fun _ => le_rfl)
    (fun _ _ => le_rfl) (fun _ _ => le_rfl) impl nIter hne h mon
  refine ⟨h3, fun hr => ?_⟩
  obtain ⟨l, a, b, e, hab⟩ := (C85_categorical (fun _ => 1) (fun _ _ => 1) (fun _ _ => 1) (fun _ => le_rfl)
    (fun _ _ => le_rfl) (fun _ _ => le_rfl) params impl nIter ss hne hm hL (fun _ _ _ => rfl) mon hτ htol
    hmon).reason hr hbig
  have hn : out.monitor.history.length = l.length + 2 := by rw [e]; simp
  refine ⟨l.length, by rw [← hn]; exact h1, ?_⟩
  change out.monitor.history = _ at h2
  change out.monitor.history = _ at e
  rw [hn, e] at h2
  have ha : fin a = fin (logL ss (flatIter params ss θ0 l.length)) := by
    have := congrArg (fun m => m[l.length]?) h2
    simpa [catIter, logL, flatIter] using this
  have hb : fin b = fin (logL ss (flatIter params ss θ0 (l.length + 1))) := by
    have := congrArg (fun m => m[l.length + 1]?) h2
    simpa [catIter, logL, flatIter] using this
  have := flat_gain params hm hL l.length
  rw [← fin.inj ha, ← fin.inj hb] at this
  linarith

end
end Verif
