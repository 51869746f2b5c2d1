import Verif.Proofs.VCategorical
import Verif.Props.CategoricalEM
import Verif.Spec.VCategorical
import Verif.Props.Inference

/-!
# Variational training of `VariationalCategoricalHMM`: C53, C54, C55, C57, C63
-/

namespace Verif
open FloatLike XF Hmmc Spec
open scoped Classical

/-! ## C57 -/

/-- **C57** The weights `_estep_begin` computes from positive concentrations are positive and sum to
at most one. -/
theorem C57_subnormalised {sci : Sci XF} (hsci : sci.Exact) {n : ℕ} [NeZero n] {a : Fin n → ℝ}
    (ha : ∀ i, 0 < a i) :
    ∃ w : Fin n → ℝ, (fun i => FloatLike.exp (logSubnorm sci (fun i => fin (a i)) i)) = (fun i => fin (w i)) ∧
      (∀ i, 0 < w i) ∧ ∑ i, w i ≤ 1 ∧ ∀ i, w i ≤ a i / ∑ k, a k := by
  refine ⟨expWeight a, ?_, expWeight_pos a, sum_expWeight_le ha, expWeight_le ha⟩
  rw [logSubnorm_fin hsci ha]; rfl

variable {nc nf : ℕ} [NeZero nc]

/-- **C57** The two base parameters of the E-step of any variational class. -/
theorem C57_estep {Obs VP P S : Type} (V : VEmission XF nc Obs VP P S) {sci : Sci XF} (hsci : sci.Exact)
    {θ : VTheta XF nc VP} {s : Fin nc → ℝ} {t : Fin nc → Fin nc → ℝ} (hs : ∀ i, 0 < s i)
    (ht : ∀ i j, 0 < t i j) (h1 : θ.startPost = fun i => fin (s i)) (h2 : θ.transPost = fun i j => fin (t i j)) :
    ∃ (π : Fin nc → ℝ) (A : Fin nc → Fin nc → ℝ),
      (V.subnorm sci θ).startprob = (fun i => fin (π i)) ∧
      (V.subnorm sci θ).transmat = (fun i j => fin (A i j)) ∧
      (∀ i, 0 < π i) ∧ (∀ i j, 0 < A i j) ∧ ∑ i, π i ≤ 1 ∧ ∀ i, ∑ j, A i j ≤ 1 := by
  refine ⟨expWeight s, fun i => expWeight (t i), ?_, ?_, expWeight_pos s, fun i => expWeight_pos _,
    sum_expWeight_le hs, fun i => sum_expWeight_le (ht i)⟩
  · simp only [VEmission.subnorm, h1, memo_eq]; rw [logSubnorm_fin hsci hs]; rfl
  · simp only [VEmission.subnorm, h2, memo_eq]; funext i; rw [logSubnorm_fin hsci (ht i)]; rfl

example : ∃ w : Fin 2 → ℝ, (∀ i, 0 < w i) ∧ ∑ i, w i ≤ 1 := by
  obtain ⟨w, -, h1, h2, -⟩ := C57_subnormalised (n := 2) Sci.real_exact (a := ![1/2, 3])
    (by intro i; fin_cases i <;> norm_num)
  exact ⟨w, h1, h2⟩

/-! ## Runs -/

/-- Attributes with the given posterior concentrations and point parameters. -/
noncomputable def vcatTheta (s : Fin nc → ℝ) (t : Fin nc → Fin nc → ℝ) (e : Fin nc → Fin nf → ℝ)
    (sp : Option (Fin nc → ℝ)) (tp : Option (Fin nc → Fin nc → ℝ)) (ep : Option (Fin nc → Fin nf → ℝ)) :
    VTheta XF nc (VCategorical.Params XF nc nf) where
  startPost i := fin (s i)
  transPost i j := fin (t i j)
  startprob := sp.map fun p i => fin (p i)
  transmat := tp.map fun a i j => fin (a i j)
  emission := ⟨fun i k => fin (e i k), ep.map fun p i k => fin (p i k)⟩

/-- `fit` of a `VariationalCategoricalHMM` with prior concentrations `sp`, `tp`, `ep`. -/
noncomputable def vcatFit (sci : Sci XF) (sp : Fin nc → ℝ) (tp : Fin nc → Fin nc → ℝ)
    (ep : Fin nc → Fin nf → ℝ) (params : List Char) (impl : Impl) (nIter : ℕ) (ss : List (ObsSeq (Fin nf)))
    (θ : VTheta XF nc (VCategorical.Params XF nc nf)) (mon : Monitor XF) :
    FitOutcome XF (VTheta XF nc (VCategorical.Params XF nc nf)) :=
  (VCategorical.emission sci fun i k => fin (ep i k)).fitFrom sci (mapConfig sp tp params impl nIter)
    (dataX Categorical.sym ss) (some (dataLengths ss)) θ mon

section Run
variable {sci : Sci XF} (hsci : sci.Exact) [NeZero nf]
  {sp : Fin nc → ℝ} {tp : Fin nc → Fin nc → ℝ} {ep : Fin nc → Fin nf → ℝ}
  (hsp : ∀ i, 0 < sp i) (htp : ∀ i j, 0 < tp i j) (hep : ∀ i k, 0 < ep i k)
  (params : List Char) (impl : Impl) (nIter : ℕ) {ss : List (ObsSeq (Fin nf))} (hne : ss ≠ [])
  {s : Fin nc → ℝ} {t : Fin nc → Fin nc → ℝ} {e : Fin nc → Fin nf → ℝ}
  (hs : ∀ i, 0 < s i) (ht : ∀ i j, 0 < t i j) (he : ∀ i k, 0 < e i k)
  (sP : Option (Fin nc → ℝ)) (tP : Option (Fin nc → Fin nc → ℝ)) (eP : Option (Fin nc → Fin nf → ℝ))
  (mon : Monitor XF)

include hsci hsp htp hep hne hs ht he

/-- The states reached by `fit` are iterates of the real update. -/
theorem vcat_iterates :
    let F := VCategorical.family (nc := nc) hsci hep params
    let c : RConfig nc := ⟨sp, tp, impl, nIter⟩
    let r0 : VR nc (VCategorical.R nc nf) := ⟨s, t, sP, tP, ⟨e, eP, he⟩⟩
    let out := vcatFit sci sp tp ep params impl nIter ss (vcatTheta s t e sP tP eP) mon
    out.state = F.theta ((F.vstep c ss)^[out.monitor.history.length] r0) ∧
    out.monitor.history.length ≤ nIter ∧
    (0 < nIter → out.raised = none → 0 < out.monitor.history.length) ∧
    out.monitor.history = (List.range out.monitor.history.length).map
      (fun k => fin (F.lb c ss ((F.vstep c ss)^[k] r0))) := by
  intro F c r0 out
  have hc : c.Pos := ⟨hsp, htp⟩
  have hr0 : r0.Pos := ⟨hs, ht⟩
  obtain ⟨h, h1, h2, h3, h4⟩ := vfitLoop_runs
    (step := (VCategorical.emission sci fun i k => fin (ep i k)).step sci (mapConfig sp tp params impl nIter)
      (dataX Categorical.sym ss) (dataLengths ss)) nIter (vcatTheta s t e sP tP eP) mon.reset
  have eh : out.monitor.history = h := h3
  obtain ⟨e1, e2⟩ := F.runs_real hsci hc hne hr0 h1
  rw [eh]
  exact ⟨e1, h2, h4, e2⟩

/-- **C53** After any number of iterations of `fit`, whatever `params`, the implementation and the
starting concentrations, the posterior attributes hold the concentrations obtained by repeated
conjugate updates (prior plus expected counts), and the history holds their lower bounds. -/
theorem C53_conjugate :
    let out := vcatFit sci sp tp ep params impl nIter ss (vcatTheta s t e sP tP eP) mon
    let n := out.monitor.history.length
    ∃ (σ : ℕ → Fin nc → ℝ) (τ : ℕ → Fin nc → Fin nc → ℝ) (ε : ℕ → Fin nc → Fin nf → ℝ),
      σ 0 = s ∧ τ 0 = t ∧ ε 0 = e ∧ CatUpdates sp tp ep params ss σ τ ε ∧
      out.state.startPost = (fun i => fin (σ n i)) ∧
      out.state.transPost = (fun i j => fin (τ n i j)) ∧
      out.state.emission.post = (fun i k => fin (ε n i k)) ∧
      out.monitor.history = (List.range n).map
        (fun k => fin (catLowerBound sp tp ep ss (σ k) (τ k) (ε k))) := by
  intro out n
  obtain ⟨h1, -, -, h2⟩ := vcat_iterates hsci hsp htp hep params impl nIter hne hs ht he sP tP eP mon
  set F := VCategorical.family (nc := nc) hsci hep params with hF
  let c : RConfig nc := ⟨sp, tp, impl, nIter⟩
  let r0 : VR nc (VCategorical.R nc nf) := ⟨s, t, sP, tP, ⟨e, eP, he⟩⟩
  refine ⟨fun k => ((F.vstep c ss)^[k] r0).s, fun k => ((F.vstep c ss)^[k] r0).t,
    fun k => ((F.vstep c ss)^[k] r0).q.post, rfl, rfl, rfl, ⟨?_, ?_, ?_⟩,
    congrArg VTheta.startPost h1, congrArg VTheta.transPost h1,
    congrArg (fun θ => θ.emission.post) h1, h2⟩
  · intro k; rw [Function.iterate_succ_apply']; rfl
  · intro k; rw [Function.iterate_succ_apply']; rfl
  · intro k
    rw [Function.iterate_succ_apply']
    set r := (F.vstep c ss)^[k] r0
    have hpos : r.Pos := F.iterate_pos ⟨hsp, htp⟩ ss (r := r0) ⟨hs, ht⟩ k
    by_cases hE : 'e' ∈ params
    · simp only [hE, if_true]
      funext i v
      have hT := obsStat_nonneg hpos.valid.π_nonneg hpos.valid.A_nonneg (F.F.b_nonneg r.q) ss i
        (VCategorical.ind_nonneg v)
      have e1 : (F.vstep c ss r).q.post i v = ep i v + max (obsStat r.weights.π r.weights.A
          (F.F.b r.q) ss i (Categorical.ind v)) 0 := by
        simp [VFamily.vstep, hF, VCategorical.family, hE, VCategorical.nextR]
      rw [e1, max_eq_left hT]
      congr 1
      exact emitCount_eq ss i v
    · simp only [hE, if_false]
      have : (F.vstep c ss r).q = r.q := by simp [VFamily.vstep, hF, VCategorical.family, hE]
      rw [this]

end Run

section Updates
variable {sp : Fin nc → ℝ} {tp : Fin nc → Fin nc → ℝ} {ep : Fin nc → Fin nf → ℝ} {params : List Char}
  {ss : List (ObsSeq (Fin nf))} {σ : ℕ → Fin nc → ℝ} {τ : ℕ → Fin nc → Fin nc → ℝ}
  {ε : ℕ → Fin nc → Fin nf → ℝ}

/-- **C53** Posterior concentrations stay positive. -/
theorem C53_pos (h : CatUpdates sp tp ep params ss σ τ ε) (hsp : ∀ i, 0 < sp i) (htp : ∀ i j, 0 < tp i j)
    (hep : ∀ i k, 0 < ep i k) (hs : ∀ i, 0 < σ 0 i) (ht : ∀ i j, 0 < τ 0 i j) (he : ∀ i k, 0 < ε 0 i k)
    (k : ℕ) : (∀ i, 0 < σ k i) ∧ (∀ i j, 0 < τ k i j) ∧ ∀ i v, 0 < ε k i v := by
  induction k with
  | zero => exact ⟨hs, ht, he⟩
  | succ k ih =>
    have hπ : ∀ i, 0 ≤ expWeight (σ k) i := fun i => (expWeight_pos _ i).le
    have hA : ∀ i j, 0 ≤ expWeights (τ k) i j := fun i j => (expWeight_pos _ j).le
    have hb : ∀ o i, 0 ≤ catB (expWeights (ε k)) o i := fun o i => (expWeight_pos _ _).le
    refine ⟨fun i => ?_, fun i j => ?_, fun i v => ?_⟩
    · rw [h.start]; split
      · exact add_pos_of_pos_of_nonneg (hsp i) (startStat_nonneg hπ hA hb ss i)
      · exact ih.1 i
    · rw [h.trans]; split
      · exact add_pos_of_pos_of_nonneg (htp i j) (transStat_nonneg hπ hA hb ss i j)
      · exact ih.2.1 i j
    · rw [h.emit]; split
      · refine add_pos_of_pos_of_nonneg (hep i v) ?_
        rw [← emitCount_eq]
        exact obsStat_nonneg hπ hA hb ss i (VCategorical.ind_nonneg v)
      · exact ih.2.2 i v

omit [NeZero nc] in
theorem sum_transStat_total {D : Type} {π : Fin nc → ℝ} {A : Fin nc → Fin nc → ℝ} {b : D → Fin nc → ℝ}
    (ss : List (ObsSeq D)) (hL : ∀ s ∈ ss, 0 < likelihood π A (s.weights b)) :
    ∑ i, ∑ j, transStat π A b ss i j = numTransitions ss := by
  have h1 : ∑ i, ∑ j, transStat π A b ss i j =
      (ss.map fun s => ∑ i, ∑ j, expectedTransitions π A (s.weights b) i j).sum := by
    unfold transStat
    rw [list_sum_fintype_comm]
    exact Finset.sum_congr rfl fun i _ => (list_sum_fintype_comm _ _).symm
  rw [h1, numTransitions, List.map_congr_left (g := fun s : ObsSeq D => (s.n : ℝ))]
  · push_cast [List.map_map]; rfl
  · intro s hs
    simp only [expectedTransitions, pairPosterior]
    have : ∀ i, ∑ j, ∑ t : Fin s.n, pairMass π A (s.weights b) t i j / likelihood π A (s.weights b) =
        ∑ t : Fin s.n, posterior π A (s.weights b) t.castSucc i := by
      intro i
      rw [Finset.sum_comm]
      exact Finset.sum_congr rfl fun t _ => by rw [← Finset.sum_div, sum_pairMass_right]; rfl
    simp only [this]
    rw [Finset.sum_comm]
    simp [sum_posterior (hL s hs).ne']

theorem sum_emitCount_total {π : Fin nc → ℝ} {A : Fin nc → Fin nc → ℝ} {e : Fin nc → Fin nf → ℝ}
    (ss : List (ObsSeq (Fin nf))) (hL : ∀ s ∈ ss, 0 < likelihood π A (s.weights (catB e))) :
    ∑ i, ∑ k, emitCount π A e ss i k = numSamples ss := by
  have h0 : ∀ i, ∑ k, emitCount π A e ss i k = visitCount π A e ss i := fun i => sum_emitCount ss i
  simp only [h0]
  unfold visitCount
  rw [← list_sum_fintype_comm, numSamples, List.map_congr_left (g := fun s : ObsSeq (Fin nf) => ((s.n + 1 : ℕ) : ℝ))]
  · simp [Function.comp_def]
  · intro s hs
    rw [Finset.sum_comm]
    simp [sum_posterior (hL s hs).ne']

/-- **C53** Totals of the concentrations after an update. -/
theorem C53_totals (h : CatUpdates sp tp ep params ss σ τ ε) (k : ℕ) :
    ('s' ∈ params → ∑ i, σ (k + 1) i = ∑ i, sp i + ss.length) ∧
    ('t' ∈ params → ∑ i, ∑ j, τ (k + 1) i j = ∑ i, ∑ j, tp i j + numTransitions ss) ∧
    ('e' ∈ params → ∑ i, ∑ v, ε (k + 1) i v = ∑ i, ∑ v, ep i v + numSamples ss) := by
  have hL : ∀ s ∈ ss, 0 < likelihood (expWeight (σ k)) (expWeights (τ k))
      (s.weights (catB (expWeights (ε k)))) := by
    intro s _
    have z : Fin (s.n + 1) → Fin nc := fun _ => 0
    have hπ : ∀ i, 0 ≤ expWeight (σ k) i := fun i => (expWeight_pos _ i).le
    have hA : ∀ i j, 0 ≤ expWeights (τ k) i j := fun i j => (expWeight_pos _ j).le
    have hb : ∀ o i, 0 ≤ s.weights (catB (expWeights (ε k))) o i := fun o i => (expWeight_pos _ _).le
    refine lt_of_lt_of_le ?_ (Finset.single_le_sum (f := fun z => joint (expWeight (σ k))
      (expWeights (τ k)) (s.weights (catB (expWeights (ε k)))) z)
      (fun z _ => joint_nonneg hπ hA hb z) (Finset.mem_univ z))
    exact (joint_pos_iff hπ hA hb z).2 ⟨expWeight_pos _ _, fun t => expWeight_pos _ _,
      fun t => expWeight_pos _ _⟩
  refine ⟨fun hp => ?_, fun hp => ?_, fun hp => ?_⟩
  · rw [h.start, if_pos hp, Finset.sum_add_distrib, sum_startStat ss hL]
  · rw [h.trans, if_pos hp]
    simp only [Finset.sum_add_distrib]
    rw [sum_transStat_total ss hL]
  · rw [h.emit, if_pos hp]
    simp only [Finset.sum_add_distrib]
    rw [sum_emitCount_total ss hL]

end Updates

section Bound
variable {sci : Sci XF} (hsci : sci.Exact) [NeZero nf]
  {sp : Fin nc → ℝ} {tp : Fin nc → Fin nc → ℝ} {ep : Fin nc → Fin nf → ℝ}
  (hsp : ∀ i, 0 < sp i) (htp : ∀ i j, 0 < tp i j) (hep : ∀ i k, 0 < ep i k)
  (params : List Char) (impl : Impl) (nIter : ℕ) {ss : List (ObsSeq (Fin nf))} (hne : ss ≠ [])
  {s : Fin nc → ℝ} {t : Fin nc → Fin nc → ℝ} {e : Fin nc → Fin nf → ℝ}
  (hs : ∀ i, 0 < s i) (ht : ∀ i j, 0 < t i j) (he : ∀ i k, 0 < e i k)
  (sP : Option (Fin nc → ℝ)) (tP : Option (Fin nc → Fin nc → ℝ)) (eP : Option (Fin nc → Fin nf → ℝ))
  (mon : Monitor XF)

include hsci hsp htp hep hne hs ht he

/-- **C55** The history of a `fit` never decreases, whatever `params`, the implementation, the data
and the starting concentrations.  (For `scaling`, `fit` may stop early by raising; the statement covers
the iterations done.) -/
theorem C55_monotone :
    ∃ l : List ℝ, (vcatFit sci sp tp ep params impl nIter ss (vcatTheta s t e sP tP eP) mon).monitor.history =
      l.map XF.fin ∧ l.Pairwise (· ≤ ·) := by
  obtain ⟨-, -, -, h2⟩ := vcat_iterates hsci hsp htp hep params impl nIter hne hs ht he sP tP eP mon
  set F := VCategorical.family (nc := nc) hsci hep params with hF
  let c : RConfig nc := ⟨sp, tp, impl, nIter⟩
  let r0 : VR nc (VCategorical.R nc nf) := ⟨s, t, sP, tP, ⟨e, eP, he⟩⟩
  refine ⟨(List.range (vcatFit sci sp tp ep params impl nIter ss (vcatTheta s t e sP tP eP)
    mon).monitor.history.length).map fun k => F.lb c ss ((F.vstep c ss)^[k] r0), ?_, ?_⟩
  · rw [List.map_map]; exact h2
  · have hm : Monotone fun k => F.lb c ss ((F.vstep c ss)^[k] r0) := by
      refine monotone_nat_of_le_succ fun k => ?_
      rw [Function.iterate_succ_apply']
      exact F.vstep_gain ⟨hsp, htp⟩ ss (F.iterate_pos ⟨hsp, htp⟩ ss (r := r0) ⟨hs, ht⟩ k)
    exact List.Pairwise.map _ (fun a b hab => hm (le_of_lt hab)) List.pairwise_lt_range

/-! ## C54 -/

/-- **C54** After a `fit` that returned, with at least one iteration and all parameters updated, the
point parameters are strictly positive distributions, and they are the means of the posteriors. -/
theorem C54_valid (hpar : 's' ∈ params ∧ 't' ∈ params ∧ 'e' ∈ params) (hn : 0 < nIter)
    (hr : (vcatFit sci sp tp ep params impl nIter ss (vcatTheta s t e sP tP eP) mon).raised = none) :
    let θ := (vcatFit sci sp tp ep params impl nIter ss (vcatTheta s t e sP tP eP) mon).state
    ∃ (π : Fin nc → ℝ) (A : Fin nc → Fin nc → ℝ) (E : Fin nc → Fin nf → ℝ),
      θ.startprob = some (fun i => fin (π i)) ∧ θ.transmat = some (fun i j => fin (A i j)) ∧
      θ.emission.prob = some (fun i k => fin (E i k)) ∧
      (∀ i, 0 < π i) ∧ (∀ i j, 0 < A i j) ∧ (∀ i k, 0 < E i k) ∧
      ∑ i, π i = 1 ∧ (∀ i, ∑ j, A i j = 1) ∧ (∀ i, ∑ k, E i k = 1) ∧
      ∃ (σ : Fin nc → ℝ) (τ : Fin nc → Fin nc → ℝ) (ε : Fin nc → Fin nf → ℝ),
        θ.startPost = (fun i => fin (σ i)) ∧ θ.transPost = (fun i j => fin (τ i j)) ∧
        θ.emission.post = (fun i k => fin (ε i k)) ∧
        π = dirMean σ ∧ A = (fun i => dirMean (τ i)) ∧ E = fun i => dirMean (ε i) := by
  intro θ
  obtain ⟨h1, h0, hpos, h2⟩ := vcat_iterates hsci hsp htp hep params impl nIter hne hs ht he sP tP eP mon
  set F := VCategorical.family (nc := nc) hsci hep params with hF
  let c : RConfig nc := ⟨sp, tp, impl, nIter⟩
  let r0 : VR nc (VCategorical.R nc nf) := ⟨s, t, sP, tP, ⟨e, eP, he⟩⟩
  have hlen := hpos hn hr
  obtain ⟨k, hk⟩ := Nat.exists_eq_succ_of_ne_zero hlen.ne'
  set r := (F.vstep c ss)^[k] r0 with hrdef
  have hrp : r.Pos := F.iterate_pos ⟨hsp, htp⟩ ss (r := r0) ⟨hs, ht⟩ k
  have hrp' := F.vstep_pos (c := c) ⟨hsp, htp⟩ ss hrp
  have hθ : θ = F.theta (F.vstep c ss r) := by
    have h1' : θ = _ := h1
    rw [hk] at h1'
    rw [h1', Nat.succ_eq_add_one, Function.iterate_succ_apply']
  have es : (F.vstep c ss r).sp = some (dirMean (F.vstep c ss r).s) := by
    simp [VFamily.vstep, hpar.1]
  have et : (F.vstep c ss r).tp = some (fun i => dirMean ((F.vstep c ss r).t i)) := by
    simp [VFamily.vstep, hpar.2.1]
  have ee : (F.vstep c ss r).q.prob = some (fun i => dirMean ((F.vstep c ss r).q.post i)) := by
    simp [VFamily.vstep, hF, VCategorical.family, hpar.2.2, VCategorical.nextR]
  refine ⟨dirMean (F.vstep c ss r).s, fun i => dirMean ((F.vstep c ss r).t i),
    fun i => dirMean ((F.vstep c ss r).q.post i), ?_, ?_, ?_, dirMean_pos hrp'.s,
    fun i => dirMean_pos (hrp'.t i), fun i => dirMean_pos ((F.vstep c ss r).q.pos i), sum_dirMean hrp'.s,
    fun i => sum_dirMean (hrp'.t i), fun i => sum_dirMean ((F.vstep c ss r).q.pos i),
    (F.vstep c ss r).s, (F.vstep c ss r).t, (F.vstep c ss r).q.post, by rw [hθ]; rfl, by rw [hθ]; rfl,
    by rw [hθ]; rfl, rfl, rfl, rfl⟩
  · rw [hθ]; show Option.map _ (F.vstep c ss r).sp = _; rw [es]; rfl
  · rw [hθ]; show Option.map _ (F.vstep c ss r).tp = _; rw [et]; rfl
  · rw [hθ]; show Option.map _ (F.vstep c ss r).q.prob = _; rw [ee]; rfl

/-- **C54** So after such a `fit` the estimator is usable: it stands for the HMM with these strictly
positive parameters, and every score (of any other data set `ss'`) is the log-likelihood, a finite
number, for `log`. -/
theorem C54_usable (hpar : 's' ∈ params ∧ 't' ∈ params ∧ 'e' ∈ params) (hn : 0 < nIter)
    (hr : (vcatFit sci sp tp ep params impl nIter ss (vcatTheta s t e sP tP eP) mon).raised = none)
    (impl' : Impl) :
    let θ := (vcatFit sci sp tp ep params impl nIter ss (vcatTheta s t e sP tP eP) mon).state
    ∃ (π : Fin nc → ℝ) (A : Fin nc → Fin nc → ℝ) (E : Fin nc → Fin nf → ℝ) (m : Hmm XF nc Int),
      Stochastic π A ∧ VCategorical.point impl' θ = .ok m ∧ m.implementation = impl' ∧
      Represents m Categorical.sym π A (catB E) ∧
      ∀ ss' : List (ObsSeq (Fin nf)), ss' ≠ [] → 0 < dataLikelihood π A (catB E) ss' ∧
        (impl' = .log → VCategorical.score impl' θ (dataX Categorical.sym ss') (some (dataLengths ss')) =
          .ok (fin (Real.log (dataLikelihood π A (catB E) ss')))) := by
  intro θ
  obtain ⟨π, A, E, h1, h2, h3, p1, p2, p3, s1, s2, s3, -⟩ := C54_valid hsci hsp htp hep params impl nIter hne
    hs ht he sP tP eP mon hpar hn hr
  have hp : VCategorical.point impl' θ = .ok ((Categorical.emission fun _ _ => 1).toHmm impl'
      (Categorical.params π A E)) := by
    unfold VCategorical.point
    rw [show θ.startprob = _ from h1, show θ.transmat = _ from h2, show θ.emission.prob = _ from h3]
    rfl
  have hrep := Categorical.represents (fun _ _ => 1) impl' (fun i => (p1 i).le) (fun i j => (p2 i j).le)
    fun i k => (p3 i k).le
  have hL : ∀ ss' : List (ObsSeq (Fin nf)), 0 < dataLikelihood π A (catB E) ss' := fun ss' =>
    (log_dataLikelihood ss' fun s _ => by
      have z : Fin (s.n + 1) → Fin nc := fun _ => 0
      refine lt_of_lt_of_le ?_ (Finset.single_le_sum (f := fun z => joint π A (s.weights (catB E)) z)
        (fun z _ => joint_nonneg (fun i => (p1 i).le) (fun i j => (p2 i j).le)
          (fun t i => (p3 _ _).le) z) (Finset.mem_univ z))
      exact (joint_pos_iff (fun i => (p1 i).le) (fun i j => (p2 i j).le) (fun t i => (p3 _ _).le) z).2
        ⟨p1 _, fun t => p2 _ _, fun t => p3 _ _⟩).1
  refine ⟨π, A, E, _, ⟨s1, s2⟩, hp, rfl, hrep, fun ss' hne' => ⟨hL ss', fun hi => ?_⟩⟩
  unfold VCategorical.score
  simp only [hp, bind, Except.bind]
  rw [C01_score_log hrep hi ss' hne']
  have : 0 < dataLikelihood π A (fun k i => E i k) ss' := hL ss'
  simp only [xlog, this.ne', if_false]
  rfl

/-- **C54** With the `log` implementation and `'t' ∈ params`, `fit` always returns. -/
theorem C54_returns (hpar : 't' ∈ params) :
    (vcatFit sci sp tp ep params .log nIter ss (vcatTheta s t e sP tP eP) mon).raised = none := by
  let F := VCategorical.family (nc := nc) hsci hep params
  let c : RConfig nc := ⟨sp, tp, .log, nIter⟩
  have hc : c.Pos := ⟨hsp, htp⟩
  have key : ∀ (n : ℕ) (r : VR nc (VCategorical.R nc nf)) (mon : Monitor XF), r.Pos →
      (vfitLoop ((VCategorical.emission sci fun i k => fin (ep i k)).step sci (c.toConfig params)
        (dataX Categorical.sym ss) (dataLengths ss)) n (F.theta r) mon).raised = none := by
    intro n
    induction n with
    | zero => intro r mon _; rfl
    | succ n ih =>
      intro r mon hr
      simp only [vfitLoop, F.step_real hsci hc hne hr (F.ok_log ss r)]
      split
      · rfl
      · have : (F.theta (F.vstep c ss r)).transmat =
            some fun i j => fin (dirMean ((F.vstep c ss r).t i) j) := by
          simp [VFamily.theta, VFamily.vstep, hpar]
        simp only [this]
        exact ih _ _ (F.vstep_pos hc ss hr)
  exact key nIter ⟨s, t, sP, tP, ⟨e, eP, he⟩⟩ mon.reset ⟨hs, ht⟩

end Bound

section Generic
variable {α : Type} [FloatLike α] {Obs VP P S : Type}

omit [NeZero nc] in
theorem vstep_keeps_none {V : VEmission α nc Obs VP P S} {cfg : Config α nc} (st : Stats α nc S)
    (θ : VTheta α nc VP) :
    ('s' ∉ cfg.params → (V.doMstep cfg θ st).startprob = θ.startprob) ∧
    ('t' ∉ cfg.params → (V.doMstep cfg θ st).transmat = θ.transmat) :=
  ⟨fun h => by simp [VEmission.doMstep, h], fun h => by simp [VEmission.doMstep, h]⟩

theorem vstep_mstep {V : VEmission α nc Obs VP P S} {sci : Sci α} {cfg : Config α nc} {X : List Obs}
    {lengths : List Int} {θ θ' : VTheta α nc VP} {v : α} (h : V.step sci cfg X lengths θ = .ok (θ', v)) :
    ∃ st, θ' = V.doMstep cfg θ st := by
  unfold VEmission.step at h
  cases h1 : doEstep V.core cfg (V.subnorm sci θ) X lengths with
  | error e => simp [h1, bind, Except.bind] at h
  | ok w =>
    cases h2 : V.lowerBound sci cfg θ w.2 with
    | error e => simp [h1, h2, bind, Except.bind] at h
    | ok l =>
      simp only [h1, h2, bind, Except.bind, pure, Except.pure, Except.ok.injEq, Prod.mk.injEq] at h
      exact ⟨w.1, h.1.symm⟩

/-- **C54** Without `'s'` in `params`, or with `n_iter = 0`, no variational `fit` sets `startprob_`:
for every class, arithmetic, data and outcome. -/
theorem C54_startprob_unset (V : VEmission α nc Obs VP P S) (sci : Sci α) (cfg : Config α nc) (X : List Obs)
    (lengths : Option (List Int)) (θ : VTheta α nc VP) (mon : Monitor α) (h0 : θ.startprob = none)
    (h : 's' ∉ cfg.params ∨ cfg.nIter = 0) :
    (V.fitFrom sci cfg X lengths θ mon).state.startprob = none := by
  unfold VEmission.fitFrom
  rcases h with h | h
  · obtain ⟨hist, h1, -⟩ := vfitLoop_runs (step := V.step sci cfg X (lengths.getD [(X.length : Int)]))
      cfg.nIter θ mon.reset
    generalize (vfitLoop (V.step sci cfg X (lengths.getD [(X.length : Int)])) cfg.nIter θ mon.reset).state = s at h1
    induction h1 with
    | nil => exact h0
    | snoc _ hs ih =>
      obtain ⟨st, rfl⟩ := vstep_mstep hs
      rw [(vstep_keeps_none st _).1 h]; exact ih h0
  · rw [h]; exact h0

/-- **C54** …and `score` then raises `NotFittedError`. -/
theorem C54_not_fitted (sci : Sci α) (ep : Fin nc → Fin nf → α) (cfg : Config α nc) (X : List Int)
    (lengths : Option (List Int)) (θ : VTheta α nc (VCategorical.Params α nc nf)) (mon : Monitor α)
    (h0 : θ.startprob = none) (h : 's' ∉ cfg.params ∨ cfg.nIter = 0) (impl : Impl) (X' : List Int)
    (lengths' : Option (List Int)) :
    VCategorical.score impl ((VCategorical.emission sci ep).fitFrom sci cfg X lengths θ mon).state X' lengths' =
      .error .notFitted := by
  unfold VCategorical.score VCategorical.point
  rw [C54_startprob_unset _ sci cfg X lengths θ mon h0 h]
  rfl

/-! ## C63 -/

/-- **C63** If `transmat_` is not set and `'t'` is not in `params`, a variational `fit` with
`n_iter ≥ 2` ends with an exception: either the first iteration raised, or `AttributeError` is raised right
after it, with one update done and one value reported.  Every class, arithmetic and data set. -/
theorem C63_attribute_error (V : VEmission α nc Obs VP P S) (sci : Sci α) (cfg : Config α nc) (X : List Obs)
    (lengths : Option (List Int)) (θ : VTheta α nc VP) (mon : Monitor α) (h0 : θ.transmat = none)
    (h : 't' ∉ cfg.params) (hn : 2 ≤ cfg.nIter) (hm : mon.nIter = cfg.nIter) :
    (∃ e, V.step sci cfg X (lengths.getD [(X.length : Int)]) θ = .error e ∧
      (V.fitFrom sci cfg X lengths θ mon).raised = some e) ∨
    ∃ θ' v, V.step sci cfg X (lengths.getD [(X.length : Int)]) θ = .ok (θ', v) ∧
      (V.fitFrom sci cfg X lengths θ mon).raised = some (.attributeError "transmat_") ∧
      (V.fitFrom sci cfg X lengths θ mon).state = θ' ∧
      (V.fitFrom sci cfg X lengths θ mon).monitor.history = [v] := by
  obtain ⟨n, hn'⟩ : ∃ n, cfg.nIter = n + 2 := ⟨cfg.nIter - 2, by omega⟩
  unfold VEmission.fitFrom
  cases hs : V.step sci cfg X (lengths.getD [(X.length : Int)]) θ with
  | error e => exact Or.inl ⟨e, rfl, by rw [hn']; simp only [vfitLoop, hs]⟩
  | ok w =>
    obtain ⟨θ', v⟩ := w
    have ht : θ'.transmat = none := by
      obtain ⟨st, rfl⟩ := vstep_mstep hs
      rw [(vstep_keeps_none st _).2 h]; exact h0
    have hc : (mon.reset.report v).converged = false := by
      have : ¬ (1 = mon.nIter) := by omega
      simp [Monitor.converged, Monitor.report, Monitor.reset, this]
    refine Or.inr ⟨θ', v, rfl, ?_⟩
    rw [hn']
    simp only [vfitLoop, hs, hc, ht]
    exact ⟨rfl, rfl, rfl⟩

end Generic

/-- **C63** for `VariationalCategoricalHMM` with the `log` implementation: the first iteration always
succeeds, so the exception is always the `AttributeError`. -/
theorem C63_categorical {sci : Sci XF} (hsci : sci.Exact) [NeZero nf]
    {sp : Fin nc → ℝ} {tp : Fin nc → Fin nc → ℝ} {ep : Fin nc → Fin nf → ℝ}
    (hsp : ∀ i, 0 < sp i) (htp : ∀ i j, 0 < tp i j) (hep : ∀ i k, 0 < ep i k)
    (params : List Char) (nIter : ℕ) {ss : List (ObsSeq (Fin nf))} (hne : ss ≠ [])
    {s : Fin nc → ℝ} {t : Fin nc → Fin nc → ℝ} {e : Fin nc → Fin nf → ℝ}
    (hs : ∀ i, 0 < s i) (ht : ∀ i j, 0 < t i j) (he : ∀ i k, 0 < e i k)
    (sP : Option (Fin nc → ℝ)) (eP : Option (Fin nc → Fin nf → ℝ)) (mon : Monitor XF)
    (h : 't' ∉ params) (hn : 2 ≤ nIter) (hm : mon.nIter = nIter) :
    (vcatFit sci sp tp ep params .log nIter ss (vcatTheta s t e sP none eP) mon).raised =
      some (.attributeError "transmat_") := by
  let F := VCategorical.family (nc := nc) hsci hep params
  let c : RConfig nc := ⟨sp, tp, .log, nIter⟩
  let r0 : VR nc (VCategorical.R nc nf) := ⟨s, t, sP, none, ⟨e, eP, he⟩⟩
  have hstep := F.step_real hsci (c := c) ⟨hsp, htp⟩ hne (r := r0) ⟨hs, ht⟩ (F.ok_log ss r0)
  rcases C63_attribute_error (VCategorical.emission sci fun i k => fin (ep i k)) sci
    (mapConfig sp tp params .log nIter) (dataX Categorical.sym ss) (some (dataLengths ss))
    (vcatTheta s t e sP none eP) mon rfl h hn hm with ⟨e', h1, -⟩ | ⟨_, _, -, h1, -⟩
  · have h1' : (VCategorical.emission sci fun i k => fin (ep i k)).step sci (c.toConfig params)
      (dataX Categorical.sym ss) (dataLengths ss) (F.theta r0) = .error e' := h1
    rw [hstep] at h1'
    simp at h1'
  · exact h1

/-! ## A concrete case -/

namespace VDemo

/-- Two sequences over three symbols. -/
def data : List (ObsSeq (Fin 3)) := [⟨2, ![0, 1, 2]⟩, ⟨0, ![2]⟩]

noncomputable def s : Fin 2 → ℝ := ![3/2, 1/2]
noncomputable def t : Fin 2 → Fin 2 → ℝ := ![![1, 2], ![1/2, 1]]
noncomputable def e : Fin 2 → Fin 3 → ℝ := ![![1, 2, 1/2], ![1, 1, 3]]

theorem s_pos : ∀ i, 0 < s i := by intro i; fin_cases i <;> norm_num [s]
theorem t_pos : ∀ i j, 0 < t i j := by intro i j; fin_cases i <;> fin_cases j <;> norm_num [t]
theorem e_pos : ∀ i j, 0 < e i j := by intro i j; fin_cases i <;> fin_cases j <;> norm_num [e]

/-- Priors `1/2`, `1/2`, `1/3` (the defaults), a full `fit` of five iterations. -/
noncomputable def out (params : List Char) (impl : Impl) (mon : Monitor XF) :=
  vcatFit Sci.real (fun _ : Fin 2 => 1/2) (fun _ _ => 1/2) (fun _ (_ : Fin 3) => 1/3) params impl 5 data
    (vcatTheta s t e none none none) mon

example (mon : Monitor XF) : ∃ l : List ℝ, (out ['s', 't', 'e'] .log mon).monitor.history = l.map XF.fin ∧
    l.Pairwise (· ≤ ·) :=
  C55_monotone Sci.real_exact (fun _ => by norm_num) (fun _ _ => by norm_num) (fun _ _ => by norm_num) _ _ _
    (by simp [data]) s_pos t_pos e_pos _ _ _ _

example (mon : Monitor XF) : (out ['s', 't', 'e'] .log mon).raised = none ∧
    ∃ π : Fin 2 → ℝ, (out ['s', 't', 'e'] .log mon).state.startprob = some (fun i => fin (π i)) ∧
      (∀ i, 0 < π i) ∧ ∑ i, π i = 1 := by
  have h1 := C54_returns Sci.real_exact (sp := fun _ : Fin 2 => 1/2) (tp := fun _ _ => 1/2)
    (ep := fun _ (_ : Fin 3) => 1/3) (fun _ => by norm_num) (fun _ _ => by norm_num)
    (fun _ _ => by norm_num) ['s', 't', 'e'] 5 (ss := data) (by simp [data]) s_pos t_pos e_pos none none none mon
    (by simp)
  refine ⟨h1, ?_⟩
  obtain ⟨π, A, E, h2, -, -, h3, -, -, h4, -⟩ := C54_valid Sci.real_exact (sp := fun _ : Fin 2 => 1/2)
    (tp := fun _ _ => 1/2) (ep := fun _ (_ : Fin 3) => 1/3) (fun _ => by norm_num) (fun _ _ => by norm_num)
    (fun _ _ => by norm_num) ['s', 't', 'e'] .log 5 (ss := data) (by simp [data]) s_pos t_pos e_pos none none none
    mon (by simp) (by norm_num) h1
  exact ⟨π, h2, h3, h4⟩

/-- Without `'t'`: `AttributeError`. -/
example : (out ['s', 'e'] .log ⟨fin 0, 5, [], 0⟩).raised = some (.attributeError "transmat_") :=
  C63_categorical Sci.real_exact (fun _ => by norm_num) (fun _ _ => by norm_num) (fun _ _ => by norm_num) _ _
    (by simp [data]) s_pos t_pos e_pos _ _ _ (by simp) (by norm_num) rfl

end VDemo
end Verif
