import Verif.Proofs.GaussianTied
import Verif.Props.GaussianEM

/-!
# EM for `GaussianHMM`, full and tied covariances: C22, C26, C27, C44
-/

namespace Verif
open FloatLike XF Hmmc Spec Gaussian
open scoped Classical

variable {nc nf : ℕ} [NeZero nc]

/-! ## Runs of `fit` -/

/-- A model as estimator attributes. -/
noncomputable def Spec.FullPoint.theta (p : FullPoint nc nf) : Theta XF nc (FullParams XF nc nf) :=
  ⟨fun i => fin (p.π i), fun i j => fin (p.A i j), fun i k => fin (p.mu i k),
    fun i k l => fin (p.S i k l)⟩

/-- A model as estimator attributes. -/
noncomputable def Spec.TiedPoint.theta (p : TiedPoint nc nf) : Theta XF nc (TiedParams XF nc nf) :=
  ⟨fun i => fin (p.π i), fun i j => fin (p.A i j), fun i k => fin (p.mu i k),
    fun k l => fin (p.S k l)⟩

/-- `fit` of a `GaussianHMM`, covariance type `full`. -/
noncomputable def fullFit (sp : Fin nc → ℝ) (tp : Fin nc → Fin nc → ℝ) (g : GaussPrior nc nf)
    (cp : Fin nc → Matrix (Fin nf) (Fin nf) ℝ) (params : List Char) (impl : Impl) (nIter : ℕ)
    (ss : List (ObsSeq (Fin nf → ℝ))) (θ : Theta XF nc (FullParams XF nc nf))
    (mon : Monitor XF) : FitOutcome XF (Theta XF nc (FullParams XF nc nf)) :=
  fitFrom (emissionFull (prior g) fun i k l => fin (cp i k l)) (mapConfig sp tp params impl nIter)
    (dataX row ss) (some (dataLengths ss)) θ mon

/-- `fit` of a `GaussianHMM`, covariance type `tied`. -/
noncomputable def tiedFit (sp : Fin nc → ℝ) (tp : Fin nc → Fin nc → ℝ) (g : GaussPrior nc nf)
    (cp : Matrix (Fin nf) (Fin nf) ℝ) (params : List Char) (impl : Impl) (nIter : ℕ)
    (ss : List (ObsSeq (Fin nf → ℝ))) (θ : Theta XF nc (TiedParams XF nc nf))
    (mon : Monitor XF) : FitOutcome XF (Theta XF nc (TiedParams XF nc nf)) :=
  fitFrom (emissionTied (prior g) fun k l => fin (cp k l)) (mapConfig sp tp params impl nIter)
    (dataX row ss) (some (dataLengths ss)) θ mon

namespace Gaussian

def rpF (p : FullPoint nc nf) (hS : ∀ i, (p.S i).PosSemidef) : RParams nc (RFull nc nf) :=
  ⟨p.π, p.A, ⟨p.mu, p.S, hS⟩⟩

def ptF (r : RParams nc (RFull nc nf)) : FullPoint nc nf := ⟨r.π, r.A, r.q.mu, r.q.S⟩

def rpT (p : TiedPoint nc nf) (hS : p.S.PosSemidef) : RParams nc (RTied nc nf) :=
  ⟨p.π, p.A, ⟨p.mu, p.S, hS⟩⟩

def ptT (r : RParams nc (RTied nc nf)) : TiedPoint nc nf := ⟨r.π, r.A, r.q.mu, r.q.S⟩

/-- States may be abandoned only if both priors have weight. -/
def needF (g : GaussPrior nc nf) (ps : List Char) : Prop := 'm' ∈ ps ∧ ¬ (0 < g.mw ∧ (nf : ℝ) < g.cw)

omit [NeZero nc] in
theorem cvw_pos {g : GaussPrior nc nf} (h : (nf : ℝ) < g.cw) : 0 < g.cvw :=
  lt_max_of_lt_left (sub_pos.2 h)

theorem keeps_need {P S Q : Type} {Em : Emission XF nc (Obs XF nf) P S} {g : GaussPrior nc nf}
    {ps : List Char} {F : Family Em (row (nf := nf)) ps Q} {ss : List (ObsSeq (Fin nf → ℝ))}
    {r : RParams nc Q} (h : F.Keeps (needF g ps) ss r) : F.Keeps (need g ps) ss r :=
  ⟨h.1, h.2.1, fun hn => h.2.2 ⟨hn.1, fun h' => hn.2 h'.1⟩⟩

/-- The denominator of the covariance update is positive. -/
theorem cov_weight_pos {P S Q : Type} {Em : Emission XF nc (Obs XF nf) P S} {g : GaussPrior nc nf}
    {ps : List Char} {F : Family Em (row (nf := nf)) ps Q} {ss : List (ObsSeq (Fin nf → ℝ))}
    {r : RParams nc Q} (h : F.Keeps (needF g ps) ss r) (hm : 'm' ∈ ps) (i : Fin nc) :
    0 < g.cvw + obsStat r.π r.A (F.b r.q) ss i fun _ => 1 := by
  by_cases h0 : 0 < g.mw ∧ (nf : ℝ) < g.cw
  · exact add_pos_of_pos_of_nonneg (cvw_pos h0.2) (obsStat_nonneg h.1.π_nonneg h.1.A_nonneg
      (F.b_nonneg r.q) ss i fun _ => zero_le_one)
  · exact add_pos_of_nonneg_of_pos (cvw_nonneg g) ((h.2.2 ⟨hm, h0⟩).pos h.1 h.2.1 i)

/-- All visits together: the number of samples. -/
theorem total_visits {P S Q : Type} {Em : Emission XF nc (Obs XF nf) P S} {ps : List Char}
    {F : Family Em (row (nf := nf)) ps Q} {ss : List (ObsSeq (Fin nf → ℝ))}
    {r : RParams nc Q} (h : F.Ok .log ss r) :
    ∑ i, obsStat r.π r.A (F.b r.q) ss i (fun _ => 1) = (ss.map fun s => ((s.n : ℝ) + 1)).sum := by
  induction ss with
  | nil => simp [obsStat]
  | cons s ss ih =>
    have h1 := ih fun s' hs' => h s' (List.mem_cons_of_mem _ hs')
    have h2 : (0 : ℝ) < likelihood r.π r.A (s.weights (F.b r.q)) := h s List.mem_cons_self
    simp only [obsStat, List.map_cons, List.sum_cons, mul_one] at h1 ⊢
    rw [Finset.sum_add_distrib, h1, Finset.sum_comm]
    simp [sum_posterior h2.ne']

theorem total_pos {P S Q : Type} {Em : Emission XF nc (Obs XF nf) P S} {ps : List Char}
    {F : Family Em (row (nf := nf)) ps Q} {ss : List (ObsSeq (Fin nf → ℝ))} (hne : ss ≠ [])
    {r : RParams nc Q} (h : F.Ok .log ss r) :
    0 < ∑ i, obsStat r.π r.A (F.b r.q) ss i (fun _ => 1) := by
  rw [total_visits h]
  cases ss with
  | nil => exact absurd rfl hne
  | cons s ss =>
    rw [List.map_cons, List.sum_cons]
    refine add_pos_of_pos_of_nonneg (by positivity) (List.sum_nonneg ?_)
    simp only [List.mem_map]
    rintro _ ⟨s, _, rfl⟩
    positivity

theorem tied_total {g : GaussPrior nc nf} {hmw : 0 ≤ g.mw} {cp : Matrix (Fin nf) (Fin nf) ℝ}
    {hcp : cp.PosSemidef} {ps : List Char} {ss : List (ObsSeq (Fin nf → ℝ))}
    {r : RParams nc (RTied nc nf)} (h : (tiedFamily g hmw cp hcp ps).Ok .log ss r) :
    ∑ i, obsStat r.π r.A (fullB r.q.mu fun _ => r.q.S) ss i (fun _ => 1) =
      (ss.map fun s => ((s.n : ℝ) + 1)).sum :=
  total_visits (F := tiedFamily g hmw cp hcp ps) h

theorem tied_total_pos {g : GaussPrior nc nf} {hmw : 0 ≤ g.mw} {cp : Matrix (Fin nf) (Fin nf) ℝ}
    {hcp : cp.PosSemidef} {ps : List Char} {ss : List (ObsSeq (Fin nf → ℝ))} (hne : ss ≠ [])
    {r : RParams nc (RTied nc nf)} (h : (tiedFamily g hmw cp hcp ps).Ok .log ss r) :
    0 < ∑ i, obsStat r.π r.A (fullB r.q.mu fun _ => r.q.S) ss i (fun _ => 1) :=
  total_pos (F := tiedFamily g hmw cp hcp ps) hne h

theorem full_closed (g : GaussPrior nc nf) (hmw : 0 ≤ g.mw) (cp : Fin nc → Matrix (Fin nf) (Fin nf) ℝ)
    (hcp : ∀ i, (cp i).PosSemidef) (ps : List Char) (hcm : 'c' ∈ ps → 'm' ∈ ps ∨ (nf : ℝ) < g.cw)
    (c : RConfig nc) (ss : List (ObsSeq (Fin nf → ℝ)))
    (hp : 's' ∈ ps → ∀ i, 1 ≤ c.sp i) (ht : 't' ∈ ps → ∀ i j, 1 ≤ c.tp i j) :
    (fullFamily g hmw cp hcp ps).Closed c ss ((fullFamily g hmw cp hcp ps).Keeps (needF g ps) ss) := by
  refine (fullFamily g hmw cp hcp ps).closed_keeps c ss hp ht
    (fun r h => ⟨fun hm i => (weight_pos hmw (keeps_need h) hm i).ne', fun hc i => ?_⟩)
    fun r _ => full_ac ss r
  by_cases hm : 'm' ∈ ps
  · simp only [gate, hm, if_true]
    exact (cov_weight_pos h hm i).ne'
  · simp only [gate, hm, if_false, add_zero]
    exact (cvw_pos ((hcm hc).resolve_left hm)).ne'

theorem tied_closed (g : GaussPrior nc nf) (hmw : 0 ≤ g.mw) (cp : Matrix (Fin nf) (Fin nf) ℝ)
    (hcp : cp.PosSemidef) (ps : List Char) (hcm : 'c' ∈ ps → 'm' ∈ ps ∨ (nf : ℝ) < g.cw)
    (c : RConfig nc) (ss : List (ObsSeq (Fin nf → ℝ))) (hne : ss ≠ [])
    (hp : 's' ∈ ps → ∀ i, 1 ≤ c.sp i) (ht : 't' ∈ ps → ∀ i j, 1 ≤ c.tp i j) :
    (tiedFamily g hmw cp hcp ps).Closed c ss ((tiedFamily g hmw cp hcp ps).Keeps (need g ps) ss) := by
  refine (tiedFamily g hmw cp hcp ps).closed_keeps c ss hp ht
    (fun r h => ⟨fun hm i => (weight_pos hmw h hm i).ne', fun hc => ?_⟩)
    fun r _ => tied_ac ss r
  by_cases hm : 'm' ∈ ps
  · simp only [gate, hm, if_true]
    exact (add_pos_of_nonneg_of_pos (cvw_nonneg g) (total_pos hne h.2.1)).ne'
  · simp only [gate, hm, if_false, Finset.sum_const_zero, add_zero]
    exact (cvw_pos ((hcm hc).resolve_left hm)).ne'

end Gaussian

omit [NeZero nc] in
theorem Spec.FullPoint.likelihoods {p : FullPoint nc nf} (h : ChainModel p.π p.A)
    (hS : ∀ i, (p.S i).PosSemidef) {ss : List (ObsSeq (Fin nf → ℝ))} (hL : 0 < p.L ss) :
    ∀ s ∈ ss, 0 < likelihood p.π p.A (s.weights (fullB p.mu p.S)) :=
  likelihoods_pos_of_data h.π_nonneg h.A_nonneg (fun _ _ => (fullB_pos _ hS _ _).le) hL

omit [NeZero nc] in
theorem Spec.TiedPoint.likelihoods {p : TiedPoint nc nf} (h : ChainModel p.π p.A)
    (hS : p.S.PosSemidef) {ss : List (ObsSeq (Fin nf → ℝ))} (hL : 0 < p.L ss) :
    ∀ s ∈ ss, 0 < likelihood p.π p.A (s.weights (fullB p.mu fun _ => p.S)) :=
  likelihoods_pos_of_data h.π_nonneg h.A_nonneg (fun _ _ => (fullB_pos _ (fun _ => hS) _ _).le) hL

/-- **C22** (GaussianHMM, `full`) Any data set, starting point with positive semidefinite covariances
under which it is possible, positive semidefinite `covars_prior`, number of iterations, either
implementation, `params` that does not ask for covariances without means, and either priors with
weight or every state on a possible path.  `fit` runs through models `seq 0, …, seq n`, each the EM
update of the one before; `monitor_.history` holds their log-likelihoods; all covariances remain
symmetric positive semidefinite; and the log-likelihood plus log prior does not decrease from `seq k`
to `seq (k+1)` unless the covariances at `seq (k+1)` are singular. -/
theorem C22_gaussian_full (sp : Fin nc → ℝ) (tp : Fin nc → Fin nc → ℝ)
    (hsp : ∀ i, 1 ≤ sp i) (htp : ∀ i j, 1 ≤ tp i j) (g : GaussPrior nc nf) (hmw : 0 ≤ g.mw)
    (cp : Fin nc → Matrix (Fin nf) (Fin nf) ℝ) (hcp : ∀ i, (cp i).PosSemidef)
    (params : List Char) (hcm : 'c' ∈ params → 'm' ∈ params) (impl : Impl)
    (nIter : ℕ) (ss : List (ObsSeq (Fin nf → ℝ))) (hne : ss ≠ []) (p : FullPoint nc nf)
    (hS : ∀ i, (p.S i).PosSemidef) (h : ChainModel p.π p.A) (hL : 0 < p.L ss)
    (hu : (0 < g.mw ∧ (nf : ℝ) < g.cw) ∨ EveryStateUsed p.π p.A (fullB p.mu p.S) ss)
    (mon : Monitor XF) :
    let out := fullFit sp tp g cp params impl nIter ss p.theta mon
    let n := out.monitor.history.length
    ∃ seq : ℕ → FullPoint nc nf, seq 0 = p ∧ out.state = (seq n).theta ∧
      out.monitor.history = (List.range n).map (fun k => fin (Real.log ((seq k).L ss))) ∧
      (∀ k ≤ n, (∀ i, ((seq k).S i).PosSemidef) ∧ ChainModel (seq k).π (seq k).A ∧
        0 < (seq k).L ss) ∧
      (∀ k < n, emStep (emissionFull (prior g) fun i k l => fin (cp i k l))
        (mapConfig sp tp params impl nIter) (dataX row ss) (dataLengths ss) (seq k).theta =
          .ok ((seq (k + 1)).theta, fin (Real.log ((seq k).L ss)))) ∧
      ∀ k < n, ('c' ∈ params → ∀ i, ((seq (k + 1)).S i).PosDef) →
        (seq k).objective sp tp g cp ss ≤ (seq (k + 1)).objective sp tp g cp ss := by
  intro out
  let F := fullFamily g hmw cp hcp params
  have hk : F.Keeps (needF g params) ss (rpF p hS) :=
    ⟨⟨h.π_nonneg, h.A_nonneg, h.π_sum, h.A_sum⟩, FullPoint.likelihoods h hS hL,
      fun hn => hu.resolve_left hn.2⟩
  obtain ⟨seq, h0, h1, h2, h3, h4, h5⟩ := F.fit_seq
    (C := fun _ r' => 'c' ∈ params → ∀ i, (r'.q.S i).PosDef)
    (fun q => fullLogPrior g cp q.mu q.S)
    (full_closed g hmw cp hcp params (fun hc => Or.inl (hcm hc)) ⟨sp, tp, impl, nIter⟩ ss
      (fun _ => hsp) fun _ => htp) hne (fun _ => hsp) (fun _ => htp) hk
    (fun r hr hC _ => full_gains hcm ss r hr.1 (fun hm i => weight_pos hmw (keeps_need hr) hm i)
      (fun hc i => cov_weight_pos hr (hcm hc) i) hC) mon
  refine ⟨fun k => ptF (seq k), by simp only [h0]; rfl, h1, h2, fun k hkn => ?_, h4, h5⟩
  have := h3 k hkn
  exact ⟨(seq k).q.psd, ⟨this.1.π_nonneg, this.1.A_nonneg, this.1.π_sum, this.1.A_sum⟩,
    (log_dataLikelihood ss this.2.1).1⟩

/-- **C22** (GaussianHMM, `tied`) The same for a tied covariance; here only the means need weight. -/
theorem C22_gaussian_tied (sp : Fin nc → ℝ) (tp : Fin nc → Fin nc → ℝ)
    (hsp : ∀ i, 1 ≤ sp i) (htp : ∀ i j, 1 ≤ tp i j) (g : GaussPrior nc nf) (hmw : 0 ≤ g.mw)
    (cp : Matrix (Fin nf) (Fin nf) ℝ) (hcp : cp.PosSemidef)
    (params : List Char) (hcm : 'c' ∈ params → 'm' ∈ params) (impl : Impl)
    (nIter : ℕ) (ss : List (ObsSeq (Fin nf → ℝ))) (hne : ss ≠ []) (p : TiedPoint nc nf)
    (hS : p.S.PosSemidef) (h : ChainModel p.π p.A) (hL : 0 < p.L ss)
    (hu : 0 < g.mw ∨ EveryStateUsed p.π p.A (fullB p.mu fun _ => p.S) ss) (mon : Monitor XF) :
    let out := tiedFit sp tp g cp params impl nIter ss p.theta mon
    let n := out.monitor.history.length
    ∃ seq : ℕ → TiedPoint nc nf, seq 0 = p ∧ out.state = (seq n).theta ∧
      out.monitor.history = (List.range n).map (fun k => fin (Real.log ((seq k).L ss))) ∧
      (∀ k ≤ n, (seq k).S.PosSemidef ∧ ChainModel (seq k).π (seq k).A ∧ 0 < (seq k).L ss) ∧
      (∀ k < n, emStep (emissionTied (prior g) fun k l => fin (cp k l))
        (mapConfig sp tp params impl nIter) (dataX row ss) (dataLengths ss) (seq k).theta =
          .ok ((seq (k + 1)).theta, fin (Real.log ((seq k).L ss)))) ∧
      ∀ k < n, ('c' ∈ params → (seq (k + 1)).S.PosDef) →
        (seq k).objective sp tp g cp ss ≤ (seq (k + 1)).objective sp tp g cp ss := by
  intro out
  let F := tiedFamily g hmw cp hcp params
  have hk : F.Keeps (need g params) ss (rpT p hS) :=
    ⟨⟨h.π_nonneg, h.A_nonneg, h.π_sum, h.A_sum⟩, TiedPoint.likelihoods h hS hL,
      fun hn => hu.resolve_left hn.2⟩
  obtain ⟨seq, h0, h1, h2, h3, h4, h5⟩ := F.fit_seq
    (C := fun _ r' => 'c' ∈ params → r'.q.S.PosDef)
    (fun q => tiedLogPrior g cp q.mu q.S)
    (tied_closed g hmw cp hcp params (fun hc => Or.inl (hcm hc)) ⟨sp, tp, impl, nIter⟩ ss hne
      (fun _ => hsp) fun _ => htp) hne (fun _ => hsp) (fun _ => htp) hk
    (fun r hr hC _ => tied_gains hcm ss r hr.1 (fun hm i => weight_pos hmw hr hm i)
      (fun _ => add_pos_of_nonneg_of_pos (cvw_nonneg g) (tied_total_pos hne hr.2.1)) hC) mon
  refine ⟨fun k => ptT (seq k), by simp only [h0]; rfl, h1, h2, fun k hkn => ?_, h4, h5⟩
  have := h3 k hkn
  exact ⟨(seq k).q.psd, ⟨this.1.π_nonneg, this.1.A_nonneg, this.1.π_sum, this.1.A_sum⟩,
    (log_dataLikelihood ss this.2.1).1⟩

/-- **C22** (GaussianHMM, `full`) Flat priors: the likelihood itself. -/
theorem C22_gaussian_full_flat (mp : Fin nc → Fin nf → ℝ) (params : List Char)
    (hcm : 'c' ∈ params → 'm' ∈ params) (impl : Impl)
    (nIter : ℕ) (ss : List (ObsSeq (Fin nf → ℝ))) (hne : ss ≠ []) (p : FullPoint nc nf)
    (hS : ∀ i, (p.S i).PosSemidef) (h : ChainModel p.π p.A) (hL : 0 < p.L ss)
    (hu : EveryStateUsed p.π p.A (fullB p.mu p.S) ss) (mon : Monitor XF) :
    let out := fullFit (fun _ => 1) (fun _ _ => 1) ⟨mp, 0, 0⟩ (fun _ => 0) params impl nIter ss
      p.theta mon
    let n := out.monitor.history.length
    ∃ seq : ℕ → FullPoint nc nf, seq 0 = p ∧ out.state = (seq n).theta ∧
      out.monitor.history = (List.range n).map (fun k => fin (Real.log ((seq k).L ss))) ∧
      ∀ k < n, ('c' ∈ params → ∀ i, ((seq (k + 1)).S i).PosDef) →
        (seq k).L ss ≤ (seq (k + 1)).L ss := by
  intro out n
  obtain ⟨seq, h0, h1, h2, h3, _, h5⟩ := C22_gaussian_full (fun _ => 1) (fun _ _ => 1) (by simp)
    (by simp) ⟨mp, 0, 0⟩ le_rfl (fun _ => 0) (fun _ => .zero) params hcm impl nIter ss hne p hS h hL
    (Or.inr hu) mon
  refine ⟨seq, h0, h1, h2, fun k hk hv => ?_⟩
  have := h5 k hk hv
  have hw : (⟨mp, 0, 0⟩ : GaussPrior nc nf).cvw = 0 := max_eq_right (by simp)
  simp only [FullPoint.objective, logDirichlet, fullLogPrior, hw, sub_self, zero_mul, zero_add,
    zero_smul, mul_zero, Matrix.mul_zero, Matrix.trace_zero, add_zero, Finset.sum_const_zero] at this
  exact (Real.log_le_log_iff (h3 k hk.le).2.2 (h3 (k + 1) hk).2.2).1 this

/-- **C22** (GaussianHMM, `tied`) Flat priors: the likelihood itself. -/
theorem C22_gaussian_tied_flat (mp : Fin nc → Fin nf → ℝ) (params : List Char)
    (hcm : 'c' ∈ params → 'm' ∈ params) (impl : Impl)
    (nIter : ℕ) (ss : List (ObsSeq (Fin nf → ℝ))) (hne : ss ≠ []) (p : TiedPoint nc nf)
    (hS : p.S.PosSemidef) (h : ChainModel p.π p.A) (hL : 0 < p.L ss)
    (hu : EveryStateUsed p.π p.A (fullB p.mu fun _ => p.S) ss) (mon : Monitor XF) :
    let out := tiedFit (fun _ => 1) (fun _ _ => 1) ⟨mp, 0, 0⟩ 0 params impl nIter ss p.theta mon
    let n := out.monitor.history.length
    ∃ seq : ℕ → TiedPoint nc nf, seq 0 = p ∧ out.state = (seq n).theta ∧
      out.monitor.history = (List.range n).map (fun k => fin (Real.log ((seq k).L ss))) ∧
      ∀ k < n, ('c' ∈ params → (seq (k + 1)).S.PosDef) → (seq k).L ss ≤ (seq (k + 1)).L ss := by
  intro out n
  obtain ⟨seq, h0, h1, h2, h3, _, h5⟩ := C22_gaussian_tied (fun _ => 1) (fun _ _ => 1) (by simp)
    (by simp) ⟨mp, 0, 0⟩ le_rfl 0 .zero params hcm impl nIter ss hne p hS h hL (Or.inr hu) mon
  refine ⟨seq, h0, h1, h2, fun k hk hv => ?_⟩
  have := h5 k hk hv
  have hw : (⟨mp, 0, 0⟩ : GaussPrior nc nf).cvw = 0 := max_eq_right (by simp)
  simp only [TiedPoint.objective, logDirichlet, tiedLogPrior, hw, sub_self, zero_mul, zero_add,
    zero_smul, mul_zero, Matrix.mul_zero, Matrix.trace_zero, add_zero, Finset.sum_const_zero] at this
  exact (Real.log_le_log_iff (h3 k hk.le).2.2 (h3 (k + 1) hk).2.2).1 this

/-! ## C26, C27 -/

/-- **C26** (GaussianHMM, `full`) -/
theorem C26_gaussian_full (sp : Fin nc → ℝ) (tp : Fin nc → Fin nc → ℝ)
    (hsp : ∀ i, 1 ≤ sp i) (htp : ∀ i j, 1 ≤ tp i j) (g : GaussPrior nc nf) (hmw : 0 ≤ g.mw)
    (cp : Fin nc → Matrix (Fin nf) (Fin nf) ℝ) (hcp : ∀ i, (cp i).PosSemidef)
    (params : List Char) (hcm : 'c' ∈ params → 'm' ∈ params ∨ (nf : ℝ) < g.cw)
    (nIter : ℕ) (ss : List (ObsSeq (Fin nf → ℝ))) (hne : ss ≠ []) (p : FullPoint nc nf)
    (hS : ∀ i, (p.S i).PosSemidef) (h : ChainModel p.π p.A) (hL : 0 < p.L ss)
    (hu : (0 < g.mw ∧ (nf : ℝ) < g.cw) ∨ EveryStateUsed p.π p.A (fullB p.mu p.S) ss)
    (mon : Monitor XF)
    (hr : (fullFit sp tp g cp params .scaling nIter ss p.theta mon).raised = none) :
    fullFit sp tp g cp params .log nIter ss p.theta mon =
      fullFit sp tp g cp params .scaling nIter ss p.theta mon :=
  (fullFamily g hmw cp hcp params).fit_impl
    (full_closed g hmw cp hcp params hcm ⟨sp, tp, .scaling, nIter⟩ ss (fun _ => hsp) fun _ => htp) hne
    (fun _ => hsp) (r := rpF p hS)
    ⟨⟨h.π_nonneg, h.A_nonneg, h.π_sum, h.A_sum⟩, FullPoint.likelihoods h hS hL,
      fun hn => hu.resolve_left hn.2⟩ mon hr

/-- **C26** (GaussianHMM, `tied`) -/
theorem C26_gaussian_tied (sp : Fin nc → ℝ) (tp : Fin nc → Fin nc → ℝ)
    (hsp : ∀ i, 1 ≤ sp i) (htp : ∀ i j, 1 ≤ tp i j) (g : GaussPrior nc nf) (hmw : 0 ≤ g.mw)
    (cp : Matrix (Fin nf) (Fin nf) ℝ) (hcp : cp.PosSemidef)
    (params : List Char) (hcm : 'c' ∈ params → 'm' ∈ params ∨ (nf : ℝ) < g.cw)
    (nIter : ℕ) (ss : List (ObsSeq (Fin nf → ℝ))) (hne : ss ≠ []) (p : TiedPoint nc nf)
    (hS : p.S.PosSemidef) (h : ChainModel p.π p.A) (hL : 0 < p.L ss)
    (hu : 0 < g.mw ∨ EveryStateUsed p.π p.A (fullB p.mu fun _ => p.S) ss)
    (mon : Monitor XF)
    (hr : (tiedFit sp tp g cp params .scaling nIter ss p.theta mon).raised = none) :
    tiedFit sp tp g cp params .log nIter ss p.theta mon =
      tiedFit sp tp g cp params .scaling nIter ss p.theta mon :=
  (tiedFamily g hmw cp hcp params).fit_impl
    (tied_closed g hmw cp hcp params hcm ⟨sp, tp, .scaling, nIter⟩ ss hne (fun _ => hsp) fun _ => htp)
    hne (fun _ => hsp) (r := rpT p hS)
    ⟨⟨h.π_nonneg, h.A_nonneg, h.π_sum, h.A_sum⟩, TiedPoint.likelihoods h hS hL,
      fun hn => hu.resolve_left hn.2⟩ mon hr

/-- **C27** (GaussianHMM, `full`) -/
theorem C27_gaussian_full (sp : Fin nc → ℝ) (tp : Fin nc → Fin nc → ℝ)
    (hsp : ∀ i, 1 ≤ sp i) (htp : ∀ i j, 1 ≤ tp i j) (g : GaussPrior nc nf) (hmw : 0 ≤ g.mw)
    (cp : Fin nc → Matrix (Fin nf) (Fin nf) ℝ) (hcp : ∀ i, (cp i).PosSemidef)
    (params : List Char) (hcm : 'c' ∈ params → 'm' ∈ params ∨ (nf : ℝ) < g.cw) (impl : Impl)
    (nIter : ℕ) {ss ss' : List (ObsSeq (Fin nf → ℝ))} (hperm : ss.Perm ss') (hne : ss ≠ [])
    (p : FullPoint nc nf) (hS : ∀ i, (p.S i).PosSemidef) (h : ChainModel p.π p.A) (hL : 0 < p.L ss)
    (hu : (0 < g.mw ∧ (nf : ℝ) < g.cw) ∨ EveryStateUsed p.π p.A (fullB p.mu p.S) ss)
    (mon : Monitor XF) :
    fullFit sp tp g cp params impl nIter ss' p.theta mon =
      fullFit sp tp g cp params impl nIter ss p.theta mon :=
  (fullFamily g hmw cp hcp params).fit_perm
    (full_closed g hmw cp hcp params hcm ⟨sp, tp, impl, nIter⟩ ss (fun _ => hsp) fun _ => htp) hperm hne
    (fun _ => hsp) (r := rpF p hS)
    ⟨⟨h.π_nonneg, h.A_nonneg, h.π_sum, h.A_sum⟩, FullPoint.likelihoods h hS hL,
      fun hn => hu.resolve_left hn.2⟩ mon

/-- **C27** (GaussianHMM, `tied`) -/
theorem C27_gaussian_tied (sp : Fin nc → ℝ) (tp : Fin nc → Fin nc → ℝ)
    (hsp : ∀ i, 1 ≤ sp i) (htp : ∀ i j, 1 ≤ tp i j) (g : GaussPrior nc nf) (hmw : 0 ≤ g.mw)
    (cp : Matrix (Fin nf) (Fin nf) ℝ) (hcp : cp.PosSemidef)
    (params : List Char) (hcm : 'c' ∈ params → 'm' ∈ params ∨ (nf : ℝ) < g.cw) (impl : Impl)
    (nIter : ℕ) {ss ss' : List (ObsSeq (Fin nf → ℝ))} (hperm : ss.Perm ss') (hne : ss ≠ [])
    (p : TiedPoint nc nf) (hS : p.S.PosSemidef) (h : ChainModel p.π p.A) (hL : 0 < p.L ss)
    (hu : 0 < g.mw ∨ EveryStateUsed p.π p.A (fullB p.mu fun _ => p.S) ss)
    (mon : Monitor XF) :
    tiedFit sp tp g cp params impl nIter ss' p.theta mon =
      tiedFit sp tp g cp params impl nIter ss p.theta mon :=
  (tiedFamily g hmw cp hcp params).fit_perm
    (tied_closed g hmw cp hcp params hcm ⟨sp, tp, impl, nIter⟩ ss hne (fun _ => hsp) fun _ => htp)
    hperm hne (fun _ => hsp) (r := rpT p hS)
    ⟨⟨h.π_nonneg, h.A_nonneg, h.π_sum, h.A_sum⟩, TiedPoint.likelihoods h hS hL,
      fun hn => hu.resolve_left hn.2⟩ mon

/-! ## C44 -/

/-- Posterior-weighted scatter of the samples of state `i` about `ν`. -/
noncomputable def Spec.scatterAbout (π : Fin nc → ℝ) (A : Fin nc → Fin nc → ℝ)
    (b : (Fin nf → ℝ) → Fin nc → ℝ) (ss : List (ObsSeq (Fin nf → ℝ))) (i : Fin nc)
    (ν : Fin nf → ℝ) : Matrix (Fin nf) (Fin nf) ℝ :=
  Matrix.of fun k l => weighted π A b ss i fun x => (x k - ν k) * (x l - ν l)

/-- **C44** (`full`) One EM iteration that re-estimates means and covariances, any data, prior with
non-negative weight and positive semidefinite scale, states with positive weight: the new means are
the weighted averages, within any bounds on the data (and on the prior mean if it has weight); the
new covariances are `(cp + mw (μ-mp)(μ-mp)ᵀ + Σ γ (x-μ)(x-μ)ᵀ) / (max(cw - nf, 0) + Σ γ)` and
symmetric positive semidefinite, positive definite if `covars_prior` is. -/
theorem C44_full (sp : Fin nc → ℝ) (tp : Fin nc → Fin nc → ℝ)
    (g : GaussPrior nc nf) (hmw : 0 ≤ g.mw) (cp : Fin nc → Matrix (Fin nf) (Fin nf) ℝ)
    (hcp : ∀ i, (cp i).PosSemidef)
    (params : List Char) (hm : 'm' ∈ params) (hc : 'c' ∈ params) (impl : Impl) (nIter : ℕ)
    (ss : List (ObsSeq (Fin nf → ℝ))) (hne : ss ≠ []) (p : FullPoint nc nf)
    (hS : ∀ i, (p.S i).PosSemidef) (h : ChainModel p.π p.A)
    (hok : ∀ s ∈ ss, EstepOk impl p.π p.A (s.weights (fullB p.mu p.S)))
    (hv : ∀ i, 0 < g.mw + visits p.π p.A (fullB p.mu p.S) ss i)
    (hv2 : ∀ i, 0 < max (g.cw - nf) 0 + visits p.π p.A (fullB p.mu p.S) ss i) :
    ∃ (θ' : Theta XF nc (FullParams XF nc nf)) (l : XF) (mu : Fin nc → Fin nf → ℝ)
      (S : Fin nc → Matrix (Fin nf) (Fin nf) ℝ),
      emStep (emissionFull (prior g) fun i k l => fin (cp i k l))
        (mapConfig sp tp params impl nIter) (dataX row ss) (dataLengths ss) p.theta = .ok (θ', l) ∧
      (∀ i k, θ'.emission.means i k = fin (mu i k)) ∧
      (∀ i k l, θ'.emission.covars i k l = fin (S i k l)) ∧
      (∀ i k, mu i k = (g.mw * g.mp i k + weighted p.π p.A (fullB p.mu p.S) ss i fun x => x k) /
        (g.mw + visits p.π p.A (fullB p.mu p.S) ss i)) ∧
      (∀ i k lo hi, (∀ s ∈ ss, ∀ t, lo ≤ s.x t k) → (∀ s ∈ ss, ∀ t, s.x t k ≤ hi) →
        (0 < g.mw → lo ≤ g.mp i k ∧ g.mp i k ≤ hi) → lo ≤ mu i k ∧ mu i k ≤ hi) ∧
      (∀ i, S i = (max (g.cw - nf) 0 + visits p.π p.A (fullB p.mu p.S) ss i)⁻¹ •
        (cp i + (g.mw • Matrix.vecMulVec (mu i - g.mp i) (mu i - g.mp i) +
          scatterAbout p.π p.A (fullB p.mu p.S) ss i (mu i)))) ∧
      (∀ i, (S i).IsSymm ∧ (S i).PosSemidef) ∧ ∀ i, (cp i).PosDef → (S i).PosDef := by
  have hb : ∀ o i, 0 ≤ fullB p.mu p.S o i := fun o i => (fullB_pos _ hS _ _).le
  have hT : PosLin (obsStat p.π p.A (fullB p.mu p.S) ss) :=
    obsStat_posLin h.π_nonneg h.A_nonneg hb ss
  set T := obsStat p.π p.A (fullB p.mu p.S) ss with hTd
  have hN : ∀ i, T i (fun _ => 1) = visits p.π p.A (fullB p.mu p.S) ss i := visits_eq _ _ _ _
  have hmu : ∀ i k, muNext g params p.mu T i k = (g.mw * g.mp i k +
      weighted p.π p.A (fullB p.mu p.S) ss i fun x => x k) /
        (g.mw + visits p.π p.A (fullB p.mu p.S) ss i) := by
    intro i k
    simp only [muNext, hm, if_true, hN]; rfl
  have hSeq : ∀ i, fullNext g cp params (muNext g params p.mu T) T i =
      (max (g.cw - nf) 0 + visits p.π p.A (fullB p.mu p.S) ss i)⁻¹ •
        (cp i + (g.mw • Matrix.vecMulVec (muNext g params p.mu T i - g.mp i)
          (muNext g params p.mu T i - g.mp i) +
          scatterAbout p.π p.A (fullB p.mu p.S) ss i (muNext g params p.mu T i))) := by
    intro i
    simp only [fullNext, cn, centre, gate, hm, if_true, hN]; rfl
  have hpsd := fullNext_psd hmw hcp params hT (muNext g params p.mu T)
  have hstep := (fullFamily g hmw cp hcp params).emStep_ok ⟨sp, tp, impl, nIter⟩ ss hne
    (r := rpF p hS) ⟨h.π_nonneg, h.A_nonneg, h.π_sum, h.A_sum⟩ hok
    ⟨fun _ i => by have := (hv i).ne'; rw [← hN] at this; exact this,
      fun _ i => by have := (hv2 i).ne'; rw [← hN] at this; simp only [gate, hm, if_true]; exact this⟩
  have hnext : (fullFamily g hmw cp hcp params).next (rpF p hS).q T =
      ⟨muNext g params p.mu T, fullNext g cp params (muNext g params p.mu T) T, hpsd⟩ :=
    dif_pos ⟨hc, hpsd⟩
  have hq : ((fullFamily g hmw cp hcp params).rstep ⟨sp, tp, impl, nIter⟩ ss (rpF p hS)).q =
      ⟨muNext g params p.mu T, fullNext g cp params (muNext g params p.mu T) T, hpsd⟩ := hnext
  refine ⟨_, _, muNext g params p.mu T, fullNext g cp params (muNext g params p.mu T) T, hstep,
    fun i k => ?_, fun i k l => ?_, hmu, ?_, hSeq, fun i => ⟨isSymm_of_posSemidef (hpsd i), hpsd i⟩,
    fun i hi => ?_⟩
  · simp only [Family.theta, hq]; rfl
  · simp only [Family.theta, hq]; rfl
  · intro i k lo hi h1 h2 h3
    rw [hmu]
    exact mean_in_range (f := fun x : Fin nf → ℝ => x k) h.π_nonneg h.A_nonneg hb i hmw (hv i) h1 h2 h3
  · refine (hi.add_posSemidef (cn_psd hmw params hT _ i)).smul (inv_pos.2 ?_)
    have := hv2 i
    rw [← hN] at this
    simp only [gate, hm, if_true]; exact this

/-- **C44** (`tied`) The same with one covariance, all states together. -/
theorem C44_tied (sp : Fin nc → ℝ) (tp : Fin nc → Fin nc → ℝ)
    (g : GaussPrior nc nf) (hmw : 0 ≤ g.mw) (cp : Matrix (Fin nf) (Fin nf) ℝ)
    (hcp : cp.PosSemidef)
    (params : List Char) (hm : 'm' ∈ params) (hc : 'c' ∈ params) (impl : Impl) (nIter : ℕ)
    (ss : List (ObsSeq (Fin nf → ℝ))) (hne : ss ≠ []) (p : TiedPoint nc nf)
    (hS : p.S.PosSemidef) (h : ChainModel p.π p.A)
    (hok : ∀ s ∈ ss, EstepOk impl p.π p.A (s.weights (fullB p.mu fun _ => p.S)))
    (hv : ∀ i, 0 < g.mw + visits p.π p.A (fullB p.mu fun _ => p.S) ss i) :
    ∃ (θ' : Theta XF nc (TiedParams XF nc nf)) (l : XF) (mu : Fin nc → Fin nf → ℝ)
      (S : Matrix (Fin nf) (Fin nf) ℝ),
      emStep (emissionTied (prior g) fun k l => fin (cp k l))
        (mapConfig sp tp params impl nIter) (dataX row ss) (dataLengths ss) p.theta = .ok (θ', l) ∧
      (∀ i k, θ'.emission.means i k = fin (mu i k)) ∧
      (∀ k l, θ'.emission.covar k l = fin (S k l)) ∧
      (∀ i k, mu i k = (g.mw * g.mp i k +
        weighted p.π p.A (fullB p.mu fun _ => p.S) ss i fun x => x k) /
        (g.mw + visits p.π p.A (fullB p.mu fun _ => p.S) ss i)) ∧
      (∀ i k lo hi, (∀ s ∈ ss, ∀ t, lo ≤ s.x t k) → (∀ s ∈ ss, ∀ t, s.x t k ≤ hi) →
        (0 < g.mw → lo ≤ g.mp i k ∧ g.mp i k ≤ hi) → lo ≤ mu i k ∧ mu i k ≤ hi) ∧
      S = (max (g.cw - nf) 0 + (ss.map fun s => ((s.n : ℝ) + 1)).sum)⁻¹ •
        (cp + ∑ i, (g.mw • Matrix.vecMulVec (mu i - g.mp i) (mu i - g.mp i) +
          scatterAbout p.π p.A (fullB p.mu fun _ => p.S) ss i (mu i))) ∧
      (S.IsSymm ∧ S.PosSemidef) ∧ (cp.PosDef → S.PosDef) := by
  have hb : ∀ o i, 0 ≤ fullB p.mu (fun _ => p.S) o i := fun o i => (fullB_pos _ (fun _ => hS) _ _).le
  have hT : PosLin (obsStat p.π p.A (fullB p.mu fun _ => p.S) ss) :=
    obsStat_posLin h.π_nonneg h.A_nonneg hb ss
  have hOk : (tiedFamily g hmw cp hcp params).Ok impl ss (rpT p hS) := hok
  have hL : (tiedFamily g hmw cp hcp params).Ok .log ss (rpT p hS) := Family.Ok.log hOk
  have htot : ∑ i, obsStat p.π p.A (fullB p.mu fun _ => p.S) ss i (fun _ => 1) =
      (ss.map fun s => ((s.n : ℝ) + 1)).sum := tied_total (r := rpT p hS) hL
  have hpos : 0 < g.cvw + ∑ i, obsStat p.π p.A (fullB p.mu fun _ => p.S) ss i (fun _ => 1) :=
    add_pos_of_nonneg_of_pos (cvw_nonneg g) (tied_total_pos (r := rpT p hS) hne hL)
  set T := obsStat p.π p.A (fullB p.mu fun _ => p.S) ss with hTd
  have hN : ∀ i, T i (fun _ => 1) = visits p.π p.A (fullB p.mu fun _ => p.S) ss i := visits_eq _ _ _ _
  have hmu : ∀ i k, muNext g params p.mu T i k = (g.mw * g.mp i k +
      weighted p.π p.A (fullB p.mu fun _ => p.S) ss i fun x => x k) /
        (g.mw + visits p.π p.A (fullB p.mu fun _ => p.S) ss i) := by
    intro i k
    simp only [muNext, hm, if_true, hN]; rfl
  have hSeq : tiedNext g cp params (muNext g params p.mu T) T =
      (max (g.cw - nf) 0 + (ss.map fun s => ((s.n : ℝ) + 1)).sum)⁻¹ •
        (cp + ∑ i, (g.mw • Matrix.vecMulVec (muNext g params p.mu T i - g.mp i)
          (muNext g params p.mu T i - g.mp i) +
          scatterAbout p.π p.A (fullB p.mu fun _ => p.S) ss i (muNext g params p.mu T i))) := by
    rw [← htot]
    simp only [tiedNext, cn, centre, gate, hm, if_true]; rfl
  have hpsd := tiedNext_psd hmw hcp params hT (muNext g params p.mu T)
  have hstep := (tiedFamily g hmw cp hcp params).emStep_ok ⟨sp, tp, impl, nIter⟩ ss hne
    (r := rpT p hS) ⟨h.π_nonneg, h.A_nonneg, h.π_sum, h.A_sum⟩ hok
    ⟨fun _ i => by have := (hv i).ne'; rw [← hN] at this; exact this,
      fun _ => by simp only [gate, hm, if_true]; exact hpos.ne'⟩
  have hnext : (tiedFamily g hmw cp hcp params).next (rpT p hS).q T =
      ⟨muNext g params p.mu T, tiedNext g cp params (muNext g params p.mu T) T, hpsd⟩ :=
    dif_pos ⟨hc, hpsd⟩
  have hq : ((tiedFamily g hmw cp hcp params).rstep ⟨sp, tp, impl, nIter⟩ ss (rpT p hS)).q =
      ⟨muNext g params p.mu T, tiedNext g cp params (muNext g params p.mu T) T, hpsd⟩ := hnext
  refine ⟨_, _, muNext g params p.mu T, tiedNext g cp params (muNext g params p.mu T) T, hstep,
    fun i k => ?_, fun k l => ?_, hmu, ?_, hSeq, ⟨isSymm_of_posSemidef hpsd, hpsd⟩, fun hi => ?_⟩
  · simp only [Family.theta, hq]; rfl
  · simp only [Family.theta, hq]; rfl
  · intro i k lo hi h1 h2 h3
    rw [hmu]
    exact mean_in_range (f := fun x : Fin nf → ℝ => x k) h.π_nonneg h.A_nonneg hb i hmw (hv i) h1 h2 h3
  · refine (hi.add_posSemidef (psd_sum fun i => cn_psd hmw params hT _ i)).smul (inv_pos.2 ?_)
    simp only [gate, hm, if_true]; exact hpos

end Verif
