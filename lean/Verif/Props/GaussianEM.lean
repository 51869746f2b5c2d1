import Verif.Proofs.GaussianDiag
import Verif.Proofs.FitSeq
import Verif.Props.CountEM

/-!
# EM for `GaussianHMM`, diagonal and spherical covariances: C20, C22, C26, C27, C44, C45
-/

namespace Verif
open FloatLike XF Hmmc Spec
open scoped Classical

variable {nc nf : ℕ}

/-! ## C20 -/

section
variable {α : Type} [FloatLike α] [NeZero nc] (pr : Gaussian.Prior α nc nf) (cfg : Config α nc)
  (X : List (Gaussian.Obs α nf)) (lengths : Option (List Int)) (mon : Monitor α)

/-- **C20** (GaussianHMM, `diag`) `fit` leaves `means_` alone without `'m'` and `_covars_` alone
without `'c'` in `params`, in any arithmetic. -/
theorem C20_gaussian_diag (cp : Fin nc → Fin nf → α) (θ : Theta α nc (Gaussian.DiagParams α nc nf)) :
    ('m' ∉ cfg.params → (fitFrom (Gaussian.emissionDiag pr cp) cfg X lengths θ
      mon).state.emission.means = θ.emission.means) ∧
    ('c' ∉ cfg.params → (fitFrom (Gaussian.emissionDiag pr cp) cfg X lengths θ
      mon).state.emission.covars = θ.emission.covars) :=
  ⟨fun h => fit_keeps Gaussian.DiagParams.means _ cfg X lengths θ mon fun p st => by
      simp [Gaussian.emissionDiag, Gaussian.mstepDiag, h],
    fun h => fit_keeps Gaussian.DiagParams.covars _ cfg X lengths θ mon fun p st => by
      simp [Gaussian.emissionDiag, Gaussian.mstepDiag, h]⟩

/-- **C20** (GaussianHMM, `spherical`) -/
theorem C20_gaussian_spherical (cp : Fin nc → Fin nf → α)
    (θ : Theta α nc (Gaussian.DiagParams α nc nf)) :
    ('m' ∉ cfg.params → (fitFrom (Gaussian.emissionSpherical pr cp) cfg X lengths θ
      mon).state.emission.means = θ.emission.means) ∧
    ('c' ∉ cfg.params → (fitFrom (Gaussian.emissionSpherical pr cp) cfg X lengths θ
      mon).state.emission.covars = θ.emission.covars) :=
  ⟨fun h => fit_keeps Gaussian.DiagParams.means _ cfg X lengths θ mon fun p st => by
      simp [Gaussian.emissionSpherical, Gaussian.mstepSpherical, h],
    fun h => fit_keeps Gaussian.DiagParams.covars _ cfg X lengths θ mon fun p st => by
      simp [Gaussian.emissionSpherical, Gaussian.mstepSpherical, h]⟩

/-- **C20** (GaussianHMM, `full`) -/
theorem C20_gaussian_full (cp : Fin nc → Gaussian.Sq α nf)
    (θ : Theta α nc (Gaussian.FullParams α nc nf)) :
    ('m' ∉ cfg.params → (fitFrom (Gaussian.emissionFull pr cp) cfg X lengths θ
      mon).state.emission.means = θ.emission.means) ∧
    ('c' ∉ cfg.params → (fitFrom (Gaussian.emissionFull pr cp) cfg X lengths θ
      mon).state.emission.covars = θ.emission.covars) :=
  ⟨fun h => fit_keeps Gaussian.FullParams.means _ cfg X lengths θ mon fun p st => by
      simp [Gaussian.emissionFull, Gaussian.mstepFull, h],
    fun h => fit_keeps Gaussian.FullParams.covars _ cfg X lengths θ mon fun p st => by
      simp [Gaussian.emissionFull, Gaussian.mstepFull, h]⟩

/-- **C20** (GaussianHMM, `tied`) -/
theorem C20_gaussian_tied (cp : Gaussian.Sq α nf) (θ : Theta α nc (Gaussian.TiedParams α nc nf)) :
    ('m' ∉ cfg.params → (fitFrom (Gaussian.emissionTied pr cp) cfg X lengths θ
      mon).state.emission.means = θ.emission.means) ∧
    ('c' ∉ cfg.params → (fitFrom (Gaussian.emissionTied pr cp) cfg X lengths θ
      mon).state.emission.covar = θ.emission.covar) :=
  ⟨fun h => fit_keeps Gaussian.TiedParams.means _ cfg X lengths θ mon fun p st => by
      simp [Gaussian.emissionTied, Gaussian.mstepTied, h],
    fun h => fit_keeps Gaussian.TiedParams.covar _ cfg X lengths θ mon fun p st => by
      simp [Gaussian.emissionTied, Gaussian.mstepTied, h]⟩

end

variable [NeZero nc]

/-! ## Runs of `fit` -/

/-- A model as estimator attributes; for `spherical` the variances of a state are all equal. -/
noncomputable def Spec.DiagPoint.theta (p : DiagPoint nc nf) :
    Theta XF nc (Gaussian.DiagParams XF nc nf) :=
  ⟨fun i => fin (p.π i), fun i j => fin (p.A i j), fun i k => fin (p.mu i k), fun i k => fin (p.v i k)⟩

/-- `diag` and `spherical`. -/
inductive DiagType | diag | spherical

/-- The emission model of a `GaussianHMM` of the given covariance type. -/
noncomputable def DiagType.emission (g : GaussPrior nc nf) (cp : Fin nc → Fin nf → ℝ) : DiagType →
    Emission XF nc (Gaussian.Obs XF nf) (Gaussian.DiagParams XF nc nf) (Gaussian.DiagStats XF nc nf)
  | .diag => Gaussian.emissionDiag (Gaussian.prior g) fun i k => fin (cp i k)
  | .spherical => Gaussian.emissionSpherical (Gaussian.prior g) fun i k => fin (cp i k)

/-- Variances a model of the given type can have. -/
def DiagType.Shape : DiagType → DiagPoint nc nf → Prop
  | .diag, _ => True
  | .spherical, p => ∀ i k l, p.v i k = p.v i l

/-- `fit` of a `GaussianHMM`, covariance type `diag` or `spherical`. -/
noncomputable def gaussFit (ty : DiagType) (sp : Fin nc → ℝ) (tp : Fin nc → Fin nc → ℝ)
    (g : GaussPrior nc nf) (cp : Fin nc → Fin nf → ℝ) (params : List Char) (impl : Impl) (nIter : ℕ)
    (ss : List (ObsSeq (Fin nf → ℝ))) (θ : Theta XF nc (Gaussian.DiagParams XF nc nf))
    (mon : Monitor XF) : FitOutcome XF (Theta XF nc (Gaussian.DiagParams XF nc nf)) :=
  fitFrom (ty.emission g cp) (mapConfig sp tp params impl nIter) (dataX Gaussian.row ss)
    (some (dataLengths ss)) θ mon

namespace Gaussian

/-- The real parameters. -/
def rpD (p : DiagPoint nc nf) : RParams nc (RDiag nc nf) := ⟨p.π, p.A, ⟨p.mu, p.v⟩⟩

def ptD (r : RParams nc (RDiag nc nf)) : DiagPoint nc nf := ⟨r.π, r.A, r.q.mu, r.q.v⟩

def rpS [NeZero nf] (p : DiagPoint nc nf) : RParams nc (RSph nc nf) :=
  ⟨p.π, p.A, ⟨p.mu, fun i => p.v i 0⟩⟩

def ptS (r : RParams nc (RSph nc nf)) : DiagPoint nc nf := ⟨r.π, r.A, r.q.mu, fun i _ => r.q.v i⟩

omit [NeZero nc] in
theorem ptS_rpS [NeZero nf] {p : DiagPoint nc nf} (h : DiagType.spherical.Shape p) :
    ptS (rpS p) = p := by
  cases p with
  | mk π A mu v =>
    simp only [ptS, rpS, DiagPoint.mk.injEq, true_and]
    funext i k; exact h i 0 k

/-- A state may be abandoned only if the prior on the means has weight. -/
def need (g : GaussPrior nc nf) (ps : List Char) : Prop := 'm' ∈ ps ∧ ¬ 0 < g.mw

theorem weight_pos {P S : Type} {Em : Emission XF nc (Obs XF nf) P S}
    {Q : Type} {g : GaussPrior nc nf} {ps : List Char} {F : Family Em (row (nf := nf)) ps Q}
    (hmw : 0 ≤ g.mw) {ss : List (ObsSeq (Fin nf → ℝ))} {r : RParams nc Q}
    (h : F.Keeps (need g ps) ss r) (hm : 'm' ∈ ps) (i : Fin nc) :
    0 < g.mw + obsStat r.π r.A (F.b r.q) ss i fun _ => 1 := by
  by_cases h0 : 0 < g.mw
  · exact add_pos_of_pos_of_nonneg h0 (obsStat_nonneg h.1.π_nonneg h.1.A_nonneg (F.b_nonneg r.q) ss i
      fun _ => zero_le_one)
  · exact add_pos_of_nonneg_of_pos hmw ((h.2.2 ⟨hm, h0⟩).pos h.1 h.2.1 i)

theorem diag_closed (g : GaussPrior nc nf) (hmw : 0 ≤ g.mw) (cp : Fin nc → Fin nf → ℝ)
    (ps : List Char) (c : RConfig nc) (ss : List (ObsSeq (Fin nf → ℝ)))
    (hp : 's' ∈ ps → ∀ i, 1 ≤ c.sp i) (ht : 't' ∈ ps → ∀ i j, 1 ≤ c.tp i j) :
    (diagFamily g cp ps).Closed c ss ((diagFamily g cp ps).Keeps (need g ps) ss) :=
  (diagFamily g cp ps).closed_keeps c ss hp ht
    (fun _ h hm i => (weight_pos hmw h hm i).ne') fun r _ => diag_ac ss r

theorem sph_closed [NeZero nf] (g : GaussPrior nc nf) (hmw : 0 ≤ g.mw) (cp : Fin nc → Fin nf → ℝ)
    (ps : List Char) (c : RConfig nc) (ss : List (ObsSeq (Fin nf → ℝ)))
    (hp : 's' ∈ ps → ∀ i, 1 ≤ c.sp i) (ht : 't' ∈ ps → ∀ i j, 1 ≤ c.tp i j) :
    (sphFamily g cp ps).Closed c ss ((sphFamily g cp ps).Keeps (need g ps) ss) :=
  (sphFamily g cp ps).closed_keeps c ss hp ht
    (fun _ h hm i => (weight_pos hmw h hm i).ne') fun r _ => sph_ac ss r

omit [NeZero nc] in
theorem visits_eq {D : Type} (π : Fin nc → ℝ) (A : Fin nc → Fin nc → ℝ) (b : D → Fin nc → ℝ)
    (ss : List (ObsSeq D)) (i : Fin nc) : obsStat π A b ss i (fun _ => 1) = visits π A b ss i := by
  simp [obsStat, visits]

end Gaussian

open Gaussian

omit [NeZero nc] in
theorem Spec.DiagPoint.valid {p : DiagPoint nc nf} (h : ChainModel p.π p.A) {Q : Type} (q : Q) :
    RParams.Valid ⟨p.π, p.A, q⟩ := ⟨h.π_nonneg, h.A_nonneg, h.π_sum, h.A_sum⟩

omit [NeZero nc] in
theorem Spec.DiagPoint.likelihoods {p : DiagPoint nc nf} (h : ChainModel p.π p.A)
    {ss : List (ObsSeq (Fin nf → ℝ))} (hL : 0 < p.L ss) :
    ∀ s ∈ ss, 0 < likelihood p.π p.A (s.weights (diagB p.mu p.v)) :=
  likelihoods_pos_of_data h.π_nonneg h.A_nonneg (fun o i => (diagB_pos _ _ _ _).le) hL

/-- **C22** (GaussianHMM, `diag` and `spherical`) Any data set, starting point under which it is
possible, proper prior and number of iterations, either implementation, `params` that does not ask
for covariances without means, and either `means_weight > 0` or every state on a possible path.
`fit` runs through models `seq 0, …, seq n`, each the EM update of the one before;
`monitor_.history` holds their log-likelihoods; all remain models of the same kind; and the
log-likelihood plus log prior does not decrease from `seq k` to `seq (k+1)` whenever every state
keeps `covars_weight - 1 + visits ≥ 1e-5` at `seq k` (the floor used by the M-step). -/
theorem C22_gaussian [NeZero nf] (ty : DiagType) (sp : Fin nc → ℝ) (tp : Fin nc → Fin nc → ℝ)
    (hsp : ∀ i, 1 ≤ sp i) (htp : ∀ i j, 1 ≤ tp i j) (g : GaussPrior nc nf) (cp : Fin nc → Fin nf → ℝ)
    (hg : g.Proper cp) (params : List Char) (hcm : 'c' ∈ params → 'm' ∈ params) (impl : Impl)
    (nIter : ℕ) (ss : List (ObsSeq (Fin nf → ℝ))) (hne : ss ≠ []) (p : DiagPoint nc nf)
    (hty : ty.Shape p) (h : ChainModel p.π p.A) (hL : 0 < p.L ss)
    (hu : 0 < g.mw ∨ EveryStateUsed p.π p.A (diagB p.mu p.v) ss) (mon : Monitor XF) :
    let out := gaussFit ty sp tp g cp params impl nIter ss p.theta mon
    let n := out.monitor.history.length
    ∃ seq : ℕ → DiagPoint nc nf, seq 0 = p ∧ out.state = (seq n).theta ∧
      out.monitor.history = (List.range n).map (fun k => fin (Real.log ((seq k).L ss))) ∧
      (∀ k ≤ n, ty.Shape (seq k) ∧ ChainModel (seq k).π (seq k).A ∧ 0 < (seq k).L ss) ∧
      (∀ k < n, emStep (ty.emission g cp) (mapConfig sp tp params impl nIter) (dataX row ss)
        (dataLengths ss) (seq k).theta =
          .ok ((seq (k + 1)).theta, fin (Real.log ((seq k).L ss)))) ∧
      ∀ k < n, (∀ i, 1 / 10 ^ 5 ≤ g.cw - 1 +
          visits (seq k).π (seq k).A (diagB (seq k).mu (seq k).v) ss i) →
        (seq k).objective sp tp g cp ss ≤ (seq (k + 1)).objective sp tp g cp ss := by
  intro out
  cases ty with
  | diag =>
    let F := diagFamily g cp params
    have hk : F.Keeps (need g params) ss (rpD p) :=
      ⟨DiagPoint.valid h _, DiagPoint.likelihoods h hL, fun hn => hu.resolve_left hn.2⟩
    obtain ⟨seq, h0, h1, h2, h3, h4, h5⟩ := F.fit_seq
      (C := fun r _ => ∀ i, 1 / 10 ^ 5 ≤ g.cw - 1 + visits r.π r.A (diagB r.q.mu r.q.v) ss i)
      (fun q => diagLogPrior g cp q.mu q.v)
      (diag_closed g hg.mw cp params ⟨sp, tp, impl, nIter⟩ ss (fun _ => hsp) fun _ => htp) hne
      (fun _ => hsp) (fun _ => htp) hk
      (fun r hr hC _ => diag_gains hg hcm ss r hr.1 (fun hm i => weight_pos hg.mw hr hm i)
        fun _ i => by have := hC i; rw [← visits_eq] at this; exact this) mon
    refine ⟨fun k => ptD (seq k), by simp only [h0]; rfl, h1, h2, fun k hkn => ?_, h4, h5⟩
    have := h3 k hkn
    exact ⟨trivial, ⟨this.1.π_nonneg, this.1.A_nonneg, this.1.π_sum, this.1.A_sum⟩,
      (log_dataLikelihood ss this.2.1).1⟩
  | spherical =>
    let F := sphFamily g cp params
    have hpt : ptS (rpS p) = p := ptS_rpS hty
    have hb : (diagB (rpS p).q.mu fun i (_ : Fin nf) => (rpS p).q.v i) = diagB p.mu p.v := by
      have := congrArg (fun x : DiagPoint nc nf => diagB x.mu x.v) hpt
      exact this
    have hth : F.theta (rpS p) = p.theta := by
      have := congrArg DiagPoint.theta hpt
      exact this
    have hk : F.Keeps (need g params) ss (rpS p) := by
      refine ⟨DiagPoint.valid h _, ?_, fun hn => ?_⟩
      · have := DiagPoint.likelihoods h hL
        rw [← hb] at this
        exact this
      · have := hu.resolve_left hn.2
        rw [← hb] at this
        exact this
    obtain ⟨seq, h0, h1, h2, h3, h4, h5⟩ := F.fit_seq
      (C := fun r _ => ∀ i, 1 / 10 ^ 5 ≤ g.cw - 1 +
        visits r.π r.A (diagB r.q.mu fun i _ => r.q.v i) ss i)
      (fun q => diagLogPrior g cp q.mu fun i _ => q.v i)
      (sph_closed g hg.mw cp params ⟨sp, tp, impl, nIter⟩ ss (fun _ => hsp) fun _ => htp) hne
      (fun _ => hsp) (fun _ => htp) hk
      (fun r hr hC _ => sph_gains hg hcm ss r hr.1 (fun hm i => weight_pos hg.mw hr hm i)
        fun _ i => by have := hC i; rw [← visits_eq] at this; exact this) mon
    have hout : F.fit ⟨sp, tp, impl, nIter⟩ ss (rpS p) mon = out := by
      simp only [out, gaussFit, Family.fit, hth]; rfl
    rw [hout] at h1 h2 h3 h4 h5
    refine ⟨fun k => ptS (seq k), by simp only [h0]; exact hpt, h1, h2, fun k hkn => ?_, h4, h5⟩
    have := h3 k hkn
    exact ⟨fun _ _ _ => rfl, ⟨this.1.π_nonneg, this.1.A_nonneg, this.1.π_sum, this.1.A_sum⟩,
      (log_dataLikelihood ss this.2.1).1⟩

/-- **C22** (GaussianHMM) With flat priors the log-likelihood itself does not decrease, as long as
every state keeps at least `1e-5` expected visits. -/
theorem C22_gaussian_flat [NeZero nf] (ty : DiagType) (mp : Fin nc → Fin nf → ℝ) (params : List Char)
    (hcm : 'c' ∈ params → 'm' ∈ params) (impl : Impl) (nIter : ℕ) (ss : List (ObsSeq (Fin nf → ℝ)))
    (hne : ss ≠ []) (p : DiagPoint nc nf) (hty : ty.Shape p) (h : ChainModel p.π p.A)
    (hL : 0 < p.L ss) (hu : EveryStateUsed p.π p.A (diagB p.mu p.v) ss) (mon : Monitor XF) :
    let out := gaussFit ty (fun _ => 1) (fun _ _ => 1) ⟨mp, 0, 1⟩ (fun _ _ => 0) params impl nIter ss
      p.theta mon
    let n := out.monitor.history.length
    ∃ seq : ℕ → DiagPoint nc nf, seq 0 = p ∧ out.state = (seq n).theta ∧
      out.monitor.history = (List.range n).map (fun k => fin (Real.log ((seq k).L ss))) ∧
      ∀ k < n, (∀ i, 1 / 10 ^ 5 ≤
          visits (seq k).π (seq k).A (diagB (seq k).mu (seq k).v) ss i) →
        (seq k).L ss ≤ (seq (k + 1)).L ss := by
  intro out n
  obtain ⟨seq, h0, h1, h2, h3, _, h5⟩ := C22_gaussian ty (fun _ => 1) (fun _ _ => 1) (by simp) (by simp)
    ⟨mp, 0, 1⟩ (fun _ _ => 0) ⟨le_rfl, le_rfl, by simp⟩ params hcm impl nIter ss hne p hty h hL
    (Or.inr hu) mon
  refine ⟨seq, h0, h1, h2, fun k hk hv => ?_⟩
  have := h5 k hk (by simpa using hv)
  simp only [DiagPoint.objective, logDirichlet, diagLogPrior, sub_self, zero_mul, zero_add, zero_div,
    mul_zero, Finset.sum_const_zero, add_zero] at this
  exact (Real.log_le_log_iff (h3 k hk.le).2.2 (h3 (k + 1) hk).2.2).1 this

/-- **C22** (GaussianHMM) With `covars_weight ≥ 1 + 1e-5` the penalised log-likelihood never
decreases, whatever happens to the occupancies. -/
theorem C22_gaussian_weighted [NeZero nf] (ty : DiagType) (sp : Fin nc → ℝ)
    (tp : Fin nc → Fin nc → ℝ) (hsp : ∀ i, 1 ≤ sp i) (htp : ∀ i j, 1 ≤ tp i j)
    (g : GaussPrior nc nf) (cp : Fin nc → Fin nf → ℝ) (hg : g.Proper cp)
    (hcw : 1 + 1 / 10 ^ 5 ≤ g.cw) (params : List Char) (hcm : 'c' ∈ params → 'm' ∈ params)
    (impl : Impl) (nIter : ℕ) (ss : List (ObsSeq (Fin nf → ℝ))) (hne : ss ≠ [])
    (p : DiagPoint nc nf) (hty : ty.Shape p) (h : ChainModel p.π p.A) (hL : 0 < p.L ss)
    (hu : 0 < g.mw ∨ EveryStateUsed p.π p.A (diagB p.mu p.v) ss) (mon : Monitor XF) :
    let out := gaussFit ty sp tp g cp params impl nIter ss p.theta mon
    ∃ p' : DiagPoint nc nf, out.state = p'.theta ∧
      p.objective sp tp g cp ss ≤ p'.objective sp tp g cp ss := by
  intro out
  obtain ⟨seq, h0, h1, h2, h3, _, h5⟩ := C22_gaussian ty sp tp hsp htp g cp hg params hcm impl nIter ss
    hne p hty h hL hu mon
  refine ⟨_, h1, ?_⟩
  have key : ∀ k ≤ out.monitor.history.length,
      p.objective sp tp g cp ss ≤ (seq k).objective sp tp g cp ss := by
    intro k
    induction k with
    | zero => intro _; rw [h0]
    | succ k ih =>
      intro hk
      refine (ih (Nat.le_of_succ_le hk)).trans (h5 k hk fun i => ?_)
      have hc := (h3 k (Nat.le_of_succ_le hk)).2.1
      have : 0 ≤ visits (seq k).π (seq k).A (diagB (seq k).mu (seq k).v) ss i := by
        rw [← visits_eq]
        exact obsStat_nonneg hc.π_nonneg hc.A_nonneg (fun o i => (diagB_pos _ _ _ _).le) ss i
          fun _ => zero_le_one
      linarith
  exact key _ le_rfl

/-! ## C26, C27 -/

/-- **C26** (GaussianHMM, `diag` and `spherical`) If a `scaling` fit does not raise, `log` gives the
same outcome. -/
theorem C26_gaussian [NeZero nf] (ty : DiagType) (sp : Fin nc → ℝ) (tp : Fin nc → Fin nc → ℝ)
    (hsp : ∀ i, 1 ≤ sp i) (htp : ∀ i j, 1 ≤ tp i j) (g : GaussPrior nc nf) (hmw : 0 ≤ g.mw)
    (cp : Fin nc → Fin nf → ℝ) (params : List Char) (nIter : ℕ) (ss : List (ObsSeq (Fin nf → ℝ)))
    (hne : ss ≠ []) (p : DiagPoint nc nf) (hty : ty.Shape p) (h : ChainModel p.π p.A)
    (hL : 0 < p.L ss) (hu : 0 < g.mw ∨ EveryStateUsed p.π p.A (diagB p.mu p.v) ss) (mon : Monitor XF)
    (hr : (gaussFit ty sp tp g cp params .scaling nIter ss p.theta mon).raised = none) :
    gaussFit ty sp tp g cp params .log nIter ss p.theta mon =
      gaussFit ty sp tp g cp params .scaling nIter ss p.theta mon := by
  cases ty with
  | diag =>
    exact (diagFamily g cp params).fit_impl
      (diag_closed g hmw cp params ⟨sp, tp, .scaling, nIter⟩ ss (fun _ => hsp) fun _ => htp) hne
      (fun _ => hsp) (r := rpD p)
      ⟨DiagPoint.valid h _, DiagPoint.likelihoods h hL, fun hn => hu.resolve_left hn.2⟩ mon hr
  | spherical =>
    have hpt : ptS (rpS p) = p := ptS_rpS hty
    rw [← hpt] at hr hu hL ⊢
    exact (sphFamily g cp params).fit_impl
      (sph_closed g hmw cp params ⟨sp, tp, .scaling, nIter⟩ ss (fun _ => hsp) fun _ => htp) hne
      (fun _ => hsp) (r := rpS p)
      ⟨DiagPoint.valid h _, DiagPoint.likelihoods (p := ptS (rpS p)) h hL,
        fun hn => hu.resolve_left hn.2⟩ mon hr

/-- **C27** (GaussianHMM, `diag` and `spherical`) Permuting the training sequences does not change
the outcome of `fit`. -/
theorem C27_gaussian [NeZero nf] (ty : DiagType) (sp : Fin nc → ℝ) (tp : Fin nc → Fin nc → ℝ)
    (hsp : ∀ i, 1 ≤ sp i) (htp : ∀ i j, 1 ≤ tp i j) (g : GaussPrior nc nf) (hmw : 0 ≤ g.mw)
    (cp : Fin nc → Fin nf → ℝ) (params : List Char) (impl : Impl) (nIter : ℕ)
    {ss ss' : List (ObsSeq (Fin nf → ℝ))} (hperm : ss.Perm ss') (hne : ss ≠ [])
    (p : DiagPoint nc nf) (hty : ty.Shape p) (h : ChainModel p.π p.A)
    (hL : 0 < p.L ss) (hu : 0 < g.mw ∨ EveryStateUsed p.π p.A (diagB p.mu p.v) ss)
    (mon : Monitor XF) :
    gaussFit ty sp tp g cp params impl nIter ss' p.theta mon =
      gaussFit ty sp tp g cp params impl nIter ss p.theta mon := by
  cases ty with
  | diag =>
    exact (diagFamily g cp params).fit_perm
      (diag_closed g hmw cp params ⟨sp, tp, impl, nIter⟩ ss (fun _ => hsp) fun _ => htp) hperm hne
      (fun _ => hsp) (r := rpD p)
      ⟨DiagPoint.valid h _, DiagPoint.likelihoods h hL, fun hn => hu.resolve_left hn.2⟩ mon
  | spherical =>
    have hpt : ptS (rpS p) = p := ptS_rpS hty
    rw [← hpt] at hu hL ⊢
    exact (sphFamily g cp params).fit_perm
      (sph_closed g hmw cp params ⟨sp, tp, impl, nIter⟩ ss (fun _ => hsp) fun _ => htp) hperm hne
      (fun _ => hsp) (r := rpS p)
      ⟨DiagPoint.valid h _, DiagPoint.likelihoods (p := ptS (rpS p)) h hL,
        fun hn => hu.resolve_left hn.2⟩ mon

/-! ## C44, C45 -/

/-- Posterior-weighted sum over the data set of `f` of the samples of state `i`. -/
noncomputable def Spec.weighted {D : Type} (π : Fin nc → ℝ) (A : Fin nc → Fin nc → ℝ)
    (b : D → Fin nc → ℝ) (ss : List (ObsSeq D)) (i : Fin nc) (f : D → ℝ) : ℝ :=
  (ss.map fun s => ∑ t, posterior π A (s.weights b) t i * f (s.x t)).sum

omit [NeZero nc] in
theorem weighted_mono {D : Type} {π : Fin nc → ℝ} {A : Fin nc → Fin nc → ℝ} {b : D → Fin nc → ℝ}
    (hπ : ∀ i, 0 ≤ π i) (hA : ∀ i j, 0 ≤ A i j) (hb : ∀ o i, 0 ≤ b o i) {ss : List (ObsSeq D)}
    (i : Fin nc) {f f' : D → ℝ} (hf : ∀ s ∈ ss, ∀ t, f (s.x t) ≤ f' (s.x t)) :
    weighted π A b ss i f ≤ weighted π A b ss i f' := by
  refine List.sum_le_sum fun s hs => Finset.sum_le_sum fun t _ =>
    mul_le_mul_of_nonneg_left (hf s hs t) ?_
  exact div_nonneg (stateMass_nonneg hπ hA (fun t i => hb _ _) t i)
    (likelihood_nonneg hπ hA fun t i => hb _ _)

omit [NeZero nc] in
theorem weighted_const {D : Type} (π : Fin nc → ℝ) (A : Fin nc → Fin nc → ℝ) (b : D → Fin nc → ℝ)
    (ss : List (ObsSeq D)) (i : Fin nc) (c : ℝ) :
    weighted π A b ss i (fun _ => c) = c * visits π A b ss i := by
  unfold weighted visits
  rw [← List.sum_map_mul_left]
  congr 1
  refine List.map_congr_left fun s _ => ?_
  rw [Finset.mul_sum]
  exact Finset.sum_congr rfl fun t _ => mul_comm _ _

/-- The mean used by the M-step is between any bounds on the data (and on the prior mean, if it has
weight). -/
theorem mean_in_range {D : Type} {π : Fin nc → ℝ} {A : Fin nc → Fin nc → ℝ} {b : D → Fin nc → ℝ}
    (hπ : ∀ i, 0 ≤ π i) (hA : ∀ i j, 0 ≤ A i j) (hb : ∀ o i, 0 ≤ b o i) {ss : List (ObsSeq D)}
    (i : Fin nc) {mw mp : ℝ} (hmw : 0 ≤ mw) (hv : 0 < mw + visits π A b ss i) {f : D → ℝ} {lo hi : ℝ}
    (hlo : ∀ s ∈ ss, ∀ t, lo ≤ f (s.x t)) (hhi : ∀ s ∈ ss, ∀ t, f (s.x t) ≤ hi)
    (hmp : 0 < mw → lo ≤ mp ∧ mp ≤ hi) :
    lo ≤ (mw * mp + weighted π A b ss i f) / (mw + visits π A b ss i) ∧
      (mw * mp + weighted π A b ss i f) / (mw + visits π A b ss i) ≤ hi := by
  have h1 := weighted_mono (f := fun _ => lo) hπ hA hb i hlo
  have h2 := weighted_mono (f' := fun _ => hi) hπ hA hb i hhi
  rw [weighted_const] at h1 h2
  have h3 : mw * lo ≤ mw * mp ∧ mw * mp ≤ mw * hi := by
    rcases hmw.eq_or_lt with h0 | h0
    · simp [← h0]
    · exact ⟨mul_le_mul_of_nonneg_left (hmp h0).1 hmw, mul_le_mul_of_nonneg_left (hmp h0).2 hmw⟩
  constructor
  · rw [le_div_iff₀ hv]; linarith [h3.1]
  · rw [div_le_iff₀ hv]; linarith [h3.2]

/-- **C44** (`diag`, `spherical`) One EM iteration that re-estimates means and covariances, for any
data, any prior with non-negative weights and scale, and states with positive weight: the new means
are the weighted averages `(mw mp + Σ γ x) / (mw + Σ γ)`, lie between any bounds on the data (and on
the prior mean if it has weight), and the new variances are non-negative, positive if
`covars_prior` is. -/
theorem C44_diag [NeZero nf] (ty : DiagType) (sp : Fin nc → ℝ) (tp : Fin nc → Fin nc → ℝ)
    (g : GaussPrior nc nf) (hmw : 0 ≤ g.mw) (cp : Fin nc → Fin nf → ℝ) (hcp : ∀ i k, 0 ≤ cp i k)
    (params : List Char) (hm : 'm' ∈ params) (hc : 'c' ∈ params) (impl : Impl) (nIter : ℕ)
    (ss : List (ObsSeq (Fin nf → ℝ))) (hne : ss ≠ []) (p : DiagPoint nc nf) (hty : ty.Shape p)
    (h : ChainModel p.π p.A)
    (hok : ∀ s ∈ ss, EstepOk impl p.π p.A (s.weights (diagB p.mu p.v)))
    (hv : ∀ i, 0 < g.mw + visits p.π p.A (diagB p.mu p.v) ss i) :
    ∃ (θ' : Theta XF nc (DiagParams XF nc nf)) (l : XF) (mu v : Fin nc → Fin nf → ℝ),
      emStep (ty.emission g cp) (mapConfig sp tp params impl nIter) (dataX row ss) (dataLengths ss)
        p.theta = .ok (θ', l) ∧
      (∀ i k, θ'.emission.means i k = fin (mu i k)) ∧ (∀ i k, θ'.emission.covars i k = fin (v i k)) ∧
      (∀ i k, mu i k = (g.mw * g.mp i k + weighted p.π p.A (diagB p.mu p.v) ss i fun x => x k) /
        (g.mw + visits p.π p.A (diagB p.mu p.v) ss i)) ∧
      (∀ i k lo hi, (∀ s ∈ ss, ∀ t, lo ≤ s.x t k) → (∀ s ∈ ss, ∀ t, s.x t k ≤ hi) →
        (0 < g.mw → lo ≤ g.mp i k ∧ g.mp i k ≤ hi) → lo ≤ mu i k ∧ mu i k ≤ hi) ∧
      (∀ i k, 0 ≤ v i k) ∧ ∀ i, (∀ k, 0 < cp i k) → ∀ k, 0 < v i k := by
  have hb : ∀ o i, 0 ≤ diagB p.mu p.v o i := fun o i => (diagB_pos _ _ _ _).le
  have hT : PosLin (obsStat p.π p.A (diagB p.mu p.v) ss) :=
    obsStat_posLin h.π_nonneg h.A_nonneg hb ss
  set T := obsStat p.π p.A (diagB p.mu p.v) ss with hTd
  have hN : ∀ i, T i (fun _ => 1) = visits p.π p.A (diagB p.mu p.v) ss i := visits_eq _ _ _ _
  have hvis : ∀ i, 0 < g.mw + T i fun _ => 1 := fun i => by rw [hN]; exact hv i
  have hmu : ∀ i k, muNext g params p.mu T i k = (g.mw * g.mp i k +
      weighted p.π p.A (diagB p.mu p.v) ss i fun x => x k) /
        (g.mw + visits p.π p.A (diagB p.mu p.v) ss i) := by
    intro i k
    simp only [muNext, hm, if_true, hN]; rfl
  have hvar : ∀ i k, varNext g cp params (muNext g params p.mu T) T i k =
      Sfun g cp T i k (muNext g params p.mu T i k) /
        max (max (g.cw - 1) 0 + T i fun _ => 1) (1 / 10 ^ 5) := by
    intro i k
    simp only [varNext, gate, hm, if_true, Sfun, T_sq hT]
    congr 1
    ring
  have hSn : ∀ i k, cp i k ≤ Sfun g cp T i k (muNext g params p.mu T i k) := fun i k => by
    unfold Sfun
    have h1 := mul_nonneg hmw (sq_nonneg (muNext g params p.mu T i k - g.mp i k))
    have h2 := hT.nonneg i (fun x => (x k - muNext g params p.mu T i k) ^ 2) fun x => sq_nonneg _
    linarith
  have hden : ∀ i, 0 < max (max (g.cw - 1) 0 + T i fun _ => 1) (1 / 10 ^ 5) := fun i =>
    lt_max_of_lt_right (by norm_num)
  have hv0 : ∀ i k, 0 ≤ varNext g cp params (muNext g params p.mu T) T i k := fun i k => by
    rw [hvar]; exact div_nonneg ((hcp i k).trans (hSn i k)) (hden i).le
  have hv1 : ∀ i k, 0 < cp i k → 0 < varNext g cp params (muNext g params p.mu T) T i k :=
    fun i k h0 => by rw [hvar]; exact div_pos (h0.trans_le (hSn i k)) (hden i)
  have hrange : ∀ i k lo hi, (∀ s ∈ ss, ∀ t, lo ≤ s.x t k) → (∀ s ∈ ss, ∀ t, s.x t k ≤ hi) →
        (0 < g.mw → lo ≤ g.mp i k ∧ g.mp i k ≤ hi) →
        lo ≤ muNext g params p.mu T i k ∧ muNext g params p.mu T i k ≤ hi := by
    intro i k lo hi h1 h2 h3
    rw [hmu]
    exact mean_in_range (f := fun x : Fin nf → ℝ => x k) h.π_nonneg h.A_nonneg hb i hmw (hv i) h1 h2 h3
  cases ty with
  | diag =>
    have hstep := (diagFamily g cp params).emStep_ok ⟨sp, tp, impl, nIter⟩ ss hne (r := rpD p)
      (DiagPoint.valid h _) hok (fun _ i => (hvis i).ne')
    refine ⟨_, _, muNext g params p.mu T, varNext g cp params (muNext g params p.mu T) T, hstep,
      fun _ _ => rfl, fun i k => ?_, hmu, hrange, hv0, fun i hi k => hv1 i k (hi k)⟩
    show fin ((if 'c' ∈ params then _ else _ : Fin nc → Fin nf → ℝ) i k) = _
    rw [if_pos hc]; rfl
  | spherical =>
    have hpt : ptS (rpS p) = p := ptS_rpS hty
    have hbS : (diagB (rpS p).q.mu fun i (_ : Fin nf) => (rpS p).q.v i) = diagB p.mu p.v :=
      congrArg (fun x : DiagPoint nc nf => diagB x.mu x.v) hpt
    have hth : (sphFamily g cp params).theta (rpS p) = p.theta := congrArg DiagPoint.theta hpt
    have hTS : obsStat (rpS p).π (rpS p).A ((sphFamily g cp params).b (rpS p).q) ss = T :=
      congrArg (fun b => obsStat p.π p.A b ss) hbS
    have hstep := (sphFamily g cp params).emStep_ok ⟨sp, tp, impl, nIter⟩ ss hne (r := rpS p)
      (DiagPoint.valid h _) (fun s hs => by
        have := hok s hs
        rw [← hbS] at this
        exact this) (fun _ i => by rw [hTS]; exact (hvis i).ne')
    rw [hth] at hstep
    have hnf : (0 : ℝ) < nf := Nat.cast_pos.2 (NeZero.pos nf)
    refine ⟨_, _, muNext g params p.mu T, fun i _ =>
      (∑ k, varNext g cp params (muNext g params p.mu T) T i k) / nf, hstep,
      fun i k => ?_, fun i k => ?_, hmu, hrange,
      fun i k => div_nonneg (Finset.sum_nonneg fun k _ => hv0 i k) hnf.le,
      fun i hi k => div_pos (Finset.sum_pos (fun k _ => hv1 i k (hi k)) ⟨0, Finset.mem_univ _⟩) hnf⟩
    · show fin (muNext g params p.mu (obsStat (rpS p).π (rpS p).A
        ((sphFamily g cp params).b (rpS p).q) ss) i k) = _
      rw [hTS]
    · show fin ((if 'c' ∈ params then _ else _ : Fin nc → ℝ) i) = _
      rw [if_pos hc, hTS]; rfl

/-- **C45** (`diag`) With `'c'` but not `'m'` in `params`, one EM iteration replaces the variance of
state `i` by `(cp + mw (μ - mp)² + Σ γ x²) / max(max(cw - 1, 0), 1e-5)`: neither the occupancy nor the
cross terms of the scatter about the fixed mean enter. -/
theorem C45_diag (sp : Fin nc → ℝ) (tp : Fin nc → Fin nc → ℝ) (g : GaussPrior nc nf)
    (cp : Fin nc → Fin nf → ℝ) (params : List Char) (hm : 'm' ∉ params) (hc : 'c' ∈ params)
    (impl : Impl) (nIter : ℕ) (ss : List (ObsSeq (Fin nf → ℝ))) (hne : ss ≠ []) (p : DiagPoint nc nf)
    (h : ChainModel p.π p.A)
    (hok : ∀ s ∈ ss, EstepOk impl p.π p.A (s.weights (diagB p.mu p.v))) :
    ∃ (θ' : Theta XF nc (DiagParams XF nc nf)) (l : XF),
      emStep (emissionDiag (prior g) fun i k => fin (cp i k)) (mapConfig sp tp params impl nIter)
        (dataX row ss) (dataLengths ss) p.theta = .ok (θ', l) ∧
      (∀ i k, θ'.emission.means i k = fin (p.mu i k)) ∧
      ∀ i k, θ'.emission.covars i k = fin ((cp i k + g.mw * (p.mu i k - g.mp i k) ^ 2 +
        weighted p.π p.A (diagB p.mu p.v) ss i fun x => x k ^ 2) /
          max (max (g.cw - 1) 0) (1 / 10 ^ 5)) := by
  have hstep := (diagFamily g cp params).emStep_ok ⟨sp, tp, impl, nIter⟩ ss hne (r := rpD p)
    (DiagPoint.valid h _) hok (fun hm' => absurd hm' hm)
  refine ⟨_, _, hstep, fun i k => ?_, fun i k => ?_⟩
  · show fin ((if 'm' ∈ params then _ else _ : ℝ)) = _
    rw [if_neg hm]; rfl
  · show fin ((if 'c' ∈ params then _ else _ : Fin nc → Fin nf → ℝ) i k) = _
    rw [if_pos hc]
    congr 1
    simp only [varNext, muNext, hm, if_false, gate, mul_zero, sub_zero, add_zero]
    congr 1
    rw [← add_assoc]; rfl

/-! ## Concrete cases -/

namespace DemoGauss

/-- Two states on a line. -/
noncomputable def p : DiagPoint 2 1 := ⟨Demo.π, Demo.A, ![![0], ![3]], fun _ _ => 1⟩
noncomputable def ss : List (ObsSeq (Fin 1 → ℝ)) := [⟨2, ![![0], ![2], ![5]]⟩, ⟨0, ![![1]]⟩]

theorem chain : ChainModel p.π p.A :=
  ⟨Demo.π_nonneg, Demo.A_nonneg, Demo.stochastic.π_sum.le, fun i => (Demo.stochastic.A_sum i).le⟩

theorem used : EveryStateUsed p.π p.A (diagB p.mu p.v) ss ∧ 0 < p.L ss :=
  everyStateUsed_of_pos (by simp [ss]) DemoCounts.π_pos DemoCounts.A_pos fun _ _ => diagB_pos _ _ _ _

/-- The default prior of `GaussianHMM` (`covars_prior=1e-2, covars_weight=1`) is proper. -/
example : (⟨fun _ _ => 0, 0, 1⟩ : GaussPrior 2 1).Proper fun _ _ => 1 / 100 :=
  ⟨le_rfl, le_rfl, fun _ _ => by norm_num⟩

example (ty : DiagType) (impl : Impl) (mon : Monitor XF) :=
  C22_gaussian ty (fun _ => 1) (fun _ _ => 1) (by simp) (by simp) ⟨fun _ _ => 0, 0, 1⟩
    (fun _ _ => 1 / 100) ⟨le_rfl, le_rfl, fun _ _ => by norm_num⟩ ['s', 't', 'm', 'c'] (by simp) impl 10
    ss (by simp [ss]) p (by cases ty <;> simp [DiagType.Shape, p]) chain used.2 (Or.inr used.1) mon

example (ty : DiagType) (impl : Impl) (mon : Monitor XF) :=
  C22_gaussian_flat ty (fun _ _ => 0) ['s', 't', 'm', 'c'] (by simp) impl 10
    ss (by simp [ss]) p (by cases ty <;> simp [DiagType.Shape, p]) chain used.2 used.1 mon

/-- A single state at 1; samples 0 and 2. -/
noncomputable def q : DiagPoint 1 1 := ⟨fun _ => 1, fun _ _ => 1, fun _ _ => 1, fun _ _ => 1⟩
noncomputable def qs : List (ObsSeq (Fin 1 → ℝ)) := [⟨1, ![![0], ![2]]⟩]

theorem q_chain : ChainModel q.π q.A := by constructor <;> simp [q]

theorem q_lik : ∀ s ∈ qs, 0 < likelihood q.π q.A (s.weights (diagB q.mu q.v)) :=
  DiagPoint.likelihoods q_chain (everyStateUsed_of_pos (by simp [qs]) (by simp [q]) (by simp [q])
    fun _ _ => diagB_pos _ _ _ _).2

theorem q_weighted (f : (Fin 1 → ℝ) → ℝ) :
    weighted q.π q.A (diagB q.mu q.v) qs 0 f = f ![0] + f ![2] := by
  have h1 : ∀ t, posterior q.π q.A (ObsSeq.weights (diagB q.mu q.v) ⟨1, ![![0], ![2]]⟩) t 0 = 1 := by
    intro t
    have := sum_posterior (q_lik _ (by simp [qs] : (⟨1, ![![0], ![2]]⟩ : ObsSeq (Fin 1 → ℝ)) ∈ qs)).ne' t
    simpa using this
  simp [weighted, qs, h1, Fin.sum_univ_two]

/-- **C45** A single state with fixed mean 1, samples 0 and 2, `params="c"`, default `covars_weight`,
zero `covars_prior`: the weighted scatter about the fixed mean is 1, the fitted variance `400000`. -/
theorem C45_wrong (nIter : ℕ) :
    weighted q.π q.A (diagB q.mu q.v) qs 0 (fun x => (x 0 - q.mu 0 0) ^ 2) /
      weighted q.π q.A (diagB q.mu q.v) qs 0 (fun _ => 1) = 1 ∧
    ∃ (θ' : Theta XF 1 (DiagParams XF 1 1)) (l : XF),
      emStep (emissionDiag (prior ⟨fun _ _ => 0, 0, 1⟩) fun _ _ => fin 0)
        (mapConfig (fun _ => 1) (fun _ _ => 1) ['c'] .log nIter) (dataX row qs) (dataLengths qs)
        q.theta = .ok (θ', l) ∧ θ'.emission.covars 0 0 = fin 400000 := by
  constructor
  · rw [q_weighted, q_weighted]; norm_num [q]
  · obtain ⟨θ', l, h1, _, h2⟩ := C45_diag (fun _ => 1) (fun _ _ => 1) ⟨fun _ _ => 0, 0, 1⟩
      (fun _ _ => 0) ['c'] (by simp) (by simp) .log nIter qs (by simp [qs]) q q_chain q_lik
    refine ⟨θ', l, h1, ?_⟩
    rw [h2, q_weighted]
    norm_num

end DemoGauss

end Verif
