import Verif.Proofs.VGaussianKinds
import Verif.Props.Variational

/-!
# Variational training of `VariationalGaussianHMM`: C65, C66
-/

set_option autoImplicit false

namespace Verif
open FloatLike XF Hmmc Spec
open scoped Matrix Classical

variable {nc nf : ℕ}

/-- The attributes of a `VariationalGaussianHMM` with normal–Wishart posteriors `p`; `dof` and `scale`
lay out degrees of freedom and inverse scale matrices. -/
noncomputable def vgaussTheta {Dof Sc : Type} (dof : (Fin nc → ℝ) → Dof)
    (scale : (Fin nc → Matrix (Fin nf) (Fin nf) ℝ) → Sc) (s : Fin nc → ℝ) (t : Fin nc → Fin nc → ℝ)
    (p : Fin nc → NW nf) (sp : Option (Fin nc → ℝ)) (tp : Option (Fin nc → Fin nc → ℝ))
    (cov : Option (Fin nc → Matrix (Fin nf) (Fin nf) ℝ)) : VTheta XF nc (VGaussian.Params XF nc nf Dof Sc) where
  startPost i := fin (s i)
  transPost i j := fin (t i j)
  startprob := sp.map fun p i => fin (p i)
  transmat := tp.map fun a i j => fin (a i j)
  emission := ⟨fun i => fin (p i).β, fun i k => fin ((p i).m k), dof fun i => (p i).ν, scale fun i => (p i).S,
    cov.map scale⟩

/-- `fit` with Dirichlet priors `sp`, `tp` and normal–Wishart priors `p₀`. -/
noncomputable def vgaussFit [NeZero nc] {Dof Sc St : Type} (K : VGaussian.Kind XF nc nf Dof Sc St)
    (dof : (Fin nc → ℝ) → Dof) (scale : (Fin nc → Matrix (Fin nf) (Fin nf) ℝ) → Sc) (sci : Sci XF)
    (sp : Fin nc → ℝ) (tp : Fin nc → Fin nc → ℝ) (p₀ : Fin nc → NW nf) (params : List Char) (impl : Impl)
    (nIter : ℕ) (ss : List (ObsSeq (Fin nf → ℝ))) (θ : VTheta XF nc (VGaussian.Params XF nc nf Dof Sc))
    (mon : Monitor XF) : FitOutcome XF (VTheta XF nc (VGaussian.Params XF nc nf Dof Sc)) :=
  (VGaussian.emission K sci ⟨fun i => fin (p₀ i).β, fun i k => fin ((p₀ i).m k), dof fun i => (p₀ i).ν,
      scale fun i => (p₀ i).S⟩).fitFrom sci (mapConfig sp tp params impl nIter)
    (dataX Gaussian.row ss) (some (dataLengths ss)) θ mon

variable [NeZero nc]

/-- Claim of C65 for one covariance type `ty` with program `K`.

For all proper priors and starting posteriors of the shape `ty` allows, every data set, `params` with
`'m'` if `'c'`, both implementations and every number of iterations: the attributes after `n` reported
iterations are those of `n` conjugate updates, `_covars_` is the inverse scale over the degrees of
freedom, the posteriors stay proper, the history holds the lower bounds and never decreases; with `log` and
`'t'`, `fit` returns. -/
def VGaussFitSpec {Dof Sc St : Type} (K : VGaussian.Kind XF nc nf Dof Sc St) (ty : CovType)
    (dof : (Fin nc → ℝ) → Dof) (scale : (Fin nc → Matrix (Fin nf) (Fin nf) ℝ) → Sc) : Prop :=
  ∀ {sci : Sci XF}, sci.Exact →
  ∀ {sp : Fin nc → ℝ} {tp : Fin nc → Fin nc → ℝ} {p₀ : Fin nc → NW nf}, (∀ i, 0 < sp i) → (∀ i j, 0 < tp i j) →
    (∀ i, (p₀ i).Proper) → Allowed ty p₀ →
  ∀ {params : List Char}, ('c' ∈ params → 'm' ∈ params) →
  ∀ (impl : Impl) (nIter : ℕ) {ss : List (ObsSeq (Fin nf → ℝ))}, ss ≠ [] →
  ∀ {s : Fin nc → ℝ} {t : Fin nc → Fin nc → ℝ} {p : Fin nc → NW nf}, (∀ i, 0 < s i) → (∀ i j, 0 < t i j) →
    (∀ i, (p i).Proper) → Allowed ty p →
  ∀ (sP : Option (Fin nc → ℝ)) (tP : Option (Fin nc → Fin nc → ℝ))
    (cov : Option (Fin nc → Matrix (Fin nf) (Fin nf) ℝ)) (mon : Monitor XF),
  let out := vgaussFit K dof scale sci sp tp p₀ params impl nIter ss (vgaussTheta dof scale s t p sP tP cov) mon
  let n := out.monitor.history.length
  ∃ (σ : ℕ → Fin nc → ℝ) (τ : ℕ → Fin nc → Fin nc → ℝ) (P : ℕ → Fin nc → NW nf),
    σ 0 = s ∧ τ 0 = t ∧ P 0 = p ∧ GaussUpdates ty sp tp p₀ params ss σ τ P ∧
    (∀ k, (∀ i, 0 < σ k i) ∧ (∀ i j, 0 < τ k i j) ∧ (∀ i, (P k i).Proper) ∧ Allowed ty (P k)) ∧
    n ≤ nIter ∧ (0 < nIter → out.raised = none → 0 < n) ∧
    out.state = vgaussTheta dof scale (σ n) (τ n) (P n)
      (if 's' ∈ params ∧ 0 < n then some (dirMean (σ n)) else sP)
      (if 't' ∈ params ∧ 0 < n then some (fun i => dirMean (τ n i)) else tP)
      (if 'c' ∈ params ∧ 0 < n then some (fun i => (P n i).covar) else cov) ∧
    out.monitor.history = (List.range n).map (fun k => fin (gaussLowerBound ty sp tp p₀ ss (σ k) (τ k) (P k))) ∧
    (Monotone fun k => gaussLowerBound ty sp tp p₀ ss (σ k) (τ k) (P k)) ∧
    (impl = .log → 't' ∈ params → out.raised = none)

namespace VGaussian
variable {Dof Sc St : Type} {K : Kind XF nc nf Dof Sc St} {ty : CovType}

theorem fitSpec [NeZero nf] (H : Holds K ty) : VGaussFitSpec K ty H.toDof H.toSc := by
  intro sci hsci sp tp p₀ hsp htp h₀ hA₀ params hcm impl nIter ss hne s t p hs ht hp hA sP tP cov mon out n
  let F := family H hsci h₀ hA₀ params hcm
  let c : RConfig nc := ⟨sp, tp, impl, nIter⟩
  let r0 : VR nc (R ty nc nf) := ⟨s, t, sP, tP, ⟨p, cov, hp, hA⟩⟩
  have hc : c.Pos := ⟨hsp, htp⟩
  have hr0 : r0.Pos := ⟨hs, ht⟩
  have hpos : ∀ k, ((F.vstep c ss)^[k] r0).Pos := F.iterate_pos hc ss hr0
  have hT : ∀ r : VR nc (R ty nc nf), r.Pos → PosLin (obsStat (expWeight r.s) (fun i => expWeight (r.t i))
      (nwB r.q.p) ss) := fun r hr =>
    obsStat_posLin hr.valid.π_nonneg hr.valid.A_nonneg (fun x i => (weight_pos _ _).le) ss
  have hq : ∀ (r : VR nc (R ty nc nf)) (hr : r.Pos), (F.vstep c ss r).q = ⟨nwUpdate ty params p₀ r.q.p
        (obsStat (expWeight r.s) (fun i => expWeight (r.t i)) (nwB r.q.p) ss),
      if 'c' ∈ params then some fun i => (nwUpdate ty params p₀ r.q.p
          (obsStat (expWeight r.s) (fun i => expWeight (r.t i)) (nwB r.q.p) ss) i).ν⁻¹ • (nwUpdate ty params p₀ r.q.p
          (obsStat (expWeight r.s) (fun i => expWeight (r.t i)) (nwB r.q.p) ss) i).S else r.q.cov,
      nwUpdate_proper ty params (hT r hr) h₀ r.q.proper, nwUpdate_allowed ty params hA₀ r.q.allowed⟩ := by
    intro r hr
    exact dif_pos (hT r hr)
  obtain ⟨h, h1, h2, h3, h4⟩ := vfitLoop_runs
    (step := (emission K sci (priorOf H.toDof H.toSc p₀)).step sci (mapConfig sp tp params impl nIter)
      (dataX Gaussian.row ss) (dataLengths ss)) nIter (vgaussTheta H.toDof H.toSc s t p sP tP cov) mon.reset
  have eh : out.monitor.history = h := h3
  obtain ⟨e1, e2⟩ := F.runs_real hsci hc hne hr0 h1
  rw [← eh] at e1 e2 h2 h4
  have e1' : out.state = F.theta ((F.vstep c ss)^[n] r0) := e1
  refine ⟨fun k => ((F.vstep c ss)^[k] r0).s, fun k => ((F.vstep c ss)^[k] r0).t,
    fun k => ((F.vstep c ss)^[k] r0).q.p, rfl, rfl, rfl, ⟨?_, ?_, ?_⟩, ?_, h2, h4, ?_, e2, ?_, ?_⟩
  · intro k; rw [Function.iterate_succ_apply']; rfl
  · intro k; rw [Function.iterate_succ_apply']; rfl
  · intro k; rw [Function.iterate_succ_apply', hq _ (hpos k)]
  · exact fun k => ⟨(hpos k).s, (hpos k).t, ((F.vstep c ss)^[k] r0).q.proper, ((F.vstep c ss)^[k] r0).q.allowed⟩
  · rw [e1']
    have key : ∀ k, ((F.vstep c ss)^[k] r0).sp =
          (if 's' ∈ params ∧ 0 < k then some (dirMean ((F.vstep c ss)^[k] r0).s) else sP) ∧
        ((F.vstep c ss)^[k] r0).tp =
          (if 't' ∈ params ∧ 0 < k then some (fun i => dirMean (((F.vstep c ss)^[k] r0).t i)) else tP) ∧
        ((F.vstep c ss)^[k] r0).q.cov = (if 'c' ∈ params ∧ 0 < k then
          some (fun i => (((F.vstep c ss)^[k] r0).q.p i).covar) else cov) := by
      intro k
      induction k with
      | zero => simp [r0]
      | succ k ih =>
        rw [Function.iterate_succ_apply']
        have hk := hpos k
        generalize (F.vstep c ss)^[k] r0 = r at ih hk
        obtain ⟨i1, i2, i3⟩ := ih
        refine ⟨?_, ?_, ?_⟩
        · by_cases h' : 's' ∈ params
          · simp [VFamily.vstep, h']
          · simp only [h', false_and, if_false] at i1 ⊢
            rw [← i1]; simp [VFamily.vstep, h']
        · by_cases h' : 't' ∈ params
          · simp [VFamily.vstep, h']
          · simp only [h', false_and, if_false] at i2 ⊢
            rw [← i2]; simp [VFamily.vstep, h']
        · rw [hq r hk]
          by_cases h' : 'c' ∈ params
          · simp [h', NW.covar]
          · simp only [h', false_and, if_false] at i3 ⊢
            exact i3
    obtain ⟨k1, k2, k3⟩ := key n
    rw [← k1, ← k2, ← k3]
    rfl
  · refine monotone_nat_of_le_succ fun k => ?_
    show F.lb c ss ((F.vstep c ss)^[k] r0) ≤ F.lb c ss ((F.vstep c ss)^[k + 1] r0)
    rw [Function.iterate_succ_apply']
    exact F.vstep_gain hc ss (hpos k)
  · intro hi hpar
    subst hi
    have run : ∀ (n : ℕ) (r : VR nc (R ty nc nf)) (mon : Monitor XF), r.Pos →
        (vfitLoop ((emission K sci (priorOf H.toDof H.toSc p₀)).step sci (c.toConfig params)
          (dataX Gaussian.row ss) (dataLengths ss)) n (F.theta r) mon).raised = none := by
      intro n
      induction n with
      | zero => intro r mon _; rfl
      | succ n ih =>
        intro r mon hr
        simp only [vfitLoop, F.step_real hsci hc hne hr (F.ok_log ss r)]
        split
        · rfl
        · have : (F.theta (F.vstep c ss r)).transmat =
              some fun i j => fin (dirMean ((F.vstep c ss r).t i) j) := by
            simp [VFamily.theta, VFamily.vstep, hpar]
          simp only [this]
          exact ih _ _ (F.vstep_pos hc ss hr)
    exact run nIter r0 mon.reset hr0

end VGaussian

variable [NeZero nf]

/-- **C65** `full`: `dof_posterior_[i]`, `scale_posterior_[i, k, l]`. -/
theorem C65_full : VGaussFitSpec (nc := nc) (nf := nf) VGaussian.full .full (fun ν i => fin (ν i))
    fun S i k l => fin (S i k l) := VGaussian.fitSpec VGaussian.holdsFull

/-- **C65** `tied`: a scalar `dof_posterior_`, `scale_posterior_[k, l]`. -/
theorem C65_tied : VGaussFitSpec (nc := nc) (nf := nf) VGaussian.tied .tied (fun ν => fin (ν 0))
    fun S k l => fin (S 0 k l) := VGaussian.fitSpec VGaussian.holdsTied

/-- **C65** `diag`: `scale_posterior_[i, k]` is a diagonal. -/
theorem C65_diag : VGaussFitSpec (nc := nc) (nf := nf) VGaussian.diag .diag (fun ν i => fin (ν i))
    fun S i k => fin (S i k k) := VGaussian.fitSpec VGaussian.holdsDiag

/-- **C65** `spherical`: `scale_posterior_[i]` is a multiple of the identity. -/
theorem C65_spherical : VGaussFitSpec (nc := nc) (nf := nf) VGaussian.spherical .spherical (fun ν i => fin (ν i))
    fun S i => fin (S i 0 0) := VGaussian.fitSpec VGaussian.holdsSpherical

/-! ## C67 -/

theorem obsStat_le {D : Type} {π : Fin nc → ℝ} {A : Fin nc → Fin nc → ℝ} {b : D → Fin nc → ℝ}
    (hπ : ∀ i, 0 ≤ π i) (hA : ∀ i j, 0 ≤ A i j) (hb : ∀ o i, 0 ≤ b o i) (ss : List (ObsSeq D))
    (hL : ∀ s ∈ ss, 0 < likelihood π A (s.weights b)) (i : Fin nc) {f : D → ℝ} (hf : ∀ o, 0 ≤ f o) :
    obsStat π A b ss i f ≤ (ss.map fun s => ∑ t, f (s.x t)).sum := by
  unfold obsStat
  refine List.sum_le_sum fun s hs => Finset.sum_le_sum fun t _ => ?_
  have h1 : posterior π A (s.weights b) t i ≤ 1 := by
    rw [← sum_posterior (hL s hs).ne' t]
    exact Finset.single_le_sum (f := fun i => posterior π A (s.weights b) t i)
      (fun j _ => posterior_nonneg' hπ hA hb s t j) (Finset.mem_univ i)
  exact mul_le_of_le_one_left (hf _) h1

/-- Claim of C67 for one covariance type: after a `fit` that returned, with at least one iteration and all
parameters updated, the estimator is the Gaussian HMM with start and transition probabilities the
posterior means (positive, summing to one), the means `m` and the positive definite covariance matrices
`S / ν`; and with `log` its `score` is the log-likelihood, a finite number.  For `diag` and `spherical`,
whose density replaces variances below `2⁻¹⁰²²`, the prior scale has to stay above that per sample. -/
def VGaussUsable {Dof Sc St : Type} (K : VGaussian.Kind XF nc nf Dof Sc St) (ty : CovType)
    (dof : (Fin nc → ℝ) → Dof) (scale : (Fin nc → Matrix (Fin nf) (Fin nf) ℝ) → Sc) : Prop :=
  ∀ {sci : Sci XF}, sci.Exact →
  ∀ {sp : Fin nc → ℝ} {tp : Fin nc → Fin nc → ℝ} {p₀ : Fin nc → NW nf}, (∀ i, 0 < sp i) → (∀ i j, 0 < tp i j) →
    (∀ i, (p₀ i).Proper) → Allowed ty p₀ →
  ∀ {params : List Char}, 's' ∈ params → 't' ∈ params → 'm' ∈ params → 'c' ∈ params →
  ∀ (impl : Impl) {nIter : ℕ}, 0 < nIter → ∀ {ss : List (ObsSeq (Fin nf → ℝ))}, ss ≠ [] →
    ((ty = .diag ∨ ty = .spherical) → ∀ i k, tinyVar * ((p₀ i).ν + numSamples ss) ≤ (p₀ i).S k k) →
  ∀ {s : Fin nc → ℝ} {t : Fin nc → Fin nc → ℝ} {p : Fin nc → NW nf}, (∀ i, 0 < s i) → (∀ i j, 0 < t i j) →
    (∀ i, (p i).Proper) → Allowed ty p →
  ∀ (sP : Option (Fin nc → ℝ)) (tP : Option (Fin nc → Fin nc → ℝ))
    (cov : Option (Fin nc → Matrix (Fin nf) (Fin nf) ℝ)) (mon : Monitor XF),
  let out := vgaussFit K dof scale sci sp tp p₀ params impl nIter ss (vgaussTheta dof scale s t p sP tP cov) mon
  out.raised = none →
  ∃ (σ : Fin nc → ℝ) (τ : Fin nc → Fin nc → ℝ) (P : Fin nc → NW nf),
    out.state = vgaussTheta dof scale σ τ P (some (dirMean σ)) (some fun i => dirMean (τ i))
      (some fun i => (P i).covar) ∧
    (∀ i, 0 < dirMean σ i) ∧ (∀ i j, 0 < dirMean (τ i) j) ∧ Stochastic (dirMean σ) (fun i => dirMean (τ i)) ∧
    (∀ i, (P i).covar.PosDef) ∧
    ∀ impl' : Impl, ∃ m : Hmm XF nc (Gaussian.Obs XF nf), VGaussian.point K impl' out.state = .ok m ∧
      m.implementation = impl' ∧
      Represents m Gaussian.row (dirMean σ) (fun i => dirMean (τ i)) (fun x i => mvnPdf (P i).m (P i).covar x) ∧
      ∀ ss' : List (ObsSeq (Fin nf → ℝ)), ss' ≠ [] →
        0 < dataLikelihood (dirMean σ) (fun i => dirMean (τ i)) (fun x i => mvnPdf (P i).m (P i).covar x) ss' ∧
        (impl' = .log → VGaussian.score K impl' out.state (dataX Gaussian.row ss') (some (dataLengths ss')) =
          .ok (fin (Real.log (dataLikelihood (dirMean σ) (fun i => dirMean (τ i))
            (fun x i => mvnPdf (P i).m (P i).covar x) ss'))))

theorem likelihood_pos_of_pos {D : Type} {π : Fin nc → ℝ} {A : Fin nc → Fin nc → ℝ} {b : D → Fin nc → ℝ}
    (hπ : ∀ i, 0 < π i) (hA : ∀ i j, 0 < A i j) (hb : ∀ o i, 0 < b o i) (s : ObsSeq D) :
    0 < likelihood π A (s.weights b) := by
  have z : Fin (s.n + 1) → Fin nc := fun _ => 0
  refine lt_of_lt_of_le ?_ (Finset.single_le_sum (f := fun z => joint π A (s.weights b) z)
    (fun z _ => joint_nonneg (fun i => (hπ i).le) (fun i j => (hA i j).le) (fun t i => (hb _ _).le) z)
    (Finset.mem_univ z))
  exact (joint_pos_iff (fun i => (hπ i).le) (fun i j => (hA i j).le) (fun t i => (hb _ _).le) z).2
    ⟨hπ _, fun t => hA _ _, fun t => hb _ _⟩

namespace VGaussian
variable {Dof Sc St : Type} {K : Kind XF nc nf Dof Sc St} {ty : CovType}

theorem usable (H : Holds K ty) : VGaussUsable K ty H.toDof H.toSc := by
  intro sci hsci sp tp p₀ hsp htp h₀ hA₀ params ps pt pm pc impl nIter hn ss hne htiny s t p hs ht hp hA sP tP cov mon
    out hraised
  obtain ⟨σ, τ, P, -, -, -, hU, hP, -, h0n, hstate, -⟩ := fitSpec H hsci hsp htp h₀ hA₀ (fun _ => pm) impl nIter hne
    hs ht hp hA sP tP cov mon
  have hpos := h0n hn hraised
  obtain ⟨k, hk⟩ := Nat.exists_eq_succ_of_ne_zero hpos.ne'
  have hst : out.state = _ := hstate
  simp only [ps, pt, pc, hpos, and_self, if_true] at hst
  rw [hk] at hst
  set Pn := P k.succ with hPn
  obtain ⟨q1, q2, q3, q4⟩ := hP k.succ
  have hcov : ∀ i, (Pn i).covar.PosDef := fun i => covar_posDef (q3 i)
  have hb : ∀ x i, 0 < mvnPdf (Pn i).m (Pn i).covar x := fun x i => Gaussian.mvnPdf_pos (hcov i) _ _
  have hres : (ty = .diag ∨ ty = .spherical) → ∀ i k, tinyVar ≤ (Pn i).covar k k := by
    intro hty i j
    have hπ : ∀ i, 0 ≤ expWeight (σ k) i := fun i => (expWeight_pos _ i).le
    have hA' : ∀ i j, 0 ≤ expWeight (τ k i) j := fun i j => (expWeight_pos _ j).le
    have hw : ∀ x i, 0 ≤ nwB (P k) x i := fun x i => (weight_pos _ _).le
    have hT := obsStat_posLin hπ hA' hw ss
    have hPk : Pn i = nwUpdate ty params p₀ (P k) (obsStat (expWeight (σ k)) (fun i => expWeight (τ k i))
      (nwB (P k)) ss) i := congrFun (hU.emit k) i
    have hN : obsStat (expWeight (σ k)) (fun i => expWeight (τ k i)) (nwB (P k)) ss i (fun _ => 1) ≤
        numSamples ss := by
      refine (obsStat_le hπ hA' hw ss (fun s _ => likelihood_pos_of_pos (fun i => expWeight_pos _ i)
        (fun i j => expWeight_pos _ j) (fun x i => weight_pos _ _) s) i fun _ => zero_le_one).trans ?_
      simp [numSamples, Function.comp_def]
    have hty' : ty ≠ .tied := by rcases hty with h | h <;> simp [h]
    have eν : (Pn i).ν = (p₀ i).ν + obsStat (expWeight (σ k)) (fun i => expWeight (τ k i)) (nwB (P k)) ss i
        (fun _ => 1) := by
      rw [hPk, nwUpdate_eq]; simp [pc, shareCount, hty']
    have eS : (p₀ i).S j j ≤ (Pn i).S j j := by
      have h : (Pn i).S = (p₀ i).S + shareScatter ty (CNext p₀ (obsStat (expWeight (σ k))
        (fun i => expWeight (τ k i)) (nwB (P k)) ss)) i := by rw [hPk, nwUpdate_eq]; simp [pc]
      rw [h, Matrix.add_apply]
      linarith [(share_psd ty (CNext_psd hT h₀) i).diag_nonneg (i := j)]
    have hνpos : 0 < (Pn i).ν := by
      have h1 : (1 : ℝ) ≤ nf := by exact_mod_cast NeZero.one_le
      linarith [(q3 i).ν]
    rw [NW.covar, Matrix.smul_apply, smul_eq_mul, inv_mul_eq_div, le_div_iff₀ hνpos]
    refine le_trans ?_ ((htiny hty i j).trans eS)
    exact mul_le_mul_of_nonneg_left (by linarith) tinyVar_pos.le
  refine ⟨σ k.succ, τ k.succ, Pn, hst, dirMean_pos q1, fun i => dirMean_pos (q2 i),
    ⟨sum_dirMean q1, fun i => sum_dirMean (q2 i)⟩, hcov, fun impl' => ?_⟩
  have hpt : point K impl' out.state = .ok
      { startprob := fun i => fin (dirMean (σ k.succ) i)
        transmat := fun i j => fin (dirMean (τ k.succ i) j)
        computeLikelihood := fun X => (K.density (fun i k => fin ((Pn i).m k))
          (H.toSc fun i => (Pn i).covar) X).map Gaussian.expRows
        computeLogLikelihood := K.density (fun i k => fin ((Pn i).m k)) (H.toSc fun i => (Pn i).covar)
        implementation := impl' } := by rw [hst]; rfl
  have hrep : Represents
      { startprob := fun i => fin (dirMean (σ k.succ) i)
        transmat := fun i j => fin (dirMean (τ k.succ i) j)
        computeLikelihood := fun X => (K.density (fun i k => fin ((Pn i).m k))
          (H.toSc fun i => (Pn i).covar) X).map Gaussian.expRows
        computeLogLikelihood := K.density (fun i k => fin ((Pn i).m k)) (H.toSc fun i => (Pn i).covar)
        implementation := impl' } Gaussian.row (dirMean (σ k.succ)) (fun i => dirMean (τ k.succ i))
      (fun x i => mvnPdf (Pn i).m (Pn i).covar x) :=
    { startprob_eq := rfl
      transmat_eq := rfl
      π_nonneg := fun i => (dirMean_pos q1 i).le
      A_nonneg := fun i j => (dirMean_pos (q2 i) j).le
      b_nonneg := fun x i => (hb x i).le
      lik_eq := fun X => by
        simp only [H.density_eq Pn q4 q3 hres X, Except.map]
        rw [Gaussian.expRows_log (fun x i => mvnPdf (Pn i).m (Pn i).covar x) fun x i => (hb x i).le]
      loglik_eq := fun X => H.density_eq Pn q4 q3 hres X }
  refine ⟨_, hpt, rfl, hrep, fun ss' hne' => ?_⟩
  have hL := (log_dataLikelihood (π := dirMean (σ k.succ)) (A := fun i => dirMean (τ k.succ i))
    (b := fun x i => mvnPdf (Pn i).m (Pn i).covar x) ss' fun s _ =>
      likelihood_pos_of_pos (dirMean_pos q1) (fun i => dirMean_pos (q2 i)) hb s).1
  refine ⟨hL, fun hi => ?_⟩
  unfold VGaussian.score
  simp only [hpt, bind, Except.bind]
  rw [C01_score_log hrep hi ss' hne']
  simp only [xlog, hL.ne', if_false]

end VGaussian

/-- **C67** `full` -/
theorem C67_full : VGaussUsable (nc := nc) (nf := nf) VGaussian.full .full (fun ν i => fin (ν i))
    fun S i k l => fin (S i k l) := VGaussian.usable VGaussian.holdsFull

/-- **C67** `tied` -/
theorem C67_tied : VGaussUsable (nc := nc) (nf := nf) VGaussian.tied .tied (fun ν => fin (ν 0))
    fun S k l => fin (S 0 k l) := VGaussian.usable VGaussian.holdsTied

/-- **C67** `diag` -/
theorem C67_diag : VGaussUsable (nc := nc) (nf := nf) VGaussian.diag .diag (fun ν i => fin (ν i))
    fun S i k => fin (S i k k) := VGaussian.usable VGaussian.holdsDiag

/-- **C67** `spherical` -/
theorem C67_spherical : VGaussUsable (nc := nc) (nf := nf) VGaussian.spherical .spherical (fun ν i => fin (ν i))
    fun S i => fin (S i 0 0) := VGaussian.usable VGaussian.holdsSpherical

/-! ## C66 -/

/-- **C66** `diag`, `'c'` in `params` and `'m'` not, one iteration with `log`, any data: `fit` returns; means and
precisions are unchanged, and the new scale is `S₀ + Σ E[x²] + β₀ m₀² - β m²` with the unchanged `β`, `m`. -/
theorem C66_formula {sci : Sci XF} (hsci : sci.Exact) {sp : Fin nc → ℝ} {tp : Fin nc → Fin nc → ℝ}
    {p₀ : Fin nc → NW nf} (hsp : ∀ i, 0 < sp i) (htp : ∀ i j, 0 < tp i j) (h₀ : ∀ i, (p₀ i).Proper)
    (hA₀ : Allowed .diag p₀) {params : List Char} (hc : 'c' ∈ params) (hm : 'm' ∉ params)
    {ss : List (ObsSeq (Fin nf → ℝ))} (hne : ss ≠ []) {s : Fin nc → ℝ} {t : Fin nc → Fin nc → ℝ}
    {p : Fin nc → NW nf} (hs : ∀ i, 0 < s i) (ht : ∀ i j, 0 < t i j) (hp : ∀ i, (p i).Proper)
    (hA : Allowed .diag p) (sP : Option (Fin nc → ℝ)) (tP : Option (Fin nc → Fin nc → ℝ))
    (cov : Option (Fin nc → Matrix (Fin nf) (Fin nf) ℝ)) {mon : Monitor XF} (hmon : mon.nIter = 1) :
    let out := vgaussFit VGaussian.diag (fun ν i => fin (ν i)) (fun S i k => fin (S i k k)) sci sp tp p₀ params .log
      1 ss (vgaussTheta (fun ν i => fin (ν i)) (fun S i k => fin (S i k k)) s t p sP tP cov) mon
    let T := obsStat (expWeight s) (fun i => expWeight (t i)) (nwB p) ss
    let scale : Fin nc → Fin nf → ℝ := fun i k => (p₀ i).S k k + T i (fun x => x k ^ 2) +
      (p₀ i).β * (p₀ i).m k ^ 2 - (p i).β * (p i).m k ^ 2
    out.raised = none ∧ out.state.emission =
      ⟨fun i => fin (p i).β, fun i k => fin ((p i).m k), fun i => fin ((p₀ i).ν + T i fun _ => 1),
        fun i k => fin (scale i k), some fun i k => fin (scale i k / ((p₀ i).ν + T i fun _ => 1))⟩ := by
  intro out T scale
  let H := VGaussian.holdsDiag (nc := nc) (nf := nf)
  let pr := VGaussian.priorOf H.toDof H.toSc p₀
  let F := VGaussian.coreFamily H hsci pr params
  let V := VGaussian.emission VGaussian.diag sci pr
  let c : RConfig nc := ⟨sp, tp, .log, 1⟩
  let q : VGaussian.R .diag nc nf := ⟨p, cov, hp, hA⟩
  let r : VR nc (VGaussian.R .diag nc nf) := ⟨s, t, sP, tP, q⟩
  let θ := vgaussTheta (fun ν i => fin (ν i)) (fun S (i : Fin nc) (k : Fin nf) => fin (S i k k)) s t p sP tP cov
  have hr : r.Pos := ⟨hs, ht⟩
  have hsub : V.subnorm sci θ = F.theta r.weights := by
    unfold VEmission.subnorm
    simp only [θ, vgaussTheta, memo_eq, logSubnorm_fin hsci hs, Family.theta]
    congr 1
    funext i
    rw [logSubnorm_fin hsci (ht i)]
    rfl
  have hL : ∀ s' : ObsSeq (Fin nf → ℝ), 0 < likelihood r.weights.π r.weights.A (s'.weights (F.b q)) := fun s' =>
    likelihood_pos_of_pos (fun i => expWeight_pos _ i) (fun i j => expWeight_pos _ j)
      (fun x i => VGaussian.weight_pos _ _) s'
  have hE := F.doEstep_real c ss hne hr.valid fun s' _ => hL s'
  have eL : lg (F.L ss r.weights) = fin (Real.log (F.L ss r.weights)) :=
    lg_pos (log_dataLikelihood (π := r.weights.π) (A := r.weights.A) (b := F.b q) ss fun s' _ => hL s').1
  have e1 : Kl.dirichlet sci θ.startPost (c.toConfig params).startprobPrior = fin (klDirichlet s sp) :=
    Kl.dirichlet_fin hsci hs hsp
  have e2 : negKlRows sci θ.transPost (c.toConfig params).transmatPrior =
    fin (-∑ i, klDirichlet (t i) (tp i)) := negKlRows_fin hsci ht htp
  have e3 : V.bound θ.emission = .ok (fin (-(klGauss .diag p p₀))) := VGaussian.bound_fin H hsci h₀ hA₀ q
  have hT : PosLin T := obsStat_posLin hr.valid.π_nonneg hr.valid.A_nonneg
    (fun x i => (VGaussian.weight_pos _ _).le) ss
  have hν : ∀ i, (p₀ i).ν + (T i fun _ => 1) ≠ 0 := fun i => by
    have h := (VGaussian.νNext_pos (ty := .diag) hT h₀ i).ne'
    simpa [shareCount] using h
  have hstep : ∃ v, V.step sci (c.toConfig params) (dataX Gaussian.row ss) (dataLengths ss) θ =
      .ok (V.doMstep (c.toConfig params) θ ⟨finBase ss.length
        (fun i => gate params 's' (startStat r.weights.π r.weights.A (F.b q) ss i))
        (fun i j => gate params 't' (transStat r.weights.π r.weights.A (F.b q) ss i j)), H.stat params T⟩, v) := by
    unfold VEmission.step
    rw [hsub]
    have hE' : doEstep V.core (c.toConfig params) (F.theta r.weights) (dataX Gaussian.row ss) (dataLengths ss) = _ :=
      hE
    rw [hE', eL]
    simp only [VEmission.lowerBound, e1, e2, e3, bind, Except.bind, pure, Except.pure]
    exact ⟨_, rfl⟩
  obtain ⟨v, hstep⟩ := hstep
  have hconv : (mon.reset.report v).converged = true := by
    simp [Monitor.converged, Monitor.report, Monitor.reset, hmon]
  have hout : out = ⟨V.doMstep (c.toConfig params) θ ⟨finBase ss.length
        (fun i => gate params 's' (startStat r.weights.π r.weights.A (F.b q) ss i))
        (fun i j => gate params 't' (transStat r.weights.π r.weights.A (F.b q) ss i j)), H.stat params T⟩,
      mon.reset.report v, none⟩ := by
    show vfitLoop (V.step sci (c.toConfig params) (dataX Gaussian.row ss) (dataLengths ss)) 1 θ mon.reset = _
    simp only [vfitLoop, hstep, hconv, if_true]
  refine ⟨by rw [hout], ?_⟩
  rw [hout]
  show VGaussian.mstep VGaussian.diag pr params θ.emission (H.stat params T) = _
  unfold VGaussian.mstep
  simp only [hm, hc, if_true, if_false]
  have hmn : 'm' ∈ VGaussian.needs params := by simp [VGaussian.needs, hc]
  have hcn := VGaussian.mem_needs_c hc
  have e : (VGaussian.diag (α := XF) (nc := nc) (nf := nf)).update pr θ.emission.beta θ.emission.means
      (H.stat params T) = (fun i => fin ((p₀ i).ν + T i fun _ => 1), fun i k => fin (scale i k),
        fun i k => fin (scale i k / ((p₀ i).ν + T i fun _ => 1))) := by
    show (VGaussian.diag (α := XF) (nc := nc) (nf := nf)).update pr θ.emission.beta θ.emission.means
      (Gaussian.statDiag (VGaussian.needs params) T) = _
    simp only [VGaussian.diag, memo_eq, Gaussian.statDiag, gate, hmn, hcn, if_true, pr, VGaussian.priorOf, θ, vgaussTheta]
    have e1 : ∀ i k, (H.toSc (fun i => (p₀ i).S) i k + fin (T i fun x => x k ^ 2) +
        fin (p₀ i).β * fin ((p₀ i).m k) * fin ((p₀ i).m k) - fin (p i).β * fin ((p i).m k) * fin ((p i).m k) : XF) =
        fin (scale i k) := by
      intro i k
      show (fin ((p₀ i).S k k) + _ + _ - _ : XF) = _
      simp only [fin_add, fin_mul, fin_sub, scale]
      congr 1; ring
    have e2 : ∀ i, (H.toDof (fun i => (p₀ i).ν) i + fin (T i fun _ => 1) : XF) =
        fin ((p₀ i).ν + T i fun _ => 1) := fun i => fin_add _ _
    simp only [e1, e2]
    congr 2
    funext i k
    exact fin_div _ _ (hν i)
  rw [e]
  rfl

/-- **C66** So a `scale_posterior_` and a variance become negative: whenever, for some state and feature, the
squared mean of the posterior, weighted by its precision, exceeds the prior terms plus the sum of squares of
the whole data set. -/
theorem C66_negative {sci : Sci XF} (hsci : sci.Exact) {sp : Fin nc → ℝ} {tp : Fin nc → Fin nc → ℝ}
    {p₀ : Fin nc → NW nf} (hsp : ∀ i, 0 < sp i) (htp : ∀ i j, 0 < tp i j) (h₀ : ∀ i, (p₀ i).Proper)
    (hA₀ : Allowed .diag p₀) {params : List Char} (hc : 'c' ∈ params) (hm : 'm' ∉ params)
    {ss : List (ObsSeq (Fin nf → ℝ))} (hne : ss ≠ []) {s : Fin nc → ℝ} {t : Fin nc → Fin nc → ℝ}
    {p : Fin nc → NW nf} (hs : ∀ i, 0 < s i) (ht : ∀ i j, 0 < t i j) (hp : ∀ i, (p i).Proper)
    (hA : Allowed .diag p) (sP : Option (Fin nc → ℝ)) (tP : Option (Fin nc → Fin nc → ℝ))
    (cov : Option (Fin nc → Matrix (Fin nf) (Fin nf) ℝ)) {mon : Monitor XF} (hmon : mon.nIter = 1)
    {i : Fin nc} {k : Fin nf} (hbig : (p₀ i).S k k + (ss.map fun s => ∑ t, s.x t k ^ 2).sum +
      (p₀ i).β * (p₀ i).m k ^ 2 < (p i).β * (p i).m k ^ 2) :
    let out := vgaussFit VGaussian.diag (fun ν i => fin (ν i)) (fun S i k => fin (S i k k)) sci sp tp p₀ params .log
      1 ss (vgaussTheta (fun ν i => fin (ν i)) (fun S i k => fin (S i k k)) s t p sP tP cov) mon
    out.raised = none ∧ (∃ v < (0 : ℝ), out.state.emission.scale i k = fin v) ∧
      ∃ C, out.state.emission.covars = some C ∧ ∃ v < (0 : ℝ), C i k = fin v := by
  intro out
  obtain ⟨h1, h2⟩ := C66_formula hsci hsp htp h₀ hA₀ hc hm hne hs ht hp hA sP tP cov hmon
  have hπ : ∀ i, 0 ≤ expWeight s i := fun i => (expWeight_pos _ i).le
  have hA' : ∀ i j, 0 ≤ expWeight (t i) j := fun i j => (expWeight_pos _ j).le
  have hw : ∀ x i, 0 ≤ nwB p x i := fun x i => (VGaussian.weight_pos _ _).le
  have hle := obsStat_le hπ hA' hw ss (fun s' _ => likelihood_pos_of_pos (fun i => expWeight_pos _ i)
    (fun i j => expWeight_pos _ j) (fun x i => VGaussian.weight_pos _ _) s') i (f := fun x => x k ^ 2)
    fun _ => sq_nonneg _
  have hT := obsStat_posLin hπ hA' hw ss
  have hν := VGaussian.νNext_pos (ty := .diag) hT h₀ i
  simp only [shareCount, reduceCtorEq, if_false] at hν
  refine ⟨h1, ⟨_, ?_, by rw [show out.state.emission = _ from h2]⟩, ⟨_, by rw [show out.state.emission = _ from h2],
    _, ?_, rfl⟩⟩
  · linarith
  · exact div_neg_of_neg_of_pos (by linarith) hν

/-! ## A concrete case -/

namespace VGDemo

/-- Two sequences of points in the plane. -/
def data : List (ObsSeq (Fin 2 → ℝ)) := [⟨2, ![![0, 1], ![3, 2], ![5, -1]]⟩, ⟨0, ![![1, 1]]⟩]

/-- Prior of each state: the default degrees of freedom and precision, scale `1/1000`. -/
noncomputable def p₀ (_ : Fin 2) : NW 2 := ⟨1, ![1, 1], 2, (1 / 1000 : ℝ) • 1⟩

/-- Starting posteriors. -/
noncomputable def p (i : Fin 2) : NW 2 := ⟨2, ![![0, 1], ![4, 0]] i, 3, (2 : ℝ) • 1⟩

theorem posDef_smul_one {c : ℝ} (hc : 0 < c) : (c • (1 : Matrix (Fin 2) (Fin 2) ℝ)).PosDef :=
  Matrix.PosDef.one.smul hc

theorem p₀_proper (i : Fin 2) : (p₀ i).Proper :=
  ⟨by norm_num [p₀], by norm_num [p₀], posDef_smul_one (by norm_num)⟩

theorem p_proper (i : Fin 2) : (p i).Proper :=
  ⟨by norm_num [p], by norm_num [p], posDef_smul_one (by norm_num)⟩

theorem smul_one_diag (c : ℝ) : (c • (1 : Matrix (Fin 2) (Fin 2) ℝ)) =
    Matrix.diagonal (c • (1 : Matrix (Fin 2) (Fin 2) ℝ)).diag := by
  ext k l
  by_cases hkl : k = l <;> simp [Matrix.diagonal_apply, Matrix.one_apply, hkl]

theorem p₀_allowed (ty : CovType) : Allowed ty p₀ := by
  cases ty with
  | full => trivial
  | tied => exact fun _ => ⟨rfl, rfl⟩
  | diag => exact fun _ => smul_one_diag _
  | spherical => exact fun _ => ⟨_, rfl⟩

theorem p_allowed (ty : CovType) : Allowed ty p := by
  cases ty with
  | full => trivial
  | tied => exact fun _ => ⟨rfl, rfl⟩
  | diag => exact fun _ => smul_one_diag _
  | spherical => exact fun _ => ⟨_, rfl⟩

/-- Five iterations, `tied`, all parameters. -/
example (mon : Monitor XF) :
    ∃ l : List ℝ, (vgaussFit VGaussian.tied (fun ν => fin (ν 0)) (fun S k l => fin (S 0 k l)) Sci.real
      (fun _ => 1/2) (fun _ _ => 1/2) p₀ ['s', 't', 'm', 'c'] .log 5 data
      (vgaussTheta (fun ν => fin (ν 0)) (fun S k l => fin (S 0 k l)) VDemo.s VDemo.t p none none none)
      mon).monitor.history = l.map XF.fin ∧ l.Pairwise (· ≤ ·) := by
  obtain ⟨σ, τ, P, -, -, -, -, -, -, -, -, h, hm, -⟩ := C65_tied Sci.real_exact (sp := fun _ => 1/2)
    (tp := fun _ _ => 1/2) (fun _ => by norm_num) (fun _ _ => by norm_num) p₀_proper (p₀_allowed _)
    (params := ['s', 't', 'm', 'c']) (by simp) .log 5 (ss := data) (by simp [data]) VDemo.s_pos VDemo.t_pos p_proper
    (p_allowed _) none none none mon
  refine ⟨_, h.trans (List.map_map (f := fun k => gaussLowerBound .tied (fun _ => 1/2) (fun _ _ => 1/2) p₀ data
    (σ k) (τ k) (P k)) (g := XF.fin)).symm, ?_⟩
  exact List.Pairwise.map _ (fun a b hab => hm (le_of_lt hab)) List.pairwise_lt_range

/-- The fitted model can be used, `full`. -/
example (mon : Monitor XF) : ∃ (σ : Fin 2 → ℝ) (τ : Fin 2 → Fin 2 → ℝ) (P : Fin 2 → NW 2),
    ∀ ss' : List (ObsSeq (Fin 2 → ℝ)), ss' ≠ [] →
      VGaussian.score VGaussian.full .log (vgaussFit VGaussian.full (fun ν i => fin (ν i))
        (fun S i k l => fin (S i k l)) Sci.real (fun _ => 1/2) (fun _ _ => 1/2) p₀ ['s', 't', 'm', 'c'] .log 5 data
        (vgaussTheta (fun ν i => fin (ν i)) (fun S i k l => fin (S i k l)) VDemo.s VDemo.t p none none none)
        mon).state (dataX Gaussian.row ss') (some (dataLengths ss')) =
      .ok (fin (Real.log (dataLikelihood (dirMean σ) (fun i => dirMean (τ i))
        (fun x i => mvnPdf (P i).m (P i).covar x) ss'))) := by
  have hr : (vgaussFit VGaussian.full (fun ν i => fin (ν i)) (fun S i k l => fin (S i k l)) Sci.real (fun _ => 1/2)
      (fun _ _ => 1/2) p₀ ['s', 't', 'm', 'c'] .log 5 data (vgaussTheta (fun ν i => fin (ν i))
        (fun S i k l => fin (S i k l)) VDemo.s VDemo.t p none none none) mon).raised = none := by
    obtain ⟨σ, τ, P, -, -, -, -, -, -, -, -, -, -, h⟩ := C65_full Sci.real_exact (sp := fun _ => 1/2)
      (tp := fun _ _ => 1/2) (fun _ => by norm_num) (fun _ _ => by norm_num) p₀_proper (p₀_allowed _)
      (params := ['s', 't', 'm', 'c']) (by simp) .log 5 (ss := data) (by simp [data]) VDemo.s_pos VDemo.t_pos p_proper
      (p_allowed _) none none none mon
    exact h rfl (by simp)
  obtain ⟨σ, τ, P, -, -, -, -, -, h⟩ := C67_full Sci.real_exact (sp := fun _ => 1/2)
    (tp := fun _ _ => 1/2) (fun _ => by norm_num) (fun _ _ => by norm_num) p₀_proper (p₀_allowed _)
    (params := ['s', 't', 'm', 'c']) (by simp) (by simp) (by simp) (by simp) .log (nIter := 5) (by norm_num)
    (ss := data) (by simp [data]) (by simp) VDemo.s_pos VDemo.t_pos p_proper (p_allowed _) none none none mon hr
  obtain ⟨m, -, -, -, h'⟩ := h .log
  exact ⟨σ, τ, P, fun ss' hne => (h' ss' hne).2 rfl⟩

/-- A posterior with mean ten. -/
noncomputable def far (_ : Fin 2) : NW 2 := ⟨2, ![10, 10], 3, (2 : ℝ) • 1⟩

/-- One observation at the origin. -/
def origin : List (ObsSeq (Fin 2 → ℝ)) := [⟨0, ![![0, 0]]⟩]

/-- Without `'m'`: a negative variance. -/
example (cov : Option (Fin 2 → Matrix (Fin 2) (Fin 2) ℝ)) : ∃ C, (vgaussFit VGaussian.diag (fun ν i => fin (ν i))
      (fun S i k => fin (S i k k)) Sci.real (fun _ : Fin 2 => 1/2) (fun _ _ => 1/2) p₀ ['s', 't', 'c'] .log 1
      origin (vgaussTheta (fun ν i => fin (ν i)) (fun S i k => fin (S i k k)) VDemo.s VDemo.t far none none cov)
      ⟨fin 0, 1, [], 0⟩).state.emission.covars = some C ∧ ∃ v < (0 : ℝ), C 0 0 = fin v := by
  have h := C66_negative Sci.real_exact (sp := fun _ => 1/2) (tp := fun _ _ => 1/2) (params := ['s', 't', 'c'])
    (ss := origin) (fun _ => by norm_num) (fun _ _ => by norm_num) p₀_proper (p₀_allowed _)
    (by simp) (by simp) (by simp [origin]) VDemo.s_pos VDemo.t_pos (p := far) (fun i => ⟨(p_proper i).β, (p_proper i).ν,
      (p_proper i).S⟩) (p_allowed .diag) none none cov (mon := ⟨fin 0, 1, [], 0⟩) rfl (i := 0) (k := 0)
    (by norm_num [p₀, far, origin])
  exact h.2.2

end VGDemo
end Verif
