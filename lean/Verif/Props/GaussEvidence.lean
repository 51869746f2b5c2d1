import Verif.Proofs.GaussEvidenceBound
import Verif.Props.VGaussFitDemo
import Verif.Props.Stops

/-!
# C88: the values in `monitor_.history` of a `VariationalGaussianHMM` are lower bounds of the log evidence
-/

set_option autoImplicit false

namespace Verif
open FloatLike XF Hmmc Spec MeasureTheory
open scoped Classical

variable {nc nf : ℕ}

/-! ## Any posteriors -/

section
variable [NeZero nc] [NeZero nf] {sp : Fin nc → ℝ} {tp : Fin nc → Fin nc → ℝ} {p₀ : Fin nc → NW nf}
  (hsp : ∀ i, 0 < sp i) (htp : ∀ i j, 0 < tp i j) (h₀ : ∀ i, (p₀ i).Proper)
include hsp htp h₀

/-- The lower bound of any posteriors the covariance type allows is at most the log evidence. -/
theorem gaussLowerBound_le {ty : CovType} {s : Fin nc → ℝ} {t : Fin nc → Fin nc → ℝ} {p : Fin nc → NW nf}
    (hs : ∀ i, 0 < s i) (ht : ∀ i j, 0 < t i j) (hp : ∀ i, (p i).Proper) (hA : Allowed ty p)
    (ss : List (ObsSeq (Fin nf → ℝ))) :
    (0 < gaussEvidence ty sp tp p₀ ss ∧ gaussEvidence ty sp tp p₀ ss < ⊤) ∧
      gaussLowerBound ty sp tp p₀ ss s t p ≤ gaussBoundary ty sp tp p₀ ss := by
  have hpos : 0 < dataLikelihood (expWeight s) (fun i => expWeight (t i)) (nwB p) ss :=
    dataLikelihood_pos (expWeight_pos _) (fun i j => expWeight_pos _ _) (fun o i => Real.exp_pos _) ss
  obtain ⟨hfin, hle⟩ := likelihood_le_gaussEvidence hsp htp h₀ hs ht hp hA ss
  have hE : 0 < (gaussEvidence ty sp tp p₀ ss).toReal :=
    pos_of_mul_pos_right (lt_of_lt_of_le (mul_pos hpos (Real.exp_pos _)) hle) (Real.exp_pos _).le
  refine ⟨⟨pos_iff_ne_zero.2 fun h => ?_, lt_top_iff_ne_top.2 hfin⟩, ?_⟩
  · rw [h] at hE; exact lt_irrefl _ hE
  have h := Real.log_le_log (mul_pos hpos (Real.exp_pos _)) hle
  rw [Real.log_mul hpos.ne' (Real.exp_pos _).ne', Real.log_mul (Real.exp_pos _).ne' hE.ne', Real.log_exp, Real.log_exp] at h
  unfold gaussLowerBound lowerBound gaussBoundary
  linarith

/-- **C88** The evidence is a positive number. -/
theorem C88_positive {ty : CovType} (hA : Allowed ty p₀) (ss : List (ObsSeq (Fin nf → ℝ))) :
    0 < gaussEvidence ty sp tp p₀ ss ∧ gaussEvidence ty sp tp p₀ ss < ⊤ :=
  (gaussLowerBound_le hsp htp h₀ hsp htp h₀ hA ss).1

end

/-! ## What `fit` reports -/

section Run
variable [NeZero nc] [NeZero nf]

/-- Claim of C88 for one covariance type: every value in the history of a `fit`, whatever the priors, `params`, the
implementation, the data and the starting posteriors, is at most the log evidence; and with a tolerance `τ > 0`, `fit`
stops by itself after at most `2 + (log evidence - first value) / τ` iterations. -/
def BelowEvidence {Dof Sc St : Type} (K : VGaussian.Kind XF nc nf Dof Sc St) (ty : CovType)
    (dof : (Fin nc → ℝ) → Dof) (scale : (Fin nc → Matrix (Fin nf) (Fin nf) ℝ) → Sc) : Prop :=
  ∀ {sci : Sci XF}, sci.Exact →
  ∀ {sp : Fin nc → ℝ} {tp : Fin nc → Fin nc → ℝ} {p₀ : Fin nc → NW nf}, (∀ i, 0 < sp i) → (∀ i j, 0 < tp i j) →
    (∀ i, (p₀ i).Proper) → Allowed ty p₀ →
  ∀ {params : List Char}, ('c' ∈ params → 'm' ∈ params) →
  ∀ (impl : Impl) (nIter : ℕ) {ss : List (ObsSeq (Fin nf → ℝ))}, ss ≠ [] →
  ∀ {s : Fin nc → ℝ} {t : Fin nc → Fin nc → ℝ} {p : Fin nc → NW nf}, (∀ i, 0 < s i) → (∀ i j, 0 < t i j) →
    (∀ i, (p i).Proper) → Allowed ty p →
  ∀ (sP : Option (Fin nc → ℝ)) (tP : Option (Fin nc → Fin nc → ℝ))
    (cov : Option (Fin nc → Matrix (Fin nf) (Fin nf) ℝ)) (mon : Monitor XF),
  let out := vgaussFit K dof scale sci sp tp p₀ params impl nIter ss (vgaussTheta dof scale s t p sP tP cov) mon
  (∀ v ∈ out.monitor.history, ∃ x : ℝ, v = fin x ∧ x ≤ gaussBoundary ty sp tp p₀ ss) ∧
  ∀ {τ : ℝ}, 0 < τ → mon.tol = fin τ → mon.nIter = nIter →
    StopsWithin (gaussBoundary ty sp tp p₀ ss) (gaussLowerBound ty sp tp p₀ ss s t p) τ nIter out.monitor.history out.raised

theorem below_evidence {Dof Sc St : Type} {K : VGaussian.Kind XF nc nf Dof Sc St} {ty : CovType}
    {dof : (Fin nc → ℝ) → Dof} {scale : (Fin nc → Matrix (Fin nf) (Fin nf) ℝ) → Sc}
    (H : VGaussFitSpec K ty dof scale) : BelowEvidence K ty dof scale := by
  intro sci hsci sp tp p₀ hsp htp h₀ hA₀ params hcm impl nIter ss hne s t p hs ht hp hA sP tP cov mon out
  obtain ⟨σ, ρ, P, e1, e2, e3, -, hpos, -, -, -, hh, -, -⟩ := H hsci hsp htp h₀ hA₀ hcm impl nIter hne hs ht hp hA sP tP cov mon
  have hle : ∀ k, gaussLowerBound ty sp tp p₀ ss (σ k) (ρ k) (P k) ≤ gaussBoundary ty sp tp p₀ ss := fun k => by
    obtain ⟨p1, p2, p3, p4⟩ := hpos k
    exact (gaussLowerBound_le hsp htp h₀ p1 p2 p3 p4 ss).2
  refine ⟨fun v hv => ?_, fun {τ} hτ htol hmon => ?_⟩
  · have hv' : v ∈ (List.range out.monitor.history.length).map
        (fun k => fin (gaussLowerBound ty sp tp p₀ ss (σ k) (ρ k) (P k))) := by
      rw [← hh]; exact hv
    obtain ⟨k, -, rfl⟩ := List.mem_map.1 hv'
    exact ⟨_, rfl, hle k⟩
  · refine (stopped_vfitLoop nIter _ mon.reset rfl).within hτ htol hmon (by have := hle 0; rwa [e1, e2, e3] at this)
      (l := (List.range out.monitor.history.length).map fun k => gaussLowerBound ty sp tp p₀ ss (σ k) (ρ k) (P k))
      (by rw [List.map_map]; exact hh) ?_ ?_
    · intro v hv
      obtain ⟨k, -, rfl⟩ := List.mem_map.1 hv
      exact hle k
    · intro v hv
      cases hn : out.monitor.history.length with
      | zero => rw [hn] at hv; simp at hv
      | succ n =>
        rw [hn, List.range_succ_eq_map] at hv
        simp only [List.map_cons, List.head?_cons, Option.mem_def, Option.some.injEq] at hv
        rw [← hv, e1, e2, e3]

/-- **C88** `full` -/
theorem C88_full : BelowEvidence (nc := nc) (nf := nf) VGaussian.full .full (fun ν i => fin (ν i))
    fun S i k l => fin (S i k l) := below_evidence C65_full

/-- **C88** `tied` -/
theorem C88_tied : BelowEvidence (nc := nc) (nf := nf) VGaussian.tied .tied (fun ν => fin (ν 0))
    fun S k l => fin (S 0 k l) := below_evidence C65_tied

/-- **C88** `diag` -/
theorem C88_diag : BelowEvidence (nc := nc) (nf := nf) VGaussian.diag .diag (fun ν i => fin (ν i))
    fun S i k => fin (S i k k) := below_evidence C65_diag

/-- **C88** `spherical` -/
theorem C88_spherical : BelowEvidence (nc := nc) (nf := nf) VGaussian.spherical .spherical (fun ν i => fin (ν i))
    fun S i => fin (S i 0 0) := below_evidence C65_spherical

end Run

/-! ## Objects -/

section
variable [NeZero nc] {ty : CovType}

theorem allowed_template {p : Fin nc → NW nf} {N : Fin nc → ℝ} {T : Matrix (Fin nf) (Fin nf) ℝ}
    (h : ∀ i, (p i).ν = shareCount ty N i ∧ (p i).S = (p i).ν • templatePart ty T) : Allowed ty p := by
  cases ty with
  | full => trivial
  | tied =>
    intro i
    have e : (p i).ν = (p 0).ν := by rw [(h i).1, (h 0).1]; simp [shareCount]
    exact ⟨e, by rw [(h i).2, (h 0).2, e]⟩
  | diag =>
    intro i
    rw [(h i).2, templatePart]
    ext k l
    by_cases hkl : k = l
    · subst hkl; simp
    · simp [hkl]
  | spherical =>
    intro i
    exact ⟨_, by rw [(h i).2, templatePart, smul_smul]⟩

end

section
variable {G : Type} {R : RandomLib XF G} {sci : Sci XF} {eig : Eigvalsh XF} {impl : Impl}
  {w : World XF G (VAttrs XF (VGaussAttrs XF))} [NeZero w.est.nComponents] {ss : List (ObsSeq (Fin nf → ℝ))}
  {ls : Option (List Int)}

/-- Claim of C88 for `fit` called on an object: the prior laws `p` are those it holds or those the constructor
arguments stand for (`VStartsGauss`). -/
def Spec.ReportsBelow (L : VLayout XF G) (sci : Sci XF) (eig : Eigvalsh XF) (R : RandomLib XF G)
    (w : World XF G (VAttrs XF (VGaussAttrs XF))) [NeZero w.est.nComponents] (ss : List (ObsSeq (Fin nf → ℝ)))
    (ls : Option (List Int)) : Prop :=
  ∃ p m₀ : GaussPost w.est.nComponents nf, VStartsGauss L.ty R w.est ss.length (samples ss) p m₀ ∧
    (0 < gaussEvidence L.ty p.s p.t p.p ss ∧ gaussEvidence L.ty p.s p.t p.p ss < ⊤) ∧
    ∀ v ∈ ((vgaussSub L sci eig).fit R (realsX (samples ss)) ls w).2.est.monitor.history,
      ∃ x : ℝ, v = fin x ∧ x ≤ gaussBoundary L.ty p.s p.t p.p ss

theorem reports_below [NeZero nf] {L : VLayout XF G} (h : FitsVGauss L sci eig R impl w ss ls) : ReportsBelow L sci eig R w ss ls := by
  obtain ⟨p, m₀, hm, hT⟩ := h
  obtain ⟨n, m, h0, -, -, hup, hst, hh, -⟩ := hT.run
  have hst' : VStoresGauss L.ty p ((vgaussSub L sci eig).fit R (realsX (samples ss)) ls w).2.est (m n) := hst
  have hup' : GaussUpdates L.ty p.s p.t p.p w.est.params ss (fun k => (m k).s) (fun k => (m k).t) (fun k => (m k).p) := hup
  obtain ⟨d, -, hd⟩ := hst'.dofPri
  obtain ⟨c, -, hc⟩ := hst'.scalePri
  have hA₀ : Allowed L.ty p.p := allowed_of_stores hd hc
  have hA : Allowed L.ty m₀.p := by
    by_cases hf : FreshCovars w.est
    · obtain ⟨g, c, -, -, h2⟩ := hm.init
      exact allowed_template (h2 hf).2.2
    · obtain ⟨-, ⟨d, -, hd⟩, -, c, -, hc⟩ := hm.keepsCovars hf
      exact allowed_of_stores hd hc
  have hk : ∀ k, (∀ i, 0 < (m k).s i) ∧ (∀ i j, 0 < (m k).t i j) ∧ (∀ i, ((m k).p i).Proper) ∧ Allowed L.ty (m k).p := by
    intro k
    induction k with
    | zero => rw [h0]; exact ⟨hm.chain.s_pos, hm.chain.t_pos, hm.proper, hA⟩
    | succ k ih =>
      obtain ⟨i1, i2, i3, i4⟩ := ih
      have hπ : ∀ i, 0 ≤ expWeight (m k).s i := fun i => (expWeight_pos _ i).le
      have hA' : ∀ i j, 0 ≤ expWeight ((m k).t i) j := fun i j => (expWeight_pos _ j).le
      have hw : ∀ x i, 0 ≤ nwB (m k).p x i := fun x i => (VGaussian.weight_pos _ _).le
      refine ⟨fun i => ?_, fun i j => ?_, fun i => ?_, ?_⟩
      · have := hup'.start k
        rw [this]
        split
        · exact add_pos_of_pos_of_nonneg (hm.chain.sp_pos i) (startStat_nonneg hπ hA' hw ss i)
        · exact i1 i
      · have := hup'.trans k
        rw [this]
        split
        · exact add_pos_of_pos_of_nonneg (hm.chain.tp_pos i j) (transStat_nonneg hπ hA' hw ss i j)
        · exact i2 i j
      · have := hup'.emit k
        rw [this]
        exact VGaussian.nwUpdate_proper L.ty w.est.params (obsStat_posLin hπ hA' hw ss) hm.prior i3 i
      · have := hup'.emit k
        rw [this]
        exact VGaussian.nwUpdate_allowed L.ty w.est.params hA₀ i4
  refine ⟨p, m₀, hm, C88_positive hm.chain.sp_pos hm.chain.tp_pos hm.prior hA₀ ss, fun v hv => ?_⟩
  rw [hh] at hv
  obtain ⟨k, -, rfl⟩ := List.mem_map.1 hv
  obtain ⟨p1, p2, p3, p4⟩ := hk k
  exact ⟨_, rfl, (gaussLowerBound_le hm.chain.sp_pos hm.chain.tp_pos hm.prior p1 p2 p3 p4 ss).2⟩

/-- **C88** `fit` of a `VariationalGaussianHMM(covariance_type="full")`: any data set, any priors that can be passed or
were set, any `params`, `init_params` and implementation. -/
theorem C88_object_full (hsci : sci.Exact) (heig : EigvalshSpec eig) (h : VGaussCall .full R impl w ss ls) :
    ReportsBelow (vlayoutFull eig) sci eig R w ss ls := by
  have : NeZero nf := ⟨h.columns⟩
  exact reports_below (C79_full hsci heig h)

/-- **C88** The same for `tied`. -/
theorem C88_object_tied (hsci : sci.Exact) (heig : EigvalshSpec eig) (h : VGaussCall .tied R impl w ss ls) :
    ReportsBelow (vlayoutTied eig) sci eig R w ss ls := by
  have : NeZero nf := ⟨h.columns⟩
  exact reports_below (C79_tied hsci heig h)

/-- **C88** The same for `diag`. -/
theorem C88_object_diag (hsci : sci.Exact) (heig : EigvalshSpec eig) (h : VGaussCall .diag R impl w ss ls) :
    ReportsBelow (vlayoutDiag eig) sci eig R w ss ls := by
  have : NeZero nf := ⟨h.columns⟩
  exact reports_below (C79_diag hsci heig h)

/-- **C88** The same for `spherical`. -/
theorem C88_object_spherical (hsci : sci.Exact) (heig : EigvalshSpec eig) (h : VGaussCall .spherical R impl w ss ls) :
    ReportsBelow (vlayoutSpherical eig) sci eig R w ss ls := by
  have : NeZero nf := ⟨h.columns⟩
  exact reports_below (C79_spherical hsci heig h)

end

/-! ## Concrete cases -/

/-- Five iterations, `tied`, all parameters. -/
example (mon : Monitor XF) := (C88_tied Sci.real_exact (sp := fun _ => 1/2)
    (tp := fun _ _ => 1/2) (fun _ => by norm_num) (fun _ _ => by norm_num) VGDemo.p₀_proper (VGDemo.p₀_allowed _)
    (params := ['s', 't', 'm', 'c']) (by simp) .log 5 (ss := VGDemo.data) (by simp [VGDemo.data]) VDemo.s_pos VDemo.t_pos
    VGDemo.p_proper (VGDemo.p_allowed _) none none none mon).1

example := (C88_diag Sci.real_exact (sp := fun _ => 1/2)
    (tp := fun _ _ => 1/2) (fun _ => by norm_num) (fun _ _ => by norm_num) VGDemo.p₀_proper (VGDemo.p₀_allowed _)
    (params := ['s', 't', 'm', 'c']) (by simp) .scaling 10 (ss := VGDemo.data) (by simp [VGDemo.data]) VDemo.s_pos VDemo.t_pos
    VGDemo.p_proper (VGDemo.p_allowed _) none none none stopMonitor).2 (τ := 1 / 100) (by norm_num) rfl rfl

example {eig : Eigvalsh XF} (he : EigvalshSpec eig) :
    ReportsBelow (vlayoutFull eig) Sci.real eig VGaussFitDemo.lib' VGaussFitDemo.world VGaussFitDemo.xs (some [3, 1]) :=
  C88_object_full Sci.real_exact he (VGaussFitDemo.call _)

example {eig : Eigvalsh XF} (he : EigvalshSpec eig) :
    ReportsBelow (vlayoutTied eig) Sci.real eig VGaussFitDemo.lib' VGaussFitDemo.world VGaussFitDemo.xs (some [3, 1]) :=
  C88_object_tied Sci.real_exact he (VGaussFitDemo.call _)

end Verif
