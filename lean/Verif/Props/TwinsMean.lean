import Verif.Props.Twins
import Verif.Props.Usable
import Verif.Props.IntWidthFit

/-!
# C107: equal states learn what a single state would learn
-/
set_option autoImplicit false

namespace Verif
open FloatLike XF Hmmc Spec Gaussian
open scoped Classical

variable {nc nf : ℕ} [NeZero nc]

section gmm
variable {nm : ℕ} {C V : Type} [NeZero nm]

/-- The claim C107 for `fit` of `GMMHMM`; `sameV` and `sameC` say that two states have equal covariances. -/
def Spec.FitKeepsTwins (i j : Fin nc) (K : Gmm.Kind XF nc nm nf C) (embed : V → C) (dens : CompDens nc nm nf V) (sameV : V → Prop)
    (sameC : C → Prop) : Prop :=
  ∀ (sp : Fin nc → ℝ) (tp : Fin nc → Fin nc → ℝ) (params : List Char) (impl : Impl) (nIter : ℕ)
    (ss : List (ObsSeq (Fin nf → ℝ))) (p : GmmPoint nc nm nf V) (mon : Monitor XF),
    (∀ i, 1 ≤ sp i) → (∀ i j, 1 ≤ tp i j) → ss ≠ [] → ChainModel p.π p.A →
    MixWeights p.w → 0 < p.L dens ss → EveryStateUsed p.π p.A (p.b dens) ss →
    Twins sp tp i j → Twins p.π p.A i j → p.w i = p.w j → p.mu i = p.mu j → sameV p.v →
    let out := gmmFit K sp tp params impl nIter ss (Gmm.theta embed p) mon
    Twins out.state.startprob out.state.transmat i j ∧ out.state.emission.weights i = out.state.emission.weights j ∧
      out.state.emission.means i = out.state.emission.means j ∧ sameC out.state.emission.covars

theorem keeps_of_name_free {i j : Fin nc} {K : Gmm.Kind XF nc nm nf C} {embed : V → C} {dens : CompDens nc nm nf V} {actV : V → V}
    {actC : C → C} (h : FitNameFree (Equiv.swap i j) K embed dens actV actC) :
    FitKeepsTwins i j K embed dens (fun v => actV v = v) fun c => actC c = c := by
  intro sp tp params impl nIter ss p mon hsp htp hne hc hw hL hu hst hπ hwij hm hv
  have := h sp tp params impl nIter ss p mon hsp htp hne hc hw hL hu
  have hp : p.relabel (Equiv.swap i j) actV = p := by
    obtain ⟨π, A, w, mu, v⟩ := p
    unfold Spec.GmmPoint.relabel
    congr 1
    · exact (twins_swap_iff.1 hπ).1
    · exact (twins_swap_iff.1 hπ).2
    · exact rows_swap_iff.2 hwij
    · exact rows_swap_iff.2 hm
  rw [(twins_swap_iff.1 hst).1, (twins_swap_iff.1 hst).2, hp] at this
  have h2 := (same_twins this).2
  exact ⟨(same_twins this).1, rows_swap_iff.1 (congrArg Gmm.Params.weights h2), rows_swap_iff.1 (congrArg Gmm.Params.means h2),
    congrArg Gmm.Params.covars h2⟩

theorem keeps_mono {i j : Fin nc} {K : Gmm.Kind XF nc nm nf C} {embed : V → C} {dens : CompDens nc nm nf V} {a a' : V → Prop}
    {b b' : C → Prop} (h : FitKeepsTwins i j K embed dens a b) (ha : ∀ v, a' v → a v) (hb : ∀ c, b c → b' c) :
    FitKeepsTwins i j K embed dens a' b' := by
  intro sp tp params impl nIter ss p mon hsp htp hne hc hw hL hu hst hπ hwij hm hv
  obtain ⟨h1, h2, h3, h4⟩ := h sp tp params impl nIter ss p mon hsp htp hne hc hw hL hu hst hπ hwij hm (ha _ hv)
  exact ⟨h1, h2, h3, hb _ h4⟩

variable (i j : Fin nc)

/-- **C107** `GMMHMM`, `diag`. -/
theorem C107_gmm_diag : FitKeepsTwins (nm := nm) (nf := nf) i j Gmm.diagDefault (fun v i k l => fin (v i k l)) diagComp
    (fun v => v i = v j) fun c => c i = c j :=
  keeps_mono (keeps_of_name_free (C58_fit_gmm_diag (Equiv.swap i j))) (fun _ => rows_swap_iff.2) fun _ => rows_swap_iff.1

/-- **C107** `GMMHMM`, `spherical`. -/
theorem C107_gmm_spherical [NeZero nf] (hn : nm ≤ nf) : FitKeepsTwins (nm := nm) (nf := nf) i j Gmm.sphericalDefault
    (fun v i k => fin (v i k)) sphericalComp (fun v => v i = v j) fun c => c i = c j :=
  keeps_mono (keeps_of_name_free (C58_fit_gmm_spherical (Equiv.swap i j) hn)) (fun _ => rows_swap_iff.2) fun _ => rows_swap_iff.1

/-- **C107** `GMMHMM`, `full`. -/
theorem C107_gmm_full : FitKeepsTwins (nm := nm) (nf := nf) i j Gmm.fullDefault (fun v i k l m => fin (v.S i k l m)) fullComp
    (fun v => v.S i = v.S j) fun c => c i = c j := by
  refine keeps_mono (keeps_of_name_free (C58_fit_gmm_full (Equiv.swap i j))) (fun v h => ?_) fun _ => rows_swap_iff.1
  obtain ⟨S, hS⟩ := v
  unfold PsdMix.relabel
  congr 1
  exact rows_swap_iff.2 h

/-- **C107** `GMMHMM`, `tied`. -/
theorem C107_gmm_tied : FitKeepsTwins (nm := nm) (nf := nf) i j Gmm.tiedDefault (fun v i l m => fin (v.S i l m)) tiedComp
    (fun v => v.S i = v.S j) fun c => c i = c j := by
  refine keeps_mono (keeps_of_name_free (C58_fit_gmm_tied (Equiv.swap i j))) (fun v h => ?_) fun _ => rows_swap_iff.1
  obtain ⟨S, hS⟩ := v
  unfold PsdState.relabel
  congr 1
  exact rows_swap_iff.2 h

end gmm

/-! ## All states equal -/

section uniform
variable {Obs D P S Q : Type} {E : Emission XF nc Obs P S} {obs : D → Obs} {ps : List Char}

theorem sum_obsStat {π : Fin nc → ℝ} {A : Fin nc → Fin nc → ℝ} {b : D → Fin nc → ℝ} (ss : List (ObsSeq D))
    (h : ∀ s ∈ ss, 0 < likelihood π A (s.weights b)) (f : D → ℝ) : ∑ i, obsStat π A b ss i f = grandTotal ss f := by
  induction ss with
  | nil => simp [obsStat, grandTotal]
  | cons s ss ih =>
    have ih := ih fun s' hs' => h s' (by simp [hs'])
    simp only [obsStat, grandTotal, List.map_cons, List.sum_cons, Finset.sum_add_distrib] at ih ⊢
    rw [ih, Finset.sum_comm]
    congr 1
    refine Finset.sum_congr rfl fun t _ => ?_
    rw [← Finset.sum_mul, sum_posterior (h s (by simp)).ne', one_mul]

/-- Equal states share every statistic equally. -/
theorem obsStat_equal (F : Family E obs ps Q) {act : Equiv.Perm (Fin nc) → Q → Q} {actP : Equiv.Perm (Fin nc) → P → P}
    (hrel : ∀ σ, F.Relabel F σ (act σ) (actP σ)) {r : RParams nc Q} (hsym : ∀ σ, r.relabel σ (act σ) = r) (ss : List (ObsSeq D))
    (h : ∀ s ∈ ss, 0 < likelihood r.π r.A (s.weights (F.b r.q))) :
    obsStat r.π r.A (F.b r.q) ss = fun _ f => grandTotal ss f / nc := by
  have key : ∀ i j f, obsStat r.π r.A (F.b r.q) ss i f = obsStat r.π r.A (F.b r.q) ss j f := by
    intro i j f
    have h1 := obsStat_relabel (Equiv.swap i j) r.π r.A (F.b r.q) ss
    have h2 := hsym (Equiv.swap i j)
    have h3 : obsStat (r.relabel (Equiv.swap i j) (act (Equiv.swap i j))).π (r.relabel (Equiv.swap i j) (act (Equiv.swap i j))).A
        (F.b (r.relabel (Equiv.swap i j) (act (Equiv.swap i j))).q) ss = fun k => obsStat r.π r.A (F.b r.q) ss (Equiv.swap i j k) := by
      rw [← h1]
      show obsStat _ _ (F.b (act (Equiv.swap i j) r.q)) ss = _
      rw [(hrel (Equiv.swap i j)).b_eq]
      rfl
    rw [h2] at h3
    have := congrFun (congrFun h3 i) f
    rwa [Equiv.swap_apply_left] at this
  funext i f
  have := sum_obsStat ss h f
  rw [Finset.sum_congr rfl fun j _ => key j i f] at this
  rw [← this]
  simp only [Finset.sum_const, Finset.card_univ, Fintype.card_fin, nsmul_eq_mul]
  rw [mul_comm, mul_div_assoc, div_self (Nat.cast_ne_zero.2 (NeZero.ne nc)), mul_one]

/-- The last iterate comes from equal shares. -/
theorem fit_equal (F : Family E obs ps Q) {act : Equiv.Perm (Fin nc) → Q → Q} {actP : Equiv.Perm (Fin nc) → P → P}
    (hrel : ∀ σ, F.Relabel F σ (act σ) (actP σ)) {c : RConfig nc} (hc : ∀ σ, c.relabel σ = c) {ss : List (ObsSeq D)}
    {I : RParams nc Q → Prop} (hI : F.Closed c ss I) (hpos : ∀ r, I r → ∀ s ∈ ss, 0 < likelihood r.π r.A (s.weights (F.b r.q)))
    (hne : ss ≠ []) (hp : 's' ∈ ps → ∀ i, 1 ≤ c.sp i) {r : RParams nc Q} (hr : I r) (hsym : ∀ σ, r.relabel σ (act σ) = r)
    (mon : Monitor XF) (hraise : (F.fit c ss r mon).raised = none) (hit : c.nIter ≠ 0) :
    ∃ q, (F.fit c ss r mon).state.emission = F.embed (F.next q fun _ f => grandTotal ss f / nc) := by
  obtain ⟨h1, -, -, h4⟩ := F.fit_real hI hne hp hr mon
  have hh := F.history_pos hraise hit
  obtain ⟨n, hn⟩ := Nat.exists_eq_succ_of_ne_zero hh.ne'
  have hs : ∀ m, ∀ σ, ((F.rstep c ss)^[m] r).relabel σ (act σ) = (F.rstep c ss)^[m] r := by
    intro m
    induction m with
    | zero => exact hsym
    | succ m ih =>
      intro σ
      rw [Function.iterate_succ_apply']
      have := (hrel σ).rstep_eq c ss ((F.rstep c ss)^[m] r)
      rw [ih σ, hc σ] at this
      exact this.symm
  have hk := h4 n (by omega)
  rw [hn, Function.iterate_succ_apply'] at h1
  refine ⟨((F.rstep c ss)^[n] r).q, ?_⟩
  rw [h1]
  show F.embed (F.next _ (obsStat _ _ _ ss)) = _
  rw [obsStat_equal F hrel (hs n) ss (hpos _ hk)]

end uniform

theorem sampleCount_pos {D : Type} {ss : List (ObsSeq D)} (hne : ss ≠ []) : (0 : ℝ) < sampleCount ss := by
  obtain ⟨s, hs⟩ := List.exists_mem_of_ne_nil ss hne
  have : s.n + 1 ≤ sampleCount ss := List.single_le_sum (fun _ _ => Nat.zero_le _) _ (List.mem_map.2 ⟨s, hs, rfl⟩)
  exact_mod_cast (by omega : 0 < sampleCount ss)

theorem grandTotal_one {D : Type} (ss : List (ObsSeq D)) : grandTotal ss (fun _ => 1) = sampleCount ss := by
  induction ss with
  | nil => simp [grandTotal, sampleCount]
  | cons s ss ih =>
    simp only [grandTotal, sampleCount, List.map_cons, List.sum_cons, Nat.cast_add] at ih ⊢
    rw [ih]
    simp

theorem grandTotal_dev {D : Type} (ss : List (ObsSeq D)) (f : D → ℝ) (m : ℝ) : grandTotal ss (fun x => (f x - m) ^ 2) =
    grandTotal ss (fun x => f x ^ 2) - 2 * m * grandTotal ss f + m ^ 2 * grandTotal ss fun _ => 1 := by
  induction ss with
  | nil => simp [grandTotal]
  | cons s ss ih =>
    simp only [grandTotal, List.map_cons, List.sum_cons] at ih ⊢
    rw [ih]
    have : ∑ t, (f (s.x t) - m) ^ 2 = ∑ t, f (s.x t) ^ 2 - 2 * m * ∑ t, f (s.x t) + m ^ 2 * ∑ _t : Fin (s.n + 1), (1 : ℝ) := by
      rw [Finset.mul_sum, Finset.mul_sum, ← Finset.sum_sub_distrib, ← Finset.sum_add_distrib]
      exact Finset.sum_congr rfl fun t _ => by ring
    rw [this]
    ring

omit [NeZero nc] in
theorem all_twins {β : Type} {s : Fin nc → β} {A : Fin nc → Fin nc → β} (h : ∀ i j, Twins s A i j) (σ : Equiv.Perm (Fin nc)) :
    (fun k => s (σ k)) = s ∧ (fun k l => A (σ k) (σ l)) = A := by
  refine ⟨funext fun k => (h _ _).start, ?_⟩
  induction σ using Equiv.Perm.swap_induction_on with
  | one => rfl
  | swap_mul f x y _ ih =>
    funext k l
    have := congrFun (congrFun (twins_swap_iff.1 (h x y)).2 (f k)) (f l)
    exact this.trans (congrFun (congrFun ih k) l)

variable {π : Fin nc → ℝ} {A : Fin nc → Fin nc → ℝ} (sp : Fin nc → ℝ) (tp : Fin nc → Fin nc → ℝ) (hsp : ∀ i, 1 ≤ sp i)
  (htp : ∀ i j, 1 ≤ tp i j) (hst : ∀ i j, Twins sp tp i j) (params : List Char) (impl : Impl) (nIter : ℕ) (hit : nIter ≠ 0)
  (mon : Monitor XF)

include hsp htp hst hit in
/-- **C107** `PoissonHMM` whose states are all equal: after any number of iterations the rate of each state is that which
a single state gets from all samples. -/
theorem C107_poisson_pooled (l0 al be : Fin nf → ℝ) (hal : ∀ k, 0 ≤ al k) (hbe : ∀ k, 0 ≤ be k) (hl : 'l' ∈ params)
    (ss : List (ObsSeq (Fin nf → ℕ))) (hne : ss ≠ []) (h : PoissonModel π A fun _ => l0)
    (hL : 0 < dataLikelihood π A (poissonB fun _ => l0) ss) (hu : EveryStateUsed π A (poissonB fun _ => l0) ss)
    (hπ : ∀ i j, Twins π A i j) :
    let out := poissonFit sp tp (fun _ => al) (fun _ => be) params impl nIter ss (Poisson.params π A fun _ => l0) mon
    out.raised = none → ∀ i k, out.state.emission i k =
      fin ((al k + grandTotal ss fun x => (x k : ℝ)) / (be k + sampleCount ss)) := by
  intro out hraise i k
  let F := Poisson.family (fun _ : Fin nc => al) (fun _ => be) (fun _ => hal) (fun _ => hbe) params
  obtain ⟨q, hq⟩ := fit_equal F (act := fun σ => Poisson.Rates.relabel σ) (actP := fun σ => Spec.rows σ)
    (fun σ => Poisson.family_relabel σ (fun _ => al) (fun _ => be) (fun _ => hal) (fun _ => hbe) params) (c := ⟨sp, tp, impl, nIter⟩)
    (fun σ => by
      show RConfig.mk (fun i => sp (σ i)) (fun i j => tp (σ i) (σ j)) impl nIter = _
      rw [(all_twins hst σ).1, (all_twins hst σ).2])
    (Poisson.closed _ _ _ _ params _ ss (fun _ => hsp) fun _ => htp) (fun r hr => hr.2.1) hne (fun _ => hsp) (r := h.rp)
    ⟨h.valid, h.ok hL, hu⟩
    (fun σ => by
      show RParams.mk (fun i => π (σ i)) (fun i j => A (σ i) (σ j)) _ = _
      rw [(all_twins hπ σ).1, (all_twins hπ σ).2]
      rfl) mon hraise hit
  have hq' : out.state.emission = _ := hq
  rw [hq']
  show fin ((if 'l' ∈ params then (⟨fun i k => max 0 (Poisson.upd _ _ _ i k), fun i k => le_max_left _ _⟩ : Poisson.Rates nc nf) else q).l i k) = _
  rw [if_pos hl]
  have hnc : (0 : ℝ) < nc := Nat.cast_pos.2 (NeZero.pos nc)
  have hN := sampleCount_pos hne
  have hT : 0 ≤ grandTotal ss fun x => (x k : ℝ) :=
    List.sum_nonneg fun y hy => by
      obtain ⟨s, -, rfl⟩ := List.mem_map.1 hy
      exact Finset.sum_nonneg fun t _ => Nat.cast_nonneg _
  have e : Poisson.upd (fun _ : Fin nc => al) (fun _ => be) (fun _ f => grandTotal ss f / nc) i k =
      (al k + grandTotal ss fun x => (x k : ℝ)) / (be k + sampleCount ss) := by
    unfold Poisson.upd
    simp only [grandTotal_one, Finset.sum_const, Finset.card_univ, Fintype.card_fin, nsmul_eq_mul]
    have e1 : (nc : ℝ) * ((sampleCount ss : ℝ) / nc) = sampleCount ss := by field_simp
    rw [e1]
    congr 2
    field_simp
  show fin (max 0 (Poisson.upd (fun _ : Fin nc => al) (fun _ => be) (fun _ f => grandTotal ss f / nc) i k)) = _
  rw [e, max_eq_right]
  exact div_nonneg (add_nonneg (hal k) hT) (add_nonneg (hbe k) hN.le)

include hsp htp hst hit in
/-- **C107** `GaussianHMM` (`diag`, no prior on the means) whose states are all equal: every mean is the mean of all
samples, every variance their scatter, to which each state contributes its own `covars_prior`. -/
theorem C107_gaussian_pooled (mp m0 v0 cp : Fin nf → ℝ) (cw : ℝ) (hm : 'm' ∈ params) (hc : 'c' ∈ params)
    (ss : List (ObsSeq (Fin nf → ℝ))) (hne : ss ≠ []) (h : ChainModel π A) (hL : 0 < dataLikelihood π A (diagB (fun _ => m0) fun _ => v0) ss)
    (hu : EveryStateUsed π A (diagB (fun _ => m0) fun _ => v0) ss) (hπ : ∀ i j, Twins π A i j) :
    let out := gaussFit .diag sp tp ⟨fun _ => mp, 0, cw⟩ (fun _ => cp) params impl nIter ss
      (DiagPoint.theta ⟨π, A, fun _ => m0, fun _ => v0⟩) mon
    out.raised = none → ∀ i k, out.state.emission.means i k = fin (grandMean ss fun x => x k) ∧
      out.state.emission.covars i k = fin ((cp k + (grandTotal ss fun x => (x k - grandMean ss fun x => x k) ^ 2) / nc) /
        max (max (cw - 1) 0 + sampleCount ss / nc) (1 / 10 ^ 5)) := by
  intro out hraise i k
  let g : GaussPrior nc nf := ⟨fun _ => mp, 0, cw⟩
  let p : DiagPoint nc nf := ⟨π, A, fun _ => m0, fun _ => v0⟩
  let F := diagFamily g (fun _ => cp) params
  obtain ⟨q, hq⟩ := fit_equal F (act := fun σ => RDiag.relabel σ) (actP := fun σ => DiagParams.relabel σ)
    (fun σ => diag_relabel σ g (fun _ => cp) params) (c := ⟨sp, tp, impl, nIter⟩)
    (fun σ => by
      show RConfig.mk (fun i => sp (σ i)) (fun i j => tp (σ i) (σ j)) impl nIter = _
      rw [(all_twins hst σ).1, (all_twins hst σ).2])
    (diag_closed g le_rfl (fun _ => cp) params _ ss (fun _ => hsp) fun _ => htp) (fun r hr => hr.2.1) hne (fun _ => hsp) (r := rpD p)
    ⟨DiagPoint.valid h _, DiagPoint.likelihoods (p := p) h hL, fun _ => hu⟩
    (fun σ => by
      show RParams.mk (fun i => π (σ i)) (fun i j => A (σ i) (σ j)) _ = _
      rw [(all_twins hπ σ).1, (all_twins hπ σ).2]
      rfl) mon hraise hit
  have hq' : out.state.emission = _ := hq
  have hnc : (0 : ℝ) < nc := Nat.cast_pos.2 (NeZero.pos nc)
  have hN := sampleCount_pos hne
  have e : ∀ i k, muNext g params q.mu (fun _ f => grandTotal ss f / nc) i k = grandMean ss fun x => x k := by
    intro i k
    unfold muNext grandMean
    rw [if_pos hm]
    show (0 * mp k + (grandTotal ss fun x => x k) / nc) / (0 + (grandTotal ss fun _ => 1) / nc) = _
    rw [grandTotal_one, zero_mul, zero_add, zero_add]
    field_simp
  rw [hq']
  refine ⟨congrArg fin (e i k), ?_⟩
  show fin ((if 'c' ∈ params then varNext g (fun _ => cp) params (muNext g params q.mu fun _ f => grandTotal ss f / nc)
    (fun _ f => grandTotal ss f / nc) else q.v) i k) = _
  rw [if_pos hc]
  congr 1
  unfold varNext
  simp only [gate, hm, if_true, e, grandTotal_one]
  rw [grandTotal_dev, grandTotal_one]
  congr 1
  show cp k + (0 * _ + _ - _ + _) = _
  ring

end Verif
